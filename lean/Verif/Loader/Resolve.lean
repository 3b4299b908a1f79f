import Verif.Loader.Outcome
/-
C54: the dependencies are evaluated before the modules that use them.  C55: which `use` wins.
-/
namespace Verif.Loader
open Verif.Ast

theorem chain_needs {mainPath : MPath} {required : List MPath} {loaded : List (MPath × Mod)} {g : Graph}
    (he : ∀ i j, (i, j) ∈ g.edges ↔ ∃ p q, g.nodes[i]? = some p ∧ g.nodes[j]? = some q ∧ Needs mainPath required loaded p q)
    (l : List Nat) {i j : Nat} {p q : MPath} (hi : g.nodes[i]? = some p) (hj : g.nodes[j]? = some q) (h : Chain g (i :: (l ++ [j]))) :
    Relation.TransGen (Needs mainPath required loaded) p q := by
  induction l generalizing i p with
  | nil =>
    obtain ⟨p', q', h1, h2, h3⟩ := (he i j).mp h.1
    rw [hi] at h1; rw [hj] at h2; cases h1; cases h2
    exact .single h3
  | cons k l ih =>
    obtain ⟨p', q', h1, h2, h3⟩ := (he i k).mp h.1
    rw [hi] at h1; cases h1
    exact .head h3 (ih h2 h.2)

theorem mergeReqs_congr {scopes scopes' : List (MPath × Scope)} {sc : Scope} {ps : List MPath}
    (h : ∀ q ∈ ps, scopes.lookup q = scopes'.lookup q) : mergeReqs scopes sc ps = mergeReqs scopes' sc ps := by
  induction ps generalizing sc with
  | nil => rfl
  | cons p ps ih =>
    rw [mergeReqs, mergeReqs, h p (by simp)]
    split
    · rfl
    · exact ih fun q hq => h q (List.mem_cons_of_mem _ hq)

/-- The scopes of the loaded modules. -/
def scopesOf (loaded : List (MPath × Mod)) : List (MPath × Scope) := loaded.map fun e => (e.1, e.2.scope)

theorem evalDeps_order {order : List MPath} {loaded : List (MPath × Mod)} {scopes : List (MPath × Scope)} {o : DepsOut}
    (h : EvalDeps order loaded scopes o) : ∀ loaded', o = .ok loaded' →
      (∀ q, scopes.lookup q = (loaded.lookup q).map (·.scope)) → order.Nodup →
      (∀ l1 p l2, order = l1 ++ p :: l2 → ∀ m, loaded.lookup p = some m → ∀ q ∈ m.required, q ∉ p :: l2) →
      (∀ q, q ∉ order → loaded'.lookup q = loaded.lookup q) ∧
      (∀ p ∈ order, ∀ m, loaded.lookup p = some m → m.needsEval = false → loaded'.lookup p = some m) ∧
      ∀ p ∈ order, ∀ m, loaded.lookup p = some m → m.needsEval = true → ∃ sc sc',
        mergeReqs (scopesOf loaded') m.scope m.required.reverse = some sc ∧ EvalScope sc (.ok sc') ∧
        loaded'.lookup p = some { m with scope := sc' } := by
  induction h with
  | nil =>
    rintro loaded' ⟨⟩ _ _ _
    exact ⟨fun _ _ => rfl, by simp, by simp⟩
  | @skip p ps loaded scopes o hl _ ih =>
    intro loaded' ho hs hn hb
    rw [List.nodup_cons] at hn
    obtain ⟨h1, h2, h3⟩ := ih loaded' ho hs hn.2 (fun l1 q l2 e => hb (p :: l1) q l2 (by rw [e]; rfl))
    refine ⟨fun q hq => h1 q (fun h => hq (List.mem_cons_of_mem _ h)), fun q hq m hm => ?_, fun q hq m hm => ?_⟩
    · rcases List.mem_cons.mp hq with rfl | hq
      · rw [hl] at hm; cases hm
      · exact h2 q hq m hm
    · rcases List.mem_cons.mp hq with rfl | hq
      · rw [hl] at hm; cases hm
      · exact h3 q hq m hm
  | @evaled p ps loaded scopes o m hl he _ ih =>
    intro loaded' ho hs hn hb
    rw [List.nodup_cons] at hn
    obtain ⟨h1, h2, h3⟩ := ih loaded' ho hs hn.2 (fun l1 q l2 e => hb (p :: l1) q l2 (by rw [e]; rfl))
    refine ⟨fun q hq => h1 q (fun h => hq (List.mem_cons_of_mem _ h)), fun q hq m' hm hm' => ?_, fun q hq m' hm hm' => ?_⟩
    · rcases List.mem_cons.mp hq with rfl | hq
      · rw [h1 q hn.1]; exact hm
      · exact h2 q hq m' hm hm'
    · rcases List.mem_cons.mp hq with rfl | hq
      · rw [hl] at hm; cases hm; rw [he] at hm'; cases hm'
      · exact h3 q hq m' hm hm'
  | missing => rintro _ ⟨⟩
  | err => rintro _ ⟨⟩
  | panic => rintro _ ⟨⟩
  | @eval p ps loaded scopes m sc sc' o hl he hmr hev _ ih =>
    intro loaded' ho hs hn hb
    rw [List.nodup_cons] at hn
    have hls := fun q => lookup_setScope loaded p q sc'
    have hne : ∀ q, q ≠ p → (setScope loaded p sc').lookup q = loaded.lookup q := by
      intro q hq
      rw [hls]; simp [hq]
    have hp : (setScope loaded p sc').lookup p = some { m with scope := sc' } := by rw [hls, hl]; simp
    obtain ⟨h1, h2, h3⟩ := ih loaded' ho (by
      intro q
      rw [List.lookup_cons]
      by_cases hq : q = p
      · subst hq; rw [hp]; simp
      · have : (q == p) = false := by simp [hq]
        rw [this, hne q hq]; exact hs q) hn.2 (by
      intro l1 q l2 e m' hm' r hr
      have hqp : q ≠ p := by
        rintro rfl
        exact hn.1 (by rw [e]; simp)
      rw [hne q hqp] at hm'
      exact hb (p :: l1) q l2 (by rw [e]; rfl) m' hm' r hr)
    have hfin : ∀ q, q ∉ p :: ps → loaded'.lookup q = loaded.lookup q := by
      intro q hq
      rw [List.mem_cons, not_or] at hq
      rw [h1 q hq.2, hne q hq.1]
    refine ⟨hfin, fun q hq m' hm hm' => ?_, fun q hq m' hm hm' => ?_⟩
    · rcases List.mem_cons.mp hq with rfl | hq
      · rw [hl] at hm; cases hm; rw [he] at hm'; cases hm'
      · have hqp : q ≠ p := fun e => hn.1 (e ▸ hq)
        exact h2 q hq m' (by rw [hne q hqp]; exact hm) hm'
    · rcases List.mem_cons.mp hq with rfl | hq
      · rw [hl] at hm; cases hm
        refine ⟨sc, sc', ?_, hev, by rw [h1 q hn.1]; exact hp⟩
        rw [← hmr]
        refine mergeReqs_congr fun r hr => ?_
        have hr' := hb [] q ps rfl m hl r (List.mem_reverse.mp hr)
        rw [scopesOf, lookup_scopes, hfin r hr', hs r]
      · have hqp : q ≠ p := fun e => hn.1 (e ▸ hq)
        exact h3 q hq m' (by rw [hne q hqp]; exact hm) hm'

theorem idxOf_lt_of_split {l1 l2 : List Nat} {i j : Nat} (hn : (l1 ++ i :: l2).Nodup) (hj : j ∈ l2) :
    (l1 ++ i :: l2).idxOf i < (l1 ++ i :: l2).idxOf j := by
  have h1 : i ∉ l1 := fun h => by
    rw [List.nodup_append] at hn
    exact hn.2.2 i h i (by simp) rfl
  have h2 : j ∉ l1 := fun h => by
    rw [List.nodup_append] at hn
    exact hn.2.2 j h j (by simp [hj]) rfl
  have h3 : i ≠ j := by
    rintro rfl
    rw [List.nodup_append, List.nodup_cons] at hn
    exact hn.2.1.1 hj
  rw [List.idxOf_append_of_notMem h1, List.idxOf_append_of_notMem h2, List.idxOf_cons_self, List.idxOf_cons_ne _ h3]
  omega

/-- In the order of evaluation a module comes after the modules it uses, and all loaded modules are in it. -/
theorem tarjan_before (mainPath : MPath) (required : List MPath) (loaded : List (MPath × Mod)) (order : List Nat)
    (hkeys : (loaded.map (·.1)).Nodup) (hnodup : required.Nodup)
    (hacyclic : ∀ p, ¬ Relation.TransGen (Needs mainPath required loaded) p p)
    (ht : Tarjan (dependencyGraph mainPath required loaded) order) :
    (order.filterMap ((dependencyGraph mainPath required loaded).nodes[·]?)).Nodup ∧
    (∀ l1 p l2, order.filterMap ((dependencyGraph mainPath required loaded).nodes[·]?) = l1 ++ p :: l2 →
      ∀ m, loaded.lookup p = some m → ∀ q ∈ m.required, q ∉ p :: l2) ∧
    ∀ p m, (p, m) ∈ loaded → p ∈ order.filterMap ((dependencyGraph mainPath required loaded).nodes[·]?) := by
  have hmain : mainPath ∉ required := fun hm => hacyclic mainPath (.single (Or.inl ⟨rfl, hm⟩))
  obtain ⟨g1, g2, g3, g4, g5⟩ := graph_spec mainPath required loaded hnodup hmain
  have hon : order.Nodup := ht.all.nodup_iff.mpr List.nodup_range
  refine ⟨hon.filterMap fun i j p hi hj => getElem?_inj g1 hi hj, ?_, fun p m hm => (order_mem ht).mpr (g5 (p, m) hm)⟩
  intro l1 p l2 e m hm q hq hmem
  obtain ⟨a1, a2, e1, _, e3⟩ := List.filterMap_eq_append_iff.mp e
  obtain ⟨b1, i, b2, e4, _, e6, e7⟩ := List.filterMap_eq_cons_iff.mp e3
  have hpq : Needs mainPath required loaded p q := Or.inr ⟨m, (lookup_of_mem hkeys).mp hm, hq⟩
  have hne : q ≠ p := by
    rintro rfl
    exact hacyclic q (.single hpq)
  rcases List.mem_cons.mp hmem with rfl | hmem
  · exact hne rfl
  · rw [← e7] at hmem
    obtain ⟨j, hj, hj'⟩ := List.mem_filterMap.mp hmem
    have hedge := (g3 i j).mpr ⟨p, q, e6, hj', hpq⟩
    have hij : i ≠ j := by
      rintro rfl
      rw [e6] at hj'; cases hj'; exact hne rfl
    have hlt := ht.before i j hedge (by
      rintro ⟨l, hc⟩
      have := chain_needs g3 l hj' e6 hc
      exact hacyclic q (this.tail hpq)) hij
    have ho : order = (a1 ++ b1) ++ i :: b2 := by rw [e1, e4, List.append_assoc]
    rw [ho] at hlt hon
    have := idxOf_lt_of_split hon hj
    omega

/-- C54: if the modules do not use each other in a circle, the definitions of every module end up as the evaluation of what
the module defines together with what the modules it uses have ended up with: nothing is evaluated before what it
needs, whatever the order of the hash maps.  (Modules read from object files that need no evaluation stay as they are.) -/
theorem C54_dependencies_first (mainPath : MPath) (main : Mod) (loaded loaded' : List (MPath × Mod)) (order : List Nat)
    (hkeys : (loaded.map (·.1)).Nodup) (hnodup : main.required.Nodup)
    (hacyclic : ∀ p, ¬ Relation.TransGen (Needs mainPath main.required loaded) p p)
    (ht : Tarjan (dependencyGraph mainPath main.required loaded) order)
    (h : EvalDeps (order.filterMap ((dependencyGraph mainPath main.required loaded).nodes[·]?)) loaded
      (loaded.map fun e => (e.1, e.2.scope)) (.ok loaded')) :
    ∀ p m, (p, m) ∈ loaded →
      (m.needsEval = false → loaded'.lookup p = some m) ∧
      (m.needsEval = true → ∃ sc sc', mergeReqs (scopesOf loaded') m.scope m.required.reverse = some sc ∧
        EvalScope sc (.ok sc') ∧ loaded'.lookup p = some { m with scope := sc' }) := by
  obtain ⟨hpn, hbefore, hall⟩ := tarjan_before mainPath main.required loaded order hkeys hnodup hacyclic ht
  obtain ⟨_, h2, h3⟩ := evalDeps_order h loaded' rfl (lookup_scopes loaded) hpn hbefore
  intro p m hm
  have hl := (lookup_of_mem hkeys).mpr hm
  exact ⟨h2 p (hall p m hm) m hl, h3 p (hall p m hm) m hl⟩

/-- C55: in a module that is not the main one, the last of the modules it uses wins. -/
theorem C55_dependency_last {scopes : List (MPath × Scope)} {own sc d : Scope} {required : List MPath} {i : Nat} {p : MPath} {k : Text} {a : Ast}
    (h : mergeReqs scopes own required.reverse = some sc) (hown : own.variables k = none)
    (hp : required[i]? = some p) (hd : scopes.lookup p = some d) (ha : d.variables k = some a) (hk : k ∈ d.exports)
    (hlast : ∀ (j : Nat) q d', i < j → required[j]? = some q → scopes.lookup q = some d' → k ∉ d'.exports) :
    sc.variables k = some a := by
  obtain ⟨ds, h1, _, h3, _⟩ := mergeReqs_spec h
  rw [h3, hown]
  show ds.findSome? _ = some a
  have hlen : ds.length = required.length := by
    have := congrArg List.length h1
    simpa using this.symm
  have hget : ∀ (j : Nat) q, j < required.length → required[j]? = some q → scopes.lookup q = ds[required.length - 1 - j]? := by
    intro j q hj hq
    have := congrArg (fun l => l[required.length - 1 - j]?) h1
    simp only [List.getElem?_map] at this
    rw [List.getElem?_reverse (by omega)] at this
    have e : required.length - 1 - (required.length - 1 - j) = j := by omega
    rw [e, hq] at this
    simp only [Option.map_some] at this
    cases hds : ds[required.length - 1 - j]? with
    | none => rw [hds] at this; simp at this
    | some y => rw [hds] at this; simpa using this
  have hi : i < required.length := (List.getElem?_eq_some_iff.mp hp).1
  refine findSome?_first (i := required.length - 1 - i) (by rw [← hget i p hi hp]; exact hd) (by simp only [offersVar, hk, if_true, ha]) ?_
  intro j y hj hy
  have hj' : required.length - 1 - j < required.length := by omega
  have hq := List.getElem?_eq_getElem hj'
  have hy' := hget _ _ hj' hq
  have e : required.length - 1 - (required.length - 1 - j) = j := by omega
  rw [e, hy] at hy'
  have := hlast _ _ y (by omega) hq hy'
  simp only [offersVar, this, if_false]

/-- C55 is violated for all modules `p` and `q` that export a variable of the same name: a main module that uses `p` and
then `q` gets `p`'s, a module with the same `use`s gets `q`'s. -/
theorem C55_violated {p q : MPath} (hpq : p ≠ q) (modP modQ : Mod) (own : Scope) (k : Text) (a b : Ast)
    (hown : own.variables k = none) (ha : modP.scope.variables k = some a) (hb : modQ.scope.variables k = some b)
    (hak : k ∈ modP.scope.exports) (hbk : k ∈ modQ.scope.exports) :
    ∃ sc sc', mergeDirect own [(p, modP), (q, modQ)] [p, q] = some sc ∧
      mergeReqs (scopesOf [(p, modP), (q, modQ)]) own [p, q].reverse = some sc' ∧
      sc.variables k = some a ∧ sc'.variables k = some b := by
  have hp : List.lookup p [(p, modP), (q, modQ)] = some modP := by simp
  have hq : List.lookup q [(p, modP), (q, modQ)] = some modQ := by
    rw [List.lookup_cons]
    have : (q == p) = false := by simp [Ne.symm hpq]
    rw [this]; simp
  obtain ⟨sc, hsc⟩ := (mergeDirect_some_iff (sc := own)).mpr (show [p, q].Nodup ∧ ∀ r ∈ [p, q], ∃ m, List.lookup r [(p, modP), (q, modQ)] = some m from
    ⟨by simp [hpq], by intro r hr; simp only [List.mem_cons, List.not_mem_nil, or_false] at hr; rcases hr with rfl | rfl; exacts [⟨_, hp⟩, ⟨_, hq⟩]⟩)
  have hr : mergeReqs (scopesOf [(p, modP), (q, modQ)]) own [p, q].reverse ≠ none := by
    rw [Ne, mergeReqs_none]
    rintro ⟨r, hr, hn⟩
    rw [scopesOf, lookup_scopes] at hn
    simp only [List.reverse_cons, List.reverse_nil, List.nil_append, List.cons_append, List.mem_cons, List.not_mem_nil, or_false] at hr
    rcases hr with rfl | rfl
    · rw [hq] at hn; cases hn
    · rw [hp] at hn; cases hn
  cases hsc' : mergeReqs (scopesOf [(p, modP), (q, modQ)]) own [p, q].reverse with
  | none => exact absurd hsc' hr
  | some sc' =>
    refine ⟨sc, sc', hsc, rfl, ?_, ?_⟩
    · obtain ⟨_, ms, h1, _, h3, _⟩ := mergeDirect_spec hsc
      rw [h3, hown]
      cases ms with
      | nil => simp at h1
      | cons m ms =>
        simp only [List.map_cons, List.cons.injEq, Option.some.injEq, hp] at h1
        rw [List.findSome?_cons, ← h1.1]
        simp only [offersVar, hak, if_true, ha]
        rfl
    · refine C55_dependency_last hsc' hown (i := 1) (p := q) rfl (d := modQ.scope) (by rw [scopesOf, lookup_scopes, hq]; rfl) hb hbk ?_
      intro j r d hj hr'
      have := (List.getElem?_eq_some_iff.mp hr').1
      simp at this; omega

end Verif.Loader
