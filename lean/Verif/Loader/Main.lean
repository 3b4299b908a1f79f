import Verif.Loader.Graph
import Verif.Loader.Props
/-
What loading a main module ends with: C34 (failures), C35 (visible names), C36 (repeated use), C54
(evaluation of the dependencies).
-/
namespace Verif.Loader
open Verif.Ast

/-! ### Every loaded module is in the graph -/

/-- The index points at nodes. -/
def Build.Sound (b : Build) : Prop := ∀ p i, b.index.lookup p = some i → b.graph.nodes[i]? = some p

theorem fresh_sound {b : Build} (hb : b.Sound) (p : MPath) : (b.fresh p).Sound := by
  intro q i h
  simp only [Build.fresh, List.lookup_cons] at h
  show (b.graph.nodes ++ [p])[i]? = some q
  by_cases hq : q = p
  · subst hq
    simp only [BEq.rfl, Option.some.injEq] at h
    subst h; simp
  · have : (q == p) = false := by simp [hq]
    rw [this] at h
    exact getElem?_append_of_some (hb q i h)

theorem node_sound {b : Build} (hb : b.Sound) (p : MPath) :
    (b.node p).1.Sound ∧ (b.node p).1.graph.nodes[(b.node p).2]? = some p ∧ ∃ l, (b.node p).1.graph.nodes = b.graph.nodes ++ l := by
  unfold Build.node
  cases h : b.index.lookup p with
  | some i =>
    refine ⟨fun q j hj => ?_, hb p i h, [], by simp⟩
    simp only [List.lookup_cons] at hj
    by_cases hq : q = p
    · subst hq
      simp only [BEq.rfl, Option.some.injEq] at hj
      subst hj; exact hb q i h
    · have : (q == p) = false := by simp [hq]
      rw [this] at hj
      exact hb q j hj
  | none =>
    refine ⟨fresh_sound hb p, ?_, [p], rfl⟩
    show (b.graph.nodes ++ [p])[b.graph.nodes.length]? = some p
    simp

theorem required_sound {i : Nat} (qs : List MPath) {b : Build} (hb : b.Sound) :
    (qs.foldl (addRequired i) b).Sound ∧ ∃ l, (qs.foldl (addRequired i) b).graph.nodes = b.graph.nodes ++ l := by
  induction qs generalizing b with
  | nil => exact ⟨hb, [], by simp⟩
  | cons q qs ih =>
    obtain ⟨h1, _, l, h2⟩ := node_sound hb q
    obtain ⟨h3, l', h4⟩ := ih (b := addRequired i b q) h1
    refine ⟨h3, l ++ l', ?_⟩
    show (qs.foldl (addRequired i) (addRequired i b q)).graph.nodes = _
    rw [h4]
    show (b.node q).1.graph.nodes ++ l' = _
    rw [h2, List.append_assoc]

theorem loaded_sound (es : List (MPath × Mod)) {b : Build} (hb : b.Sound) :
    (∃ l, (es.foldl addLoaded b).graph.nodes = b.graph.nodes ++ l) ∧ ∀ e ∈ es, e.1 ∈ (es.foldl addLoaded b).graph.nodes := by
  induction es generalizing b with
  | nil => exact ⟨⟨[], by simp⟩, by simp⟩
  | cons e es ih =>
    obtain ⟨h1, h2, l, h3⟩ := node_sound hb e.1
    obtain ⟨h4, l', h5⟩ := required_sound (i := (b.node e.1).2) e.2.required h1
    obtain ⟨⟨l'', h6⟩, h7⟩ := ih (b := addLoaded b e) h4
    have hn : (addLoaded b e).graph.nodes = (b.node e.1).1.graph.nodes ++ l' := h5
    refine ⟨⟨l ++ l' ++ l'', ?_⟩, fun e' he' => ?_⟩
    · show (es.foldl addLoaded (addLoaded b e)).graph.nodes = _
      rw [h6, hn, h3]; simp
    · rcases List.mem_cons.mp he' with rfl | he'
      · show e'.1 ∈ (es.foldl addLoaded (addLoaded b e')).graph.nodes
        rw [h6, hn]
        exact List.mem_append_left _ (List.mem_append_left _ (List.mem_of_getElem? h2))
      · exact h7 e' he'

theorem graph_loaded (mainPath : MPath) (required : List MPath) (loaded : List (MPath × Mod)) :
    ∀ e ∈ loaded, e.1 ∈ (dependencyGraph mainPath required loaded).nodes := by
  have h0 : ∀ (ps : List MPath) (b : Build), b.Sound → (ps.foldl addDirect b).Sound := by
    intro ps
    induction ps with
    | nil => exact fun b h => h
    | cons p ps ih => exact fun b h => ih (addDirect b p) (fresh_sound h p)
  refine (loaded_sound loaded (h0 required _ ?_)).2
  intro p i h
  rw [List.lookup_cons] at h
  split at h
  · rename_i hp
    simp only [beq_iff_eq] at hp
    cases h; subst hp; rfl
  · cases h

/-- The order in which the modules are evaluated has every node. -/
theorem order_mem {g : Graph} {order : List Nat} (h : Tarjan g order) {p : MPath} :
    p ∈ order.filterMap (g.nodes[·]?) ↔ p ∈ g.nodes := by
  rw [List.mem_filterMap]
  constructor
  · rintro ⟨i, _, hi⟩; exact List.mem_of_getElem? hi
  · intro hp
    obtain ⟨i, hi⟩ := List.mem_iff_getElem?.mp hp
    refine ⟨i, h.all.symm.subset ?_, hi⟩
    rw [List.mem_range]
    exact (List.getElem?_eq_some_iff.mp hi).1

/-! ### Evaluating the dependencies -/

theorem lookup_setScope (loaded : List (MPath × Mod)) (p q : MPath) (sc : Scope) :
    (setScope loaded p sc).lookup q = (loaded.lookup q).map fun m => if q = p then { m with scope := sc } else m := by
  induction loaded with
  | nil => rfl
  | cons e l ih =>
    obtain ⟨ep, em⟩ := e
    have : setScope ((ep, em) :: l) p sc = (ep, if ep = p then { em with scope := sc } else em) :: setScope l p sc := by
      simp only [setScope, List.map_cons]
      split <;> rfl
    rw [this, List.lookup_cons, List.lookup_cons, ih]
    by_cases hq : q = ep
    · subst hq; simp only [BEq.rfl]; rfl
    · have : (q == ep) = false := by simp [hq]
      rw [this]

theorem lookup_scopes (loaded : List (MPath × Mod)) (q : MPath) :
    (loaded.map fun e => (e.1, e.2.scope)).lookup q = (loaded.lookup q).map (·.scope) := by
  induction loaded with
  | nil => rfl
  | cons e l ih =>
    rw [List.map_cons, List.lookup_cons, List.lookup_cons, ih]
    by_cases hq : q = e.1
    · subst hq; simp only [BEq.rfl]; rfl
    · have : (q == e.1) = false := by simp [hq]
      rw [this]

/-- `b` is what evaluating `a` gives (0 or more times: a module whose object file was written after its
evaluation is not evaluated again). -/
inductive Evaluated : Ast → Ast → Prop
  | refl {a} : Evaluated a a
  | step {a b c sc} : Eval sc none a (.ok b) → Evaluated b c → Evaluated a c

theorem Evaluated.trans {a b c : Ast} (h : Evaluated a b) (h' : Evaluated b c) : Evaluated a c := by
  induction h with
  | refl => exact h'
  | step h _ ih => exact .step h (ih h')

/-- What the definitions of a map become. -/
def MapEvaluated (m m' : Text → Option Ast) : Prop :=
  ∀ k, (∀ a, m k = some a → ∃ b, m' k = some b ∧ Evaluated a b) ∧ (m k = none → m' k = none)

theorem MapEvaluated.refl (m : Text → Option Ast) : MapEvaluated m m :=
  fun _ => ⟨fun a h => ⟨a, h, .refl⟩, fun h => h⟩

theorem evalVars_spec {l : List (Text × Ast)} {sc : Scope} {o : DOut} (h : EvalVars l sc o) :
    ∀ sc', o = .ok sc' → (l.map (·.1)).Nodup → (∀ k a, (k, a) ∈ l → sc.variables k = some a) →
      MapEvaluated sc.variables sc'.variables ∧ sc'.functions = sc.functions ∧ sc'.exports = sc.exports := by
  induction h with
  | nil => rintro sc' ⟨⟩ _ _; exact ⟨.refl _, rfl, rfl⟩
  | @cons n a b l sc o he _ ih =>
    intro sc' ho hn hl
    rw [List.map_cons, List.nodup_cons] at hn
    obtain ⟨h1, h2, h3⟩ := ih sc' ho hn.2 (by
      intro k a' hk
      have hkn : k ≠ n := by
        rintro rfl
        exact hn.1 (List.mem_map.mpr ⟨_, hk, rfl⟩)
      simp only [hkn, if_false]
      exact hl k a' (List.mem_cons_of_mem _ hk))
    refine ⟨fun k => ⟨fun a' hk => ?_, fun hk => ?_⟩, h2, h3⟩
    · by_cases hkn : k = n
      · subst hkn
        rw [hl k a (by simp)] at hk
        cases hk
        obtain ⟨c, hc, hc'⟩ := (h1 k).1 b (by simp)
        exact ⟨c, hc, .step he hc'⟩
      · exact (h1 k).1 a' (by simp only [hkn, if_false]; exact hk)
    · refine (h1 k).2 ?_
      by_cases hkn : k = n
      · subst hkn
        rw [hl k a (by simp)] at hk; cases hk
      · simp only [hkn, if_false]; exact hk
  | err _ => rintro sc' ⟨⟩
  | panic _ => rintro sc' ⟨⟩

theorem evalFns_spec {l : List (Text × Ast)} {sc : Scope} {o : DOut} (h : EvalFns l sc o) :
    ∀ sc', o = .ok sc' → (l.map (·.1)).Nodup → (∀ k a, (k, a) ∈ l → sc.functions k = some a) →
      MapEvaluated sc.functions sc'.functions ∧ sc'.variables = sc.variables ∧ sc'.exports = sc.exports := by
  induction h with
  | nil => rintro sc' ⟨⟩ _ _; exact ⟨.refl _, rfl, rfl⟩
  | @cons n a b l sc o he _ ih =>
    intro sc' ho hn hl
    rw [List.map_cons, List.nodup_cons] at hn
    obtain ⟨h1, h2, h3⟩ := ih sc' ho hn.2 (by
      intro k a' hk
      have hkn : k ≠ n := by
        rintro rfl
        exact hn.1 (List.mem_map.mpr ⟨_, hk, rfl⟩)
      simp only [hkn, if_false]
      exact hl k a' (List.mem_cons_of_mem _ hk))
    refine ⟨fun k => ⟨fun a' hk => ?_, fun hk => ?_⟩, h2, h3⟩
    · by_cases hkn : k = n
      · subst hkn
        rw [hl k a (by simp)] at hk
        cases hk
        obtain ⟨c, hc, hc'⟩ := (h1 k).1 b (by simp)
        exact ⟨c, hc, .step he hc'⟩
      · exact (h1 k).1 a' (by simp only [hkn, if_false]; exact hk)
    · refine (h1 k).2 ?_
      by_cases hkn : k = n
      · subst hkn
        rw [hl k a (by simp)] at hk; cases hk
      · simp only [hkn, if_false]; exact hk
  | err _ => rintro sc' ⟨⟩
  | panic _ => rintro sc' ⟨⟩

theorem evalScope_spec {sc sc' : Scope} (h : EvalScope sc (.ok sc')) :
    MapEvaluated sc.variables sc'.variables ∧ MapEvaluated sc.functions sc'.functions ∧ sc'.exports = sc.exports := by
  cases h with
  | @ok l l' sc1 _ h1 h2 h3 h4 =>
    obtain ⟨a1, a2, a3⟩ := evalVars_spec h2 sc1 rfl h1.1 (fun k a h => (h1.2 k a).mp h)
    obtain ⟨b1, b2, b3⟩ := evalFns_spec h4 sc' rfl h3.1 (fun k a h => (h3.2 k a).mp h)
    exact ⟨b2 ▸ a1, a2 ▸ b1, b3.trans a3⟩

/-- What evaluating the dependencies leaves of a module. -/
structure ModEvaluated (m m' : Mod) : Prop where
  required : m'.required = m.required
  dirty : m'.dirty = m.dirty
  needsEval : m'.needsEval = m.needsEval
  exports : m'.scope.exports = m.scope.exports
  vars : ∀ k a, m.scope.variables k = some a → ∃ b, m'.scope.variables k = some b ∧ Evaluated a b
  fns : ∀ k a, m.scope.functions k = some a → ∃ b, m'.scope.functions k = some b ∧ Evaluated a b

theorem ModEvaluated.refl (m : Mod) : ModEvaluated m m :=
  ⟨rfl, rfl, rfl, rfl, fun _ a h => ⟨a, h, .refl⟩, fun _ a h => ⟨a, h, .refl⟩⟩

theorem ModEvaluated.trans {a b c : Mod} (h : ModEvaluated a b) (h' : ModEvaluated b c) : ModEvaluated a c := by
  refine ⟨h'.required.trans h.required, h'.dirty.trans h.dirty, h'.needsEval.trans h.needsEval, h'.exports.trans h.exports,
    fun k x hx => ?_, fun k x hx => ?_⟩
  · obtain ⟨y, hy, e⟩ := h.vars k x hx
    obtain ⟨z, hz, e'⟩ := h'.vars k y hy
    exact ⟨z, hz, e.trans e'⟩
  · obtain ⟨y, hy, e⟩ := h.fns k x hx
    obtain ⟨z, hz, e'⟩ := h'.fns k y hy
    exact ⟨z, hz, e.trans e'⟩

theorem eval_mod {scopes : List (MPath × Scope)} {m : Mod} {ps : List MPath} {sc sc' : Scope}
    (h1 : mergeReqs scopes m.scope ps = some sc) (h2 : EvalScope sc (.ok sc')) : ModEvaluated m { m with scope := sc' } := by
  obtain ⟨ds, _, h3, h4, h5⟩ := mergeReqs_spec h1
  obtain ⟨g1, g2, g3⟩ := evalScope_spec h2
  refine ⟨rfl, rfl, rfl, g3.trans h3, fun k a ha => (g1 k).1 a ?_, fun k a ha => (g2 k).1 a ?_⟩
  · rw [h4, ha]; rfl
  · rw [h5, ha]; rfl

/-- Whatever the order, the evaluation changes only the definitions. -/
theorem evalDeps_spec {order : List MPath} {loaded : List (MPath × Mod)} {scopes : List (MPath × Scope)} {o : DepsOut}
    (h : EvalDeps order loaded scopes o) : ∀ loaded', o = .ok loaded' →
      (∀ q, (loaded.lookup q = none → loaded'.lookup q = none) ∧
        ∀ m, loaded.lookup q = some m → ∃ m', loaded'.lookup q = some m' ∧ ModEvaluated m m') := by
  induction h with
  | nil => rintro _ ⟨⟩ q; exact ⟨fun h => h, fun m h => ⟨m, h, .refl m⟩⟩
  | skip _ _ ih => exact ih
  | evaled _ _ _ ih => exact ih
  | missing => rintro _ ⟨⟩
  | err => rintro _ ⟨⟩
  | panic => rintro _ ⟨⟩
  | @eval p ps loaded scopes m sc sc' o hl hn hm he _ ih =>
    intro loaded' ho q
    obtain ⟨h1, h2⟩ := ih loaded' ho q
    rw [lookup_setScope] at h1 h2
    refine ⟨fun h => h1 (by rw [h]; rfl), fun m1 h => ?_⟩
    by_cases hq : q = p
    · subst hq
      rw [hl] at h; cases h
      obtain ⟨m', h3, h4⟩ := h2 { m with scope := sc' } (by rw [hl]; simp)
      exact ⟨m', h3, (eval_mod hm he).trans h4⟩
    · obtain ⟨m', h3, h4⟩ := h2 m1 (by rw [h]; simp [hq])
      exact ⟨m', h3, h4⟩

/-- If the evaluation of the dependencies succeeds, what each of them requires was there. -/
theorem evalDeps_required {order : List MPath} {loaded : List (MPath × Mod)} {scopes : List (MPath × Scope)} {o : DepsOut}
    (h : EvalDeps order loaded scopes o) : ∀ loaded', o = .ok loaded' →
      (∀ q, loaded.lookup q = none → scopes.lookup q = none) →
      ∀ p ∈ order, ∀ m, loaded.lookup p = some m → m.needsEval = true → ∀ q ∈ m.required, ∃ m', loaded.lookup q = some m' := by
  induction h with
  | nil => intro _ _ _ p hp; simp at hp
  | @skip p ps loaded scopes o hl _ ih =>
    intro loaded' ho hs q hq m hm hn
    rcases List.mem_cons.mp hq with rfl | hq
    · rw [hl] at hm; cases hm
    · exact ih loaded' ho hs q hq m hm hn
  | @evaled p ps loaded scopes o m hl he _ ih =>
    intro loaded' ho hs q hq m' hm hn
    rcases List.mem_cons.mp hq with rfl | hq
    · rw [hl] at hm; cases hm; rw [he] at hn; cases hn
    · exact ih loaded' ho hs q hq m' hm hn
  | missing => rintro _ ⟨⟩
  | err => rintro _ ⟨⟩
  | panic => rintro _ ⟨⟩
  | @eval p ps loaded scopes m sc sc' o hl he hmr _ _ ih =>
    intro loaded' ho hs q hq m' hm hn r hr
    rcases List.mem_cons.mp hq with rfl | hq
    · rw [hl] at hm; cases hm
      by_contra hc
      have hnone : loaded.lookup r = none := by
        cases h : loaded.lookup r with
        | none => rfl
        | some x => exact absurd ⟨x, h⟩ hc
      have : mergeReqs scopes m.scope m.required.reverse = none :=
        mergeReqs_none.mpr ⟨r, List.mem_reverse.mpr hr, hs r hnone⟩
      rw [hmr] at this; cases this
    · have hls := lookup_setScope loaded p
      have hs' : ∀ q, (setScope loaded p sc').lookup q = none → List.lookup q ((p, sc') :: scopes) = none := by
        intro x hx
        rw [hls] at hx
        have hx' : loaded.lookup x = none := by simpa using hx
        rw [List.lookup_cons]
        have : (x == p) = false := by
          simp only [beq_eq_false_iff_ne]
          rintro rfl
          rw [hl] at hx'; cases hx'
        rw [this]; exact hs x hx'
      have hm1 : (setScope loaded p sc').lookup q = some (if q = p then { m' with scope := sc' } else m') := by
        rw [hls, hm]; rfl
      obtain ⟨m'', hm''⟩ := ih loaded' ho hs' q hq _ hm1 (by split <;> exact hn) r (by split <;> exact hr)
      rw [hls] at hm''
      cases h : loaded.lookup r with
      | none => rw [h] at hm''; cases hm''
      | some x => exact ⟨x, rfl⟩

/-- The compiler error is about a module that has not been loaded. -/
theorem evalDeps_missing {order : List MPath} {loaded : List (MPath × Mod)} {scopes : List (MPath × Scope)} {o : DepsOut}
    (h : EvalDeps order loaded scopes o) : o = .missing →
      (∀ q, scopes.lookup q = none → loaded.lookup q = none) →
      ∃ p m, loaded.lookup p = some m ∧ m.needsEval = true ∧ ∃ q ∈ m.required, loaded.lookup q = none := by
  induction h with
  | nil => rintro ⟨⟩
  | skip _ _ ih => exact ih
  | evaled _ _ _ ih => exact ih
  | @missing p ps loaded scopes m hl he hm =>
    intro _ hs
    obtain ⟨q, hq, h⟩ := mergeReqs_none.mp hm
    exact ⟨p, m, hl, he, q, List.mem_reverse.mp hq, hs q h⟩
  | err => rintro ⟨⟩
  | panic => rintro ⟨⟩
  | @eval p ps loaded scopes m sc sc' o hl he hmr _ _ ih =>
    intro ho hs
    obtain ⟨q, m', h1, h2, r, h3, h4⟩ := ih ho (by
      intro x hx
      rw [List.lookup_cons] at hx
      rw [lookup_setScope]
      split at hx
      · cases hx
      · rw [hs x hx]; rfl)
    rw [lookup_setScope] at h1 h4
    cases hq : loaded.lookup q with
    | none => rw [hq] at h1; cases h1
    | some m1 =>
      rw [hq] at h1
      simp only [Option.map_some, Option.some.injEq] at h1
      refine ⟨q, m1, hq, ?_, r, ?_, by simpa using h4⟩
      · rw [← h1] at h2; revert h2; split <;> exact fun h => h
      · rw [← h1] at h3; revert h3; split <;> exact fun h => h

theorem lookup_of_mem {l : List (MPath × Mod)} (hn : (l.map (·.1)).Nodup) {p : MPath} {m : Mod} : l.lookup p = some m ↔ (p, m) ∈ l := by
  induction l with
  | nil => simp
  | cons e l ih =>
    obtain ⟨ep, em⟩ := e
    rw [List.map_cons, List.nodup_cons] at hn
    rw [List.lookup_cons]
    by_cases hq : p = ep
    · subst hq
      simp only [BEq.rfl, Option.some.injEq, List.mem_cons, Prod.mk.injEq, true_and]
      constructor
      · rintro rfl; exact Or.inl rfl
      · rintro (rfl | h)
        · rfl
        · exact absurd (List.mem_map.mpr ⟨_, h, rfl⟩) hn.1
    · have : (p == ep) = false := by simp [hq]
      rw [this, ih hn.2]
      simp [hq]

/-- What is in the loader when loading has ended. -/
theorem loaded_lookup {fetch : MPath → Except LoadError Mod} {main : Mod} {n : Nat} {s : St} (h : Steps fetch (init main) n s)
    (hf : Finished s) {it : List (MPath × Mod)} (hp : it.Perm s.loaded) (p : MPath) (m : Mod) :
    it.lookup p = some m ↔ Reach fetch main p ∧ fetch p = .ok m := by
  have hn := (C32_once fetch main n s h).2.2.1
  rw [lookup_of_mem ((hp.map (·.1)).nodup_iff.mpr hn), hp.mem_iff]
  exact (C33_result fetch main n s h hf).1 p m

end Verif.Loader
