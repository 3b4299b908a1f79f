import Verif.Loader.Resolve
/-
C39: which modules are marked as changed (src/module_loader/mod.rs:160-208).
-/
namespace Verif.Loader
open Verif.Ast

/-- The modules of `l` use each other, each the next. -/
def UseChain (mainPath : MPath) (required : List MPath) (loaded : List (MPath × Mod)) : List MPath → Prop
  | p :: q :: l => Needs mainPath required loaded p q ∧ UseChain mainPath required loaded (q :: l)
  | _ => True

/-- A path of `use`s from the main module to the module `d`: `between` are the modules in between, all different. -/
def UsePath (mainPath : MPath) (required : List MPath) (loaded : List (MPath × Mod)) (between : List MPath) (d : MPath) : Prop :=
  (mainPath :: between).Nodup ∧ d ∉ between ∧ UseChain mainPath required loaded (mainPath :: (between ++ [d]))

section
variable {mainPath : MPath} {required : List MPath} {loaded : List (MPath × Mod)}

theorem chain_iff {g : Graph}
    (he : ∀ i j, (i, j) ∈ g.edges ↔ ∃ p q, g.nodes[i]? = some p ∧ g.nodes[j]? = some q ∧ Needs mainPath required loaded p q) :
    ∀ (is : List Nat) (ps : List MPath), is.map (g.nodes[·]?) = ps.map some → (Chain g is ↔ UseChain mainPath required loaded ps)
  | [], [], _ => Iff.rfl
  | [_], [_], _ => Iff.rfl
  | i :: j :: is, p :: q :: ps, h => by
    simp only [List.map_cons, List.cons.injEq] at h
    have ih := chain_iff he (j :: is) (q :: ps) (by simp [h.2.1, h.2.2])
    simp only [Chain, UseChain, ih, he]
    constructor
    · rintro ⟨⟨p', q', h1, h2, h3⟩, h4⟩
      rw [h.1] at h1; rw [h.2.1] at h2; cases h1; cases h2
      exact ⟨h3, h4⟩
    · rintro ⟨h3, h4⟩
      exact ⟨⟨p, q, h.1, h.2.1, h3⟩, h4⟩
  | [], _ :: _, h => by simp at h
  | _ :: _, [], h => by simp at h
  | [_], _ :: _ :: _, h => by simp at h
  | _ :: _ :: _, [_], h => by simp at h

theorem indices {g : Graph} (l : List MPath) (h : ∀ p ∈ l, p ∈ g.nodes) : ∃ is : List Nat, is.map (g.nodes[·]?) = l.map some := by
  induction l with
  | nil => exact ⟨[], rfl⟩
  | cons p l ih =>
    obtain ⟨is, h1⟩ := ih fun q hq => h q (List.mem_cons_of_mem _ hq)
    obtain ⟨i, hi⟩ := List.mem_iff_getElem?.mp (h p (by simp))
    exact ⟨i :: is, by simp [h1, hi]⟩

theorem nodes_of {g : Graph} (is : List Nat) (h : ∀ i ∈ is, i < g.nodes.length) : ∃ l : List MPath, is.map (g.nodes[·]?) = l.map some := by
  induction is with
  | nil => exact ⟨[], rfl⟩
  | cons i is ih =>
    obtain ⟨l, h1⟩ := ih fun q hq => h q (List.mem_cons_of_mem _ hq)
    exact ⟨g.nodes[i]'(h i (by simp)) :: l, by simp [h1, List.getElem?_eq_getElem (h i (by simp))]⟩

theorem mem_iff {g : Graph} (hn : g.nodes.Nodup) {is : List Nat} {l : List MPath} (h : is.map (g.nodes[·]?) = l.map some)
    {i : Nat} {p : MPath} (hi : g.nodes[i]? = some p) : i ∈ is ↔ p ∈ l := by
  constructor
  · intro hm
    have : some p ∈ l.map some := by rw [← h, ← hi]; exact List.mem_map.mpr ⟨i, hm, rfl⟩
    obtain ⟨q, hq, e⟩ := List.mem_map.mp this
    cases e; exact hq
  · intro hm
    have : some p ∈ is.map (g.nodes[·]?) := by rw [h]; exact List.mem_map.mpr ⟨p, hm, rfl⟩
    obtain ⟨j, hj, e⟩ := List.mem_map.mp this
    rw [getElem?_inj hn hi e]; exact hj

theorem nodup_iff {g : Graph} (hn : g.nodes.Nodup) {is : List Nat} {l : List MPath} (h : is.map (g.nodes[·]?) = l.map some) :
    is.Nodup ↔ l.Nodup := by
  induction is generalizing l with
  | nil =>
    cases l with
    | nil => simp
    | cons => simp at h
  | cons i is ih =>
    cases l with
    | nil => simp at h
    | cons p l =>
      rw [List.map_cons, List.map_cons, List.cons.injEq] at h
      rw [List.nodup_cons, List.nodup_cons, ih h.2, mem_iff hn h.2 h.1]

/-- C39, exactly: the modules marked are those on a path of at least two `use`s from the main module to a changed module.
(The main module uses no module twice, and is not used by another.) -/
theorem C39_marked_iff (hnodup : required.Nodup) (hmain : mainPath ∉ required) (hl : loaded.lookup mainPath = none) (p : MPath) :
    Marked (dependencyGraph mainPath required loaded) loaded p ↔
    ∃ between d m, between ≠ [] ∧ UsePath mainPath required loaded between d ∧ loaded.lookup d = some m ∧ m.dirty = true ∧
      p ∈ mainPath :: (between ++ [d]) := by
  obtain ⟨g1, g2, g3, g4, g5⟩ := graph_spec mainPath required loaded hnodup hmain
  generalize dependencyGraph mainPath required loaded = g at g1 g2 g3 g4 g5
  constructor
  · rintro ⟨target, d, m, path, i, h1, h2, h3, ⟨is, h4, rfl, h5, h6, _, h7⟩, h8, h9⟩
    have hlt : ∀ (is : List Nat) (i : Nat), is ≠ [] → Chain g (i :: is) → ∀ j ∈ i :: is, j < g.nodes.length := by
      intro is
      induction is with
      | nil => intro i h; exact absurd rfl h
      | cons k is ih =>
        intro i _ hc j hj
        obtain ⟨p', q', e1, e2, _⟩ := (g3 i k).mp hc.1
        rcases List.mem_cons.mp hj with rfl | hj
        · exact (List.getElem?_eq_some_iff.mp e1).1
        · cases is with
          | nil => rw [List.mem_singleton] at hj; subst hj; exact (List.getElem?_eq_some_iff.mp e2).1
          | cons k' is => exact ih k (by simp) hc.2 j hj
    have hall := hlt (is ++ [target]) 0 (by simp) h7
    obtain ⟨between, hb⟩ := nodes_of (g := g) is fun i hi => hall i (by simp [hi])
    have hpath : (0 :: (is ++ [target])).map (g.nodes[·]?) = (mainPath :: (between ++ [d])).map some := by
      simp [hb, g2, h1]
    refine ⟨between, d, m, ?_, ⟨?_, ?_, ?_⟩, h2, h3, ?_⟩
    · rintro rfl
      simp only [List.map_nil, List.map_eq_nil_iff] at hb
      exact h4 hb
    · exact (nodup_iff g1 (is := 0 :: is) (by simp [hb, g2])).mp h5
    · exact fun hd => h6 ((mem_iff g1 hb h1).mpr hd)
    · exact (chain_iff g3 _ _ hpath).mp h7
    · exact (mem_iff g1 hpath h9).mp h8
  · rintro ⟨between, d, m, h1, ⟨h2, h3, h4⟩, h5, h6, h7⟩
    have hmem : ∀ (l : List MPath) (q : MPath), l ≠ [] → UseChain mainPath required loaded (q :: l) → ∀ r ∈ q :: l, r ∈ g.nodes := by
      intro l
      induction l with
      | nil => intro q h; exact absurd rfl h
      | cons k l ih =>
        intro q _ hc r hr
        obtain ⟨e1, e2⟩ := g4 q k hc.1
        rcases List.mem_cons.mp hr with rfl | hr
        · exact e1
        · cases l with
          | nil => rw [List.mem_singleton] at hr; subst hr; exact e2
          | cons k' l => exact ih k (by simp) hc.2 r hr
    have hall := hmem (between ++ [d]) mainPath (by simp) h4
    obtain ⟨is, hb⟩ := indices (g := g) between fun q hq => hall q (by simp [hq])
    obtain ⟨target, ht⟩ := List.mem_iff_getElem?.mp (hall d (by simp))
    obtain ⟨i, hi⟩ := List.mem_iff_getElem?.mp (hall p h7)
    have hpath : (0 :: (is ++ [target])).map (g.nodes[·]?) = (mainPath :: (between ++ [d])).map some := by
      simp [hb, g2, ht]
    have hnd : (0 :: is).Nodup := (nodup_iff g1 (is := 0 :: is) (by simp [hb, g2])).mpr h2
    have htis : target ∉ is := fun h => h3 ((mem_iff g1 hb ht).mp h)
    have hdm : d ≠ mainPath := by rintro rfl; rw [hl] at h5; cases h5
    have hfull : (0 :: (is ++ [target])).Nodup := by
      rw [← List.cons_append, List.nodup_append]
      refine ⟨hnd, by simp, ?_⟩
      intro a ha b hb' e
      rw [List.mem_singleton] at hb'
      subst hb'; subst e
      rcases List.mem_cons.mp ha with rfl | ha
      · rw [g2] at ht; cases ht; exact hdm rfl
      · exact htis ha
    refine ⟨target, d, m, 0 :: (is ++ [target]), i, ht, h5, h6, ⟨is, ?_, rfl, hnd, htis, ?_, ?_⟩, ?_, hi⟩
    · rintro rfl
      simp only [List.map_nil] at hb
      exact h1 (List.map_eq_nil_iff.mp hb.symm)
    · have : (0 :: (is ++ [target])).Subperm (List.range g.nodes.length) := by
        refine hfull.subperm fun j hj => ?_
        rw [List.mem_range]
        have : g.nodes[j]? ∈ (mainPath :: (between ++ [d])).map some := by rw [← hpath]; exact List.mem_map.mpr ⟨j, hj, rfl⟩
        obtain ⟨q, _, e⟩ := List.mem_map.mp this
        exact (List.getElem?_eq_some_iff.mp e.symm).1
      simpa using this.length_le
    · exact (chain_iff g3 _ _ hpath).mpr h4
    · exact (mem_iff g1 hpath hi).mpr h7

/-- C39 is violated for every main module whose changed dependencies are used by it alone: nothing is marked, not
even the changed modules. -/
theorem C39_violated (hnodup : required.Nodup) (hmain : mainPath ∉ required) (hl : loaded.lookup mainPath = none)
    (hkeys : (loaded.map (·.1)).Nodup)
    (hdirect : ∀ d m, loaded.lookup d = some m → m.dirty = true → ∀ q m', loaded.lookup q = some m' → d ∉ m'.required) (p : MPath) :
    ¬ Marked (dependencyGraph mainPath required loaded) loaded p := by
  rw [C39_marked_iff hnodup hmain hl]
  rintro ⟨between, d, m, h1, ⟨h2, h3, h4⟩, h5, h6, _⟩
  have key : ∀ (l : List MPath) (a : MPath), l ≠ [] → UseChain mainPath required loaded (a :: (l ++ [d])) → ∃ q ∈ l, Needs mainPath required loaded q d := by
    intro l
    induction l with
    | nil => intro a h; exact absurd rfl h
    | cons k l ih =>
      intro a _ hc
      cases l with
      | nil => exact ⟨k, by simp, hc.2.1⟩
      | cons k' l =>
        obtain ⟨q, hq, e⟩ := ih k (by simp) hc.2
        exact ⟨q, List.mem_cons_of_mem _ hq, e⟩
  obtain ⟨q, hq, (⟨rfl, _⟩ | ⟨m', hm', hd⟩)⟩ := key between mainPath h1 h4
  · rw [List.nodup_cons] at h2
    exact h2.1 hq
  · exact hdirect d m h5 h6 q m' ((lookup_of_mem hkeys).mpr hm') hd

end

theorem useChain_congr {mainPath : MPath} {required : List MPath} {loaded loaded' : List (MPath × Mod)}
    (h : ∀ e, e ∈ loaded ↔ e ∈ loaded') : ∀ l, UseChain mainPath required loaded l → UseChain mainPath required loaded' l
  | [] => fun _ => trivial
  | [_] => fun _ => trivial
  | p :: q :: l => fun hc => ⟨by
      rcases hc.1 with h1 | ⟨m, hm, hq⟩
      · exact Or.inl h1
      · exact Or.inr ⟨m, (h _).mp hm, hq⟩, useChain_congr h (q :: l) hc.2⟩

/-- C39: when a changed module is used through another one, it is found, and the loader never ends (it waits for a lock it
holds itself). -/
theorem C39_stuck {fetch : MPath → Except LoadError Mod} {mainPath : MPath} {main : Mod} {n : Nat} {s : St} {o : LOut}
    (hnodup : main.required.Nodup) (hmain : ¬ Reach fetch main mainPath)
    (h1 : Steps fetch (init main) n s) (h2 : Finished s) {between : List MPath} {d : MPath} {m : Mod} (hb : between ≠ [])
    (hp : UsePath mainPath main.required s.loaded between d) (hd : (d, m) ∈ s.loaded) (hm : m.dirty = true)
    (h : AfterLoad mainPath main s o) : o = .stuck := by
  have key : ∀ it : List (MPath × Mod), it.Perm s.loaded → Marked (dependencyGraph mainPath main.required it) it mainPath := by
    intro it hit
    have hkeys : (it.map (·.1)).Nodup := (hit.map (·.1)).nodup_iff.mpr (C32_once fetch main n s h1).2.2.1
    refine (C39_marked_iff hnodup (fun h => hmain (.direct h)) ?_ mainPath).mpr ⟨between, d, m, hb, ⟨hp.1, hp.2.1, ?_⟩, ?_, hm, by simp⟩
    · cases hl : it.lookup mainPath with
      | none => rfl
      | some x => exact absurd ((loaded_lookup h1 h2 hit mainPath x).mp hl).1 hmain
    · exact useChain_congr (fun e => hit.symm.mem_iff) _ hp.2.2
    · exact (lookup_of_mem hkeys).mpr (hit.mem_iff.mpr hd)
  cases h with
  | stuck => rfl
  | evalError hp hno => exact absurd (key _ hp) (hno _)
  | evalPanic hp hno => exact absurd (key _ hp) (hno _)
  | failures hp hno => exact absurd (key _ hp) (hno _)
  | unwrapNone hp hno => exact absurd (key _ hp) (hno _)
  | ok hp hno => exact absurd (key _ hp) (hno _)

end Verif.Loader
