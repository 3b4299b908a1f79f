import Verif.Loader.Merge
import Mathlib.Tactic.Common
import Mathlib.Tactic.Tauto
import Mathlib.Data.List.Nodup
import Mathlib.Logic.Relation
/-
The dependency graph the loader builds (src/module_loader/mod.rs:117-158): its nodes are the modules and its
edges the `use`s.
-/
namespace Verif.Loader
open Verif.Ast

/-- Module `p` uses module `q`: `p` is the main module or a loaded one. -/
def Needs (mainPath : MPath) (required : List MPath) (loaded : List (MPath × Mod)) (p q : MPath) : Prop :=
  (p = mainPath ∧ q ∈ required) ∨ ∃ m, (p, m) ∈ loaded ∧ q ∈ m.required

/-- The index knows exactly the nodes. -/
structure Build.Ok (b : Build) : Prop where
  nodup : b.graph.nodes.Nodup
  index : ∀ p i, b.index.lookup p = some i ↔ b.graph.nodes[i]? = some p

theorem getElem?_inj {l : List MPath} (h : l.Nodup) {i j : Nat} {p : MPath} (hi : l[i]? = some p) (hj : l[j]? = some p) : i = j := by
  obtain ⟨h1, h2⟩ := List.getElem?_eq_some_iff.mp hi
  obtain ⟨h3, h4⟩ := List.getElem?_eq_some_iff.mp hj
  exact (List.Nodup.getElem_inj_iff h).mp (h2.trans h4.symm)

theorem fresh_ok {b : Build} (hb : b.Ok) {p : MPath} (hp : p ∉ b.graph.nodes) :
    (b.fresh p).Ok ∧ (b.fresh p).graph.edges = b.graph.edges ∧ (b.fresh p).graph.nodes = b.graph.nodes ++ [p] := by
  refine ⟨⟨?_, fun q i => ?_⟩, rfl, rfl⟩
  · show (b.graph.nodes ++ [p]).Nodup
    rw [List.nodup_append]
    refine ⟨hb.nodup, by simp, fun a ha c hc => ?_⟩
    rw [List.mem_singleton] at hc
    rintro rfl
    exact hp (hc ▸ ha)
  · show List.lookup q ((p, b.graph.nodes.length) :: b.index) = some i ↔ (b.graph.nodes ++ [p])[i]? = some q
    rw [List.lookup_cons]
    by_cases hq : q = p
    · subst hq
      simp only [BEq.rfl, cond_true, Option.some.injEq]
      constructor
      · rintro rfl; simp
      · intro h
        by_cases hi : i < b.graph.nodes.length
        · rw [List.getElem?_append_left hi] at h
          exact absurd (List.mem_of_getElem? h) hp
        · obtain ⟨h1, _⟩ := List.getElem?_eq_some_iff.mp h
          simp at h1
          omega
    · have : (q == p) = false := by simp [hq]
      rw [this]
      simp only [cond_false]
      rw [hb.index]
      by_cases hi : i < b.graph.nodes.length
      · rw [List.getElem?_append_left hi]
      · rw [List.getElem?_eq_none (by omega)]
        constructor
        · intro h; cases h
        · intro h
          obtain ⟨h1, h2⟩ := List.getElem?_eq_some_iff.mp h
          rw [List.getElem_append_right (by omega)] at h2
          simp at h2
          exact absurd h2.symm hq

theorem node_ok {b : Build} (hb : b.Ok) (p : MPath) :
    (b.node p).1.Ok ∧ (b.node p).1.graph.edges = b.graph.edges ∧ (∃ l, (b.node p).1.graph.nodes = b.graph.nodes ++ l ∧ l ⊆ [p]) ∧
    (b.node p).1.graph.nodes[(b.node p).2]? = some p := by
  unfold Build.node
  cases h : b.index.lookup p with
  | some i =>
    simp only
    refine ⟨⟨hb.nodup, fun q j => ?_⟩, trivial, ⟨[], by simp⟩, (hb.index p i).mp h⟩
    rw [List.lookup_cons]
    by_cases hq : q = p
    · subst hq
      simp only [BEq.rfl, cond_true, Option.some.injEq]
      constructor
      · rintro rfl; exact (hb.index q i).mp h
      · intro h'; rw [(hb.index q j).mpr h'] at h; cases h; rfl
    · have : (q == p) = false := by simp [hq]
      rw [this]; exact hb.index q j
  | none =>
    have hp : p ∉ b.graph.nodes := by
      intro hp
      obtain ⟨i, hi⟩ := List.mem_iff_getElem?.mp hp
      rw [(hb.index p i).mpr hi] at h; cases h
    obtain ⟨h1, h2, h3⟩ := fresh_ok hb hp
    refine ⟨h1, h2, ⟨[p], h3, by simp⟩, ?_⟩
    show (b.fresh p).graph.nodes[b.graph.nodes.length]? = some p
    rw [h3]; simp

/-- The graph has the given edges between modules, and only modules that are mentioned. -/
structure Build.Has (b : Build) (mainPath : MPath) (rel : MPath → MPath → Prop) : Prop where
  ok : b.Ok
  main : b.graph.nodes[0]? = some mainPath
  edges : ∀ i j, (i, j) ∈ b.graph.edges ↔ ∃ p q, b.graph.nodes[i]? = some p ∧ b.graph.nodes[j]? = some q ∧ rel p q
  present : ∀ p q, rel p q → p ∈ b.graph.nodes ∧ q ∈ b.graph.nodes

theorem getElem?_append_of_some {l m : List MPath} {i : Nat} {p : MPath} (h : l[i]? = some p) : (l ++ m)[i]? = some p := by
  obtain ⟨h1, h2⟩ := List.getElem?_eq_some_iff.mp h
  rw [List.getElem?_append_left h1]; exact h

theorem getElem?_append_inv {l m : List MPath} {i : Nat} {p : MPath} (hn : (l ++ m).Nodup) (hp : p ∈ l) (h : (l ++ m)[i]? = some p) :
    l[i]? = some p := by
  obtain ⟨j, hj⟩ := List.mem_iff_getElem?.mp hp
  have := getElem?_inj hn h (getElem?_append_of_some hj)
  rw [this]; exact hj

/-- Adding nodes keeps the edges. -/
theorem has_more {b b' : Build} {mp : MPath} {rel : MPath → MPath → Prop} (h : b.Has mp rel) (hok : b'.Ok)
    (he : b'.graph.edges = b.graph.edges) {l : List MPath} (hn : b'.graph.nodes = b.graph.nodes ++ l) : b'.Has mp rel := by
  refine ⟨hok, by rw [hn]; exact getElem?_append_of_some h.main, fun i j => ?_, fun p q hr => ?_⟩
  · rw [he, h.edges, hn]
    constructor
    · rintro ⟨p, q, h1, h2, h3⟩
      exact ⟨p, q, getElem?_append_of_some h1, getElem?_append_of_some h2, h3⟩
    · rintro ⟨p, q, h1, h2, h3⟩
      obtain ⟨hp, hq⟩ := h.present p q h3
      have hnd := hok.nodup
      rw [hn] at hnd
      exact ⟨p, q, getElem?_append_inv hnd hp h1, getElem?_append_inv hnd hq h2, h3⟩
  · obtain ⟨hp, hq⟩ := h.present p q hr
    rw [hn]; exact ⟨List.mem_append_left _ hp, List.mem_append_left _ hq⟩

theorem has_edge {b : Build} {mp : MPath} {rel : MPath → MPath → Prop} (h : b.Has mp rel) {i j : Nat} {p q : MPath}
    (hi : b.graph.nodes[i]? = some p) (hj : b.graph.nodes[j]? = some q) :
    (b.edge i j).Has mp fun p' q' => rel p' q' ∨ (p' = p ∧ q' = q) := by
  refine ⟨⟨h.ok.nodup, h.ok.index⟩, h.main, fun i' j' => ?_, fun p' q' hr => ?_⟩
  · show (i', j') ∈ b.graph.edges ++ [(i, j)] ↔ ∃ p' q', b.graph.nodes[i']? = some p' ∧ b.graph.nodes[j']? = some q' ∧ _
    rw [List.mem_append, h.edges, List.mem_singleton]
    constructor
    · rintro (⟨p', q', h1, h2, h3⟩ | h1)
      · exact ⟨p', q', h1, h2, Or.inl h3⟩
      · cases h1; exact ⟨p, q, hi, hj, Or.inr ⟨rfl, rfl⟩⟩
    · rintro ⟨p', q', h1, h2, (h3 | ⟨rfl, rfl⟩)⟩
      · exact Or.inl ⟨p', q', h1, h2, h3⟩
      · right
        rw [getElem?_inj h.ok.nodup h1 hi, getElem?_inj h.ok.nodup h2 hj]
  · show p' ∈ b.graph.nodes ∧ q' ∈ b.graph.nodes
    rcases hr with hr | ⟨rfl, rfl⟩
    · exact h.present p' q' hr
    · exact ⟨List.mem_of_getElem? hi, List.mem_of_getElem? hj⟩

theorem Build.Has.congr {b : Build} {mp : MPath} {rel rel' : MPath → MPath → Prop} (h : b.Has mp rel)
    (hr : ∀ p q, rel p q ↔ rel' p q) : b.Has mp rel' := by
  have : rel = rel' := funext fun p => funext fun q => propext (hr p q)
  exact this ▸ h

theorem direct_has {mp : MPath} (ps : List MPath) {b : Build} {rel : MPath → MPath → Prop} (h : b.Has mp rel) (hn : ps.Nodup)
    (hd : ∀ p ∈ ps, p ∉ b.graph.nodes) :
    (ps.foldl addDirect b).Has mp (fun p q => rel p q ∨ (p = mp ∧ q ∈ ps)) ∧
    (ps.foldl addDirect b).graph.nodes = b.graph.nodes ++ ps := by
  induction ps generalizing b rel with
  | nil => exact ⟨h.congr (by simp), by simp⟩
  | cons p ps ih =>
    obtain ⟨hp, hn⟩ := List.nodup_cons.mp hn
    obtain ⟨h1, h2, h3⟩ := fresh_ok h.ok (hd p (by simp))
    have h4 : (b.fresh p).Has mp rel := has_more h h1 h2 h3
    have h5 := has_edge h4 h4.main (j := b.graph.nodes.length) (q := p) (by rw [h3]; simp)
    have e : (addDirect b p).graph.nodes = b.graph.nodes ++ [p] := h3
    obtain ⟨g1, g2⟩ := ih (b := addDirect b p) h5 hn (by
      intro q hq
      rw [e, List.mem_append, List.mem_singleton]
      rintro (h' | rfl)
      · exact hd q (List.mem_cons_of_mem _ hq) h'
      · exact hp hq)
    refine ⟨g1.congr fun p' q' => ?_, by rw [List.foldl_cons, g2, e]; simp⟩
    simp only [List.mem_cons]; tauto

theorem required_has {mp p : MPath} {i : Nat} (qs : List MPath) {b : Build} {rel : MPath → MPath → Prop} (h : b.Has mp rel)
    (hi : b.graph.nodes[i]? = some p) :
    (qs.foldl (addRequired i) b).Has mp (fun p' q' => rel p' q' ∨ (p' = p ∧ q' ∈ qs)) ∧
    (∃ l, (qs.foldl (addRequired i) b).graph.nodes = b.graph.nodes ++ l ∧ l ⊆ qs) := by
  induction qs generalizing b rel with
  | nil => exact ⟨h.congr (by simp), [], by simp⟩
  | cons q qs ih =>
    obtain ⟨h1, h2, ⟨l, h3, hl⟩, h4⟩ := node_ok h.ok q
    have h5 : (b.node q).1.Has mp rel := has_more h h1 h2 h3
    have hi' : (b.node q).1.graph.nodes[i]? = some p := by rw [h3]; exact getElem?_append_of_some hi
    have h6 := has_edge h5 hi' h4
    obtain ⟨g1, l', g2, g3⟩ := ih (b := addRequired i b q) h6 hi'
    refine ⟨g1.congr fun p' q' => ?_, l ++ l', ?_, ?_⟩
    · simp only [List.mem_cons]; tauto
    · show (qs.foldl (addRequired i) (addRequired i b q)).graph.nodes = _
      rw [g2]
      show (b.node q).1.graph.nodes ++ l' = _
      rw [h3, List.append_assoc]
    · intro x hx
      rcases List.mem_append.mp hx with hx | hx
      · have := hl hx; rw [List.mem_singleton] at this; subst this; simp
      · exact List.mem_cons_of_mem _ (g3 hx)

theorem loaded_has {mp : MPath} (es : List (MPath × Mod)) {b : Build} {rel : MPath → MPath → Prop} (h : b.Has mp rel) :
    (es.foldl addLoaded b).Has mp (fun p q => rel p q ∨ ∃ m, (p, m) ∈ es ∧ q ∈ m.required) ∧
    (∀ e ∈ es, e.1 ∈ (es.foldl addLoaded b).graph.nodes) ∧
    (∀ p ∈ (es.foldl addLoaded b).graph.nodes, p ∈ b.graph.nodes ∨ ∃ e ∈ es, p = e.1 ∨ p ∈ e.2.required) ∧
    ∃ l, (es.foldl addLoaded b).graph.nodes = b.graph.nodes ++ l := by
  induction es generalizing b rel with
  | nil => exact ⟨h.congr (by simp), by simp, by simp, [], by simp⟩
  | cons e es ih =>
    obtain ⟨h1, h2, ⟨l, h3, hl⟩, h4⟩ := node_ok h.ok e.1
    have h5 : (b.node e.1).1.Has mp rel := has_more h h1 h2 h3
    obtain ⟨h6, l', h7, h8⟩ := required_has e.2.required h5 h4
    obtain ⟨g1, g2, g3, l'', g4⟩ := ih (b := addLoaded b e) h6
    have hn : (addLoaded b e).graph.nodes = b.graph.nodes ++ l ++ l' := by rw [← h3]; exact h7
    refine ⟨g1.congr fun p' q' => ?_, fun e' he' => ?_, fun p hp => ?_, l ++ l' ++ l'', ?_⟩
    · obtain ⟨ep, em⟩ := e
      simp only [List.mem_cons, Prod.mk.injEq]
      constructor
      · rintro ((hr | ⟨rfl, hq⟩) | ⟨m, hm, hq⟩)
        · exact Or.inl hr
        · exact Or.inr ⟨em, Or.inl ⟨rfl, rfl⟩, hq⟩
        · exact Or.inr ⟨m, Or.inr hm, hq⟩
      · rintro (hr | ⟨m, (⟨rfl, rfl⟩ | hm), hq⟩)
        · exact Or.inl (Or.inl hr)
        · exact Or.inl (Or.inr ⟨rfl, hq⟩)
        · exact Or.inr ⟨m, hm, hq⟩
    · rcases List.mem_cons.mp he' with rfl | he'
      · show e'.1 ∈ (es.foldl addLoaded (addLoaded b e')).graph.nodes
        rw [g4, hn, ← h3]
        exact List.mem_append_left _ (List.mem_append_left _ (List.mem_of_getElem? h4))
      · exact g2 e' he'
    · rcases g3 p hp with hp | ⟨e', he', hp⟩
      · rw [hn] at hp
        rcases List.mem_append.mp hp with hp | hp
        · rcases List.mem_append.mp hp with hp | hp
          · exact Or.inl hp
          · have := hl hp; rw [List.mem_singleton] at this
            exact Or.inr ⟨e, by simp, Or.inl this⟩
        · exact Or.inr ⟨e, by simp, Or.inr (h8 hp)⟩
      · exact Or.inr ⟨e', List.mem_cons_of_mem _ he', hp⟩
    · show (es.foldl addLoaded (addLoaded b e)).graph.nodes = _
      rw [g4, hn]; simp

/-- The graph is right if the main module does not use itself or a module twice. -/
theorem graph_spec (mainPath : MPath) (required : List MPath) (loaded : List (MPath × Mod)) (hn : required.Nodup)
    (hm : mainPath ∉ required) :
    (dependencyGraph mainPath required loaded).nodes.Nodup ∧
    (dependencyGraph mainPath required loaded).nodes[0]? = some mainPath ∧
    (∀ i j, (i, j) ∈ (dependencyGraph mainPath required loaded).edges ↔
      ∃ p q, (dependencyGraph mainPath required loaded).nodes[i]? = some p ∧
        (dependencyGraph mainPath required loaded).nodes[j]? = some q ∧ Needs mainPath required loaded p q) ∧
    (∀ p q, Needs mainPath required loaded p q → p ∈ (dependencyGraph mainPath required loaded).nodes ∧
      q ∈ (dependencyGraph mainPath required loaded).nodes) ∧
    (∀ e ∈ loaded, e.1 ∈ (dependencyGraph mainPath required loaded).nodes) := by
  have h0 : (⟨⟨[mainPath], []⟩, [(mainPath, 0)]⟩ : Build).Has mainPath fun _ _ => False := by
    refine ⟨⟨by simp, fun p i => ?_⟩, rfl, by simp, by simp⟩
    rw [List.lookup_cons]
    by_cases hp : p = mainPath
    · subst hp; simp only [BEq.rfl, cond_true, Option.some.injEq]
      constructor
      · rintro rfl; rfl
      · intro h
        obtain ⟨h1, _⟩ := List.getElem?_eq_some_iff.mp h
        simp at h1; omega
    · have : (p == mainPath) = false := by simp [hp]
      rw [this]
      simp only [cond_false, List.lookup_nil, reduceCtorEq, false_iff]
      intro h
      have := List.mem_of_getElem? h
      rw [List.mem_singleton] at this
      exact hp this
  obtain ⟨h1, _⟩ := direct_has required h0 hn (by
    intro p hp h
    rw [List.mem_singleton] at h
    subst h; exact hm hp)
  obtain ⟨h2, h3, _, _⟩ := loaded_has loaded h1
  have h4 := h2.congr (rel' := Needs mainPath required loaded) (fun p q => by simp [Needs])
  exact ⟨h4.ok.nodup, h4.main, h4.edges, h4.present, h3⟩

end Verif.Loader
