import Verif.Loader.Deps
import Mathlib.Tactic.Common
/-
What merging scopes gives (src/scope/mod.rs:43-56), and the properties of it the loader relies on.
-/
namespace Verif.Loader
open Verif.Ast

/-- The variable `k` that a `use` of the module with scope `d` offers: the one it exports. -/
def offersVar (k : Text) (d : Scope) : Option Ast := if k ∈ d.exports then d.variables k else none

/-- The function `k` that a `use` of the module with scope `d` offers. -/
def offersFn (k : Text) (d : Scope) : Option Ast := if k ∈ d.exports then d.functions k else none

theorem mergeOne_spec (other sc : Scope) (e k : Text) :
    (Scope.mergeOne other sc e).variables k = (sc.variables k).or (if k = e then other.variables k else none) ∧
    (Scope.mergeOne other sc e).functions k = (sc.functions k).or (if k = e then other.functions k else none) ∧
    (Scope.mergeOne other sc e).exports = sc.exports := by
  by_cases hk : k = e
  · subst hk
    cases h1 : other.functions k <;> cases h2 : other.variables k <;> cases h3 : sc.functions k <;> cases h4 : sc.variables k <;>
      simp [Scope.mergeOne, h1, h2, h3, h4]
  · cases h1 : other.functions e <;> cases h2 : other.variables e <;> cases h3 : sc.functions e <;> cases h4 : sc.variables e <;>
      simp [Scope.mergeOne, h1, h2, h3, h4, hk]

theorem merge_spec (other sc : Scope) (order : List Text) (k : Text) :
    (sc.merge other order).variables k = (sc.variables k).or (if k ∈ order then other.variables k else none) ∧
    (sc.merge other order).functions k = (sc.functions k).or (if k ∈ order then other.functions k else none) ∧
    (sc.merge other order).exports = sc.exports := by
  induction order generalizing sc with
  | nil => simp [Scope.merge]
  | cons e l ih =>
    obtain ⟨h1, h2, h3⟩ := ih (Scope.mergeOne other sc e)
    obtain ⟨g1, g2, g3⟩ := mergeOne_spec other sc e k
    have he : sc.merge other (e :: l) = (Scope.mergeOne other sc e).merge other l := rfl
    rw [he, h1, h2, h3, g1, g2, g3]
    refine ⟨?_, ?_, rfl⟩
    · by_cases a : k = e <;> by_cases b : k ∈ l <;> simp [a, b]
      subst a
      cases sc.variables k <;> cases other.variables k <;> simp [b]
      subst a
      cases sc.variables k <;> cases other.variables k <;> simp [b]
    · by_cases a : k = e <;> by_cases b : k ∈ l <;> simp [a, b]
      subst a
      cases sc.functions k <;> cases other.functions k <;> simp [b]
      subst a
      cases sc.functions k <;> cases other.functions k <;> simp [b]

theorem Scope.ext' {a b : Scope} (h1 : ∀ k, a.functions k = b.functions k) (h2 : ∀ k, a.variables k = b.variables k)
    (h3 : a.exports = b.exports) : a = b := by
  obtain ⟨f, v, e⟩ := a
  obtain ⟨f', v', e'⟩ := b
  simp only at h1 h2 h3
  obtain rfl := funext h1
  obtain rfl := funext h2
  subst h3; rfl

/-- The iteration order of the exported names does not matter. -/
theorem merge_order (other sc : Scope) {o o' : List Text} (h : ∀ k, k ∈ o ↔ k ∈ o') : sc.merge other o = sc.merge other o' := by
  refine Scope.ext' (fun k => ?_) (fun k => ?_) ?_
  · rw [(merge_spec other sc o k).2.1, (merge_spec other sc o' k).2.1]; simp only [h]
  · rw [(merge_spec other sc o k).1, (merge_spec other sc o' k).1]; simp only [h]
  · rw [(merge_spec other sc o []).2.2, (merge_spec other sc o' []).2.2]

theorem merge_exports_spec (d sc : Scope) (k : Text) :
    (sc.merge d d.exports).variables k = (sc.variables k).or (offersVar k d) ∧
    (sc.merge d d.exports).functions k = (sc.functions k).or (offersFn k d) ∧
    (sc.merge d d.exports).exports = sc.exports := merge_spec d sc d.exports k

/-- What `mergeReqs` gives: the own definition, else the first one offered. -/
theorem mergeReqs_spec {scopes : List (MPath × Scope)} {sc sc' : Scope} {ps : List MPath} (h : mergeReqs scopes sc ps = some sc') :
    ∃ ds : List Scope, ps.map (scopes.lookup ·) = ds.map some ∧ sc'.exports = sc.exports ∧
      (∀ k, sc'.variables k = (sc.variables k).or (ds.findSome? (offersVar k))) ∧
      ∀ k, sc'.functions k = (sc.functions k).or (ds.findSome? (offersFn k)) := by
  induction ps generalizing sc with
  | nil => cases h; exact ⟨[], by simp⟩
  | cons p ps ih =>
    rw [mergeReqs] at h
    split at h
    · cases h
    · rename_i d hd
      obtain ⟨ds, h1, h2, h3, h4⟩ := ih h
      refine ⟨d :: ds, by simp [h1, hd], by rw [h2, (merge_exports_spec d sc []).2.2], fun k => ?_, fun k => ?_⟩
      · rw [h3, (merge_exports_spec d sc k).1, List.findSome?_cons]
        cases sc.variables k <;> cases offersVar k d <;> simp
      · rw [h4, (merge_exports_spec d sc k).2.1, List.findSome?_cons]
        cases sc.functions k <;> cases offersFn k d <;> simp

theorem mergeReqs_none {scopes : List (MPath × Scope)} {sc : Scope} {ps : List MPath} :
    mergeReqs scopes sc ps = none ↔ ∃ p ∈ ps, scopes.lookup p = none := by
  induction ps generalizing sc with
  | nil => simp [mergeReqs]
  | cons p ps ih =>
    rw [mergeReqs]
    split
    · rename_i h; exact ⟨fun _ => ⟨p, List.mem_cons_self, h⟩, fun _ => rfl⟩
    · rename_i d h
      rw [ih]
      constructor
      · rintro ⟨q, hq, h'⟩; exact ⟨q, List.mem_cons_of_mem _ hq, h'⟩
      · rintro ⟨q, hq, h'⟩
        rcases List.mem_cons.mp hq with rfl | hq
        · rw [h] at h'; cases h'
        · exact ⟨q, hq, h'⟩

theorem lookup_filter_ne {β : Type} (l : List (MPath × β)) {p q : MPath} (h : q ≠ p) :
    (l.filter fun e => decide (e.1 ≠ p)).lookup q = l.lookup q := by
  induction l with
  | nil => rfl
  | cons e l ih =>
    rw [List.filter_cons]
    split
    · rw [List.lookup_cons, List.lookup_cons, ih]
    · rename_i h1
      have : e.1 = p := by simpa using h1
      rw [ih, List.lookup_cons]
      have : (q == e.1) = false := by simp [this, h]
      rw [this]

theorem lookup_filter_eq {β : Type} (l : List (MPath × β)) (p : MPath) :
    (l.filter fun e => decide (e.1 ≠ p)).lookup p = none := by
  induction l with
  | nil => rfl
  | cons e l ih =>
    rw [List.filter_cons]
    split
    · rename_i h1
      have : e.1 ≠ p := by simpa using h1
      rw [List.lookup_cons, ih]
      have : (p == e.1) = false := by simp [Ne.symm this]
      rw [this]
    · exact ih

/-- What `mergeDirect` gives. -/
theorem mergeDirect_spec {loaded : List (MPath × Mod)} {sc sc' : Scope} {ps : List MPath} (h : mergeDirect sc loaded ps = some sc') :
    ps.Nodup ∧ ∃ ms : List Mod, ps.map (loaded.lookup ·) = ms.map some ∧ sc'.exports = sc.exports ∧
      (∀ k, sc'.variables k = (sc.variables k).or (ms.findSome? fun m => offersVar k m.scope)) ∧
      ∀ k, sc'.functions k = (sc.functions k).or (ms.findSome? fun m => offersFn k m.scope) := by
  induction ps generalizing sc loaded with
  | nil => cases h; exact ⟨List.nodup_nil, [], by simp⟩
  | cons p ps ih =>
    rw [mergeDirect] at h
    split at h
    · cases h
    · rename_i d hd
      obtain ⟨hn, ds, h1, h2, h3, h4⟩ := ih h
      have hp : p ∉ ps := by
        intro hp
        have : (loaded.filter fun e => decide (e.1 ≠ p)).lookup p ∈ ds.map some := by
          rw [← h1]; exact List.mem_map.mpr ⟨p, hp, rfl⟩
        rw [lookup_filter_eq] at this
        simp at this
      have h1' : ps.map (loaded.lookup ·) = ds.map some := by
        rw [← h1]
        refine List.map_congr_left fun q hq => ?_
        rw [lookup_filter_ne]
        rintro rfl; exact hp hq
      refine ⟨List.nodup_cons.mpr ⟨hp, hn⟩, d :: ds, by simp [h1', hd], by rw [h2, (merge_exports_spec _ sc []).2.2], fun k => ?_, fun k => ?_⟩
      · rw [h3, (merge_exports_spec d.scope sc k).1, List.findSome?_cons]
        cases sc.variables k <;> cases offersVar k d.scope <;> simp
      · rw [h4, (merge_exports_spec d.scope sc k).2.1, List.findSome?_cons]
        cases sc.functions k <;> cases offersFn k d.scope <;> simp

/-- `mergeDirect` succeeds iff no module is repeated and all are loaded. -/
theorem mergeDirect_some_iff {loaded : List (MPath × Mod)} {sc : Scope} {ps : List MPath} :
    (∃ sc', mergeDirect sc loaded ps = some sc') ↔ ps.Nodup ∧ ∀ p ∈ ps, ∃ m, loaded.lookup p = some m := by
  induction ps generalizing sc loaded with
  | nil => simp [mergeDirect]
  | cons p ps ih =>
    rw [mergeDirect]
    split
    · rename_i h
      constructor
      · rintro ⟨_, h'⟩; cases h'
      · rintro ⟨_, h2⟩; obtain ⟨m, hm⟩ := h2 p (by simp); rw [h] at hm; cases hm
    · rename_i d h
      rw [ih]
      constructor
      · rintro ⟨hn, h2⟩
        have hp : p ∉ ps := fun hp => by
          obtain ⟨m, hm⟩ := h2 p hp
          rw [lookup_filter_eq] at hm; cases hm
        refine ⟨List.nodup_cons.mpr ⟨hp, hn⟩, fun q hq => ?_⟩
        rcases List.mem_cons.mp hq with rfl | hq'
        · exact ⟨d, h⟩
        · obtain ⟨m, hm⟩ := h2 q hq'
          rw [lookup_filter_ne _ (by rintro rfl; exact hp hq')] at hm
          exact ⟨m, hm⟩
      · rintro ⟨hn, h2⟩
        obtain ⟨hp, hn⟩ := List.nodup_cons.mp hn
        refine ⟨hn, fun q hq => ?_⟩
        rw [lookup_filter_ne _ (by rintro rfl; exact hp hq)]
        exact h2 q (List.mem_cons_of_mem _ hq)

end Verif.Loader
