import Verif.Cell.Spec
import Mathlib.Tactic.Common
import Mathlib.Data.List.Induction
/-
C108: which lists of options mean the same.
-/
namespace Verif.Cell
open Verif.Ast

/-! ## Specification -/

/-- The attributes of a cell. -/
inductive Attr where
  | border | borderColor | borderStyle | color | validation | fontColor | fontFamily | fontSize | halign | lock | note | numFmt | textFmt | var | valign | wrap
deriving DecidableEq

/-- The attribute that an option is for. -/
def Setting.attr : Setting → Attr
  | .border _ => .border | .borderColor _ => .borderColor | .borderStyle _ => .borderStyle | .color _ => .color
  | .validation _ => .validation | .fontColor _ => .fontColor | .fontFamily _ => .fontFamily | .fontSize _ => .fontSize
  | .halign _ => .halign | .lock => .lock | .note _ => .note | .numFmt _ => .numFmt | .textFmt _ => .textFmt
  | .var _ => .var | .valign _ => .valign | .wrap _ => .wrap

/-- The last option that is given for an attribute. -/
def latest (k : Attr) (ss : List Setting) : Option Setting := (ss.filter fun s => s.attr = k).getLast?

/-- The two lists of options say the same: the same borders and text formats in any order, and for every other attribute the same last option. -/
structure SameOptions (ss ss' : List Setting) : Prop where
  borders : ∀ x, .border x ∈ ss' ↔ .border x ∈ ss
  formats : ∀ f, .textFmt f ∈ ss' ↔ .textFmt f ∈ ss
  others : ∀ k, k ≠ .border → k ≠ .textFmt → latest k ss' = latest k ss

/-! ## Proofs -/

theorem latest_nil (k : Attr) : latest k [] = none := rfl

theorem latest_snoc (k : Attr) (ss : List Setting) (s : Setting) : latest k (ss ++ [s]) = if s.attr = k then some s else latest k ss := by
  rw [latest, List.filter_append]
  by_cases h : s.attr = k
  · simp [h]
  · simp [h, latest]

theorem latest_append (k : Attr) (ss ss' : List Setting) : latest k (ss ++ ss') = (latest k ss').or (latest k ss) := by
  rw [latest, List.filter_append, List.getLast?_append]
  rfl

theorem latest_attr {k : Attr} {ss : List Setting} {s : Setting} (h : latest k ss = some s) : s.attr = k ∧ s ∈ ss := by
  have := List.mem_of_getLast? h
  rw [List.mem_filter] at this
  exact ⟨by simpa using this.2, this.1⟩

/-- The last value for an attribute is that of the last option for it. -/
theorem lastOr_latest {α : Type} {f : Setting → Option α} {k : Attr} (h : ∀ s, s.attr ≠ k → f s = none) (h' : ∀ s, s.attr = k → (f s).isSome) (d : α)
    (ss : List Setting) : lastOr f d ss = ((latest k ss).bind f).getD d := by
  induction ss using List.reverseRecOn with
  | nil => rfl
  | append_singleton ss s ih =>
    rw [lastOr, List.foldl_append, List.foldl_cons, List.foldl_nil, ← lastOr, ih, latest_snoc]
    split
    · rename_i hk
      obtain ⟨v, hv⟩ := Option.isSome_iff_exists.mp (h' s hk)
      simp [hv]
    · rename_i hk
      rw [h s hk]; rfl

theorem given_iff {f : Setting → Bool} {ss : List Setting} : given f ss = true ↔ ∃ s ∈ ss, f s = true := List.any_eq_true

theorem given_congr {f : Setting → Bool} {ss ss' : List Setting} (h : ∀ s, f s = true → (s ∈ ss' ↔ s ∈ ss)) : given f ss' = given f ss := by
  rw [Bool.eq_iff_iff, given_iff, given_iff]
  exact ⟨fun ⟨s, h1, h2⟩ => ⟨s, (h s h2).mp h1, h2⟩, fun ⟨s, h1, h2⟩ => ⟨s, (h s h2).mpr h1, h2⟩⟩

theorem mem_lock {ss : List Setting} : .lock ∈ ss ↔ latest .lock ss = some .lock := by
  constructor
  · intro h
    cases e : latest .lock ss with
    | none =>
      rw [latest, List.getLast?_eq_none_iff, List.filter_eq_nil_iff] at e
      exact absurd (by simp [Setting.attr]) (e _ h)
    | some s =>
      have := (latest_attr e).1
      cases s <;> simp [Setting.attr] at this
      rfl
  · exact fun h => (latest_attr h).2

macro "attr_only" k:term : tactic =>
  `(tactic| (rw [lastOr_latest (k := $k) (fun s h => by cases s <;> first | rfl | exact absurd rfl h) (fun s h => by cases s <;> first | rfl | cases h),
      lastOr_latest (k := $k) (fun s h => by cases s <;> first | rfl | exact absurd rfl h) (fun s h => by cases s <;> first | rfl | cases h)]))

theorem settled_same {ss ss' : List Setting} (h : SameOptions ss ss') (o : Opts) : settled ss' o = settled ss o := by
  unfold settled
  congr 1
  · attr_only Attr.borderColor; rw [h.others _ (by decide) (by decide)]
  · attr_only Attr.borderStyle; rw [h.others _ (by decide) (by decide)]
  · funext x
    exact congrArg (· || o.borders x) (given_congr fun s hs => by cases s <;> first | exact h.borders _ | cases hs)
  · attr_only Attr.color; rw [h.others _ (by decide) (by decide)]
  · attr_only Attr.validation; rw [h.others _ (by decide) (by decide)]
  · attr_only Attr.fontColor; rw [h.others _ (by decide) (by decide)]
  · attr_only Attr.fontFamily; rw [h.others _ (by decide) (by decide)]
  · attr_only Attr.fontSize; rw [h.others _ (by decide) (by decide)]
  · attr_only Attr.halign; rw [h.others _ (by decide) (by decide)]
  · exact congrArg (· || o.lock) (given_congr fun s hs => by
      cases s <;> first | (rw [mem_lock, mem_lock, h.others .lock (by decide) (by decide)]) | cases hs)
  · attr_only Attr.note; rw [h.others _ (by decide) (by decide)]
  · attr_only Attr.numFmt; rw [h.others _ (by decide) (by decide)]
  · funext x
    exact congrArg (· || o.textFmts x) (given_congr fun s hs => by cases s <;> first | exact h.formats _ | cases hs)
  · attr_only Attr.wrap; rw [h.others _ (by decide) (by decide)]
  · attr_only Attr.var; rw [h.others _ (by decide) (by decide)]
  · attr_only Attr.valign; rw [h.others _ (by decide) (by decide)]

/-- Options whose last values are the same whatever is there before, are the same. -/
theorem latest_of_lastOr {α : Type} {f : Setting → Option α} {k : Attr} (h : ∀ s, s.attr ≠ k → f s = none) (h' : ∀ s, s.attr = k → (f s).isSome)
    (hi : ∀ s s', s.attr = k → s'.attr = k → f s = f s' → s = s') (d d' : α) (hd : d ≠ d') {ss ss' : List Setting}
    (e : ∀ x, lastOr f x ss' = lastOr f x ss) : latest k ss' = latest k ss := by
  simp only [lastOr_latest h h'] at e
  cases e1 : latest k ss with
  | none =>
    cases e2 : latest k ss' with
    | none => rfl
    | some s =>
      obtain ⟨v, hv⟩ := Option.isSome_iff_exists.mp (h' s (latest_attr e2).1)
      simp only [e1, e2, Option.bind_some, hv, Option.getD_some, Option.bind_none, Option.getD_none] at e
      exact absurd ((e d).symm.trans (e d')) hd
  | some s =>
    obtain ⟨v, hv⟩ := Option.isSome_iff_exists.mp (h' s (latest_attr e1).1)
    cases e2 : latest k ss' with
    | none =>
      simp only [e1, e2, Option.bind_some, hv, Option.getD_some, Option.bind_none, Option.getD_none] at e
      exact absurd ((e d).trans (e d').symm) hd
    | some s' =>
      obtain ⟨v', hv'⟩ := Option.isSome_iff_exists.mp (h' s' (latest_attr e2).1)
      simp only [e1, e2, Option.bind_some, hv, hv', Option.getD_some] at e
      rw [hi s' s (latest_attr e2).1 (latest_attr e1).1 (by rw [hv, hv', e d])]

macro "attr_from" e:term "," x:ident "," d:term "," d':term : tactic =>
  `(tactic| exact latest_of_lastOr (fun s h => by cases s <;> first | rfl | exact absurd rfl h) (fun s h => by cases s <;> first | rfl | cases h)
      (fun s s' h h' he => by cases s <;> first | (cases h; done) | (cases s' <;> first | (cases h'; done) | (cases he; rfl))) $d $d' (by simp) (fun $x => $e))

theorem same_of_settled {ss ss' : List Setting} (h : ∀ o, settled ss' o = settled ss o) : SameOptions ss ss' := by
  refine ⟨fun x => ?_, fun f => ?_, fun k h1 h2 => ?_⟩
  · have := congrFun (congrArg Opts.borders (h {})) x
    simp only [settled, Bool.or_false] at this
    rw [Bool.eq_iff_iff, given_iff, given_iff] at this
    constructor
    · intro hm
      obtain ⟨s, k1, k2⟩ := this.mp ⟨_, hm, by simp⟩
      cases s <;> simp at k2
      subst k2; exact k1
    · intro hm
      obtain ⟨s, k1, k2⟩ := this.mpr ⟨_, hm, by simp⟩
      cases s <;> simp at k2
      subst k2; exact k1
  · have := congrFun (congrArg Opts.textFmts (h {})) f
    simp only [settled, Bool.or_false] at this
    rw [Bool.eq_iff_iff, given_iff, given_iff] at this
    constructor
    · intro hm
      obtain ⟨s, k1, k2⟩ := this.mp ⟨_, hm, by simp⟩
      cases s <;> simp at k2
      subst k2; exact k1
    · intro hm
      obtain ⟨s, k1, k2⟩ := this.mpr ⟨_, hm, by simp⟩
      cases s <;> simp at k2
      subst k2; exact k1
  · cases k with
    | border => exact absurd rfl h1
    | textFmt => exact absurd rfl h2
    | lock =>
      have := congrArg Opts.lock (h {})
      simp only [settled, Bool.or_false] at this
      rw [Bool.eq_iff_iff, given_iff, given_iff] at this
      have hm : .lock ∈ ss' ↔ .lock ∈ ss := by
        constructor
        · intro hm
          obtain ⟨s, k1, k2⟩ := this.mp ⟨_, hm, rfl⟩
          cases s <;> simp at k2
          exact k1
        · intro hm
          obtain ⟨s, k1, k2⟩ := this.mpr ⟨_, hm, rfl⟩
          cases s <;> simp at k2
          exact k1
      rw [mem_lock, mem_lock] at hm
      have lk : ∀ l : List Setting, latest .lock l = none ∨ latest .lock l = some .lock := by
        intro l
        cases e : latest .lock l with
        | none => exact .inl rfl
        | some s =>
          have := (latest_attr e).1
          cases s <;> simp [Setting.attr] at this
          exact .inr rfl
      rcases lk ss with e | e <;> rcases lk ss' with e' | e' <;> rw [e, e'] at hm ⊢ <;> simp at hm
    | borderColor => attr_from (congrArg Opts.borderColor (h { borderColor := x })), x, none, (some ⟨0, 0, 0⟩)
    | borderStyle => attr_from (congrArg Opts.borderStyle (h { borderStyle := x })), x, BorderStyle.solid, BorderStyle.double
    | color => attr_from (congrArg Opts.color (h { color := x })), x, none, (some ⟨0, 0, 0⟩)
    | validation => attr_from (congrArg Opts.validation (h { validation := x })), x, none, (some .dateIsValid)
    | fontColor => attr_from (congrArg Opts.fontColor (h { fontColor := x })), x, none, (some ⟨0, 0, 0⟩)
    | fontFamily => attr_from (congrArg Opts.fontFamily (h { fontFamily := x })), x, none, (some [])
    | fontSize => attr_from (congrArg Opts.fontSize (h { fontSize := x })), x, none, (some 0)
    | halign => attr_from (congrArg Opts.halign (h { halign := x })), x, HAlign.left, HAlign.right
    | note => attr_from (congrArg Opts.note (h { note := x })), x, none, (some [])
    | numFmt => attr_from (congrArg Opts.numFmt (h { numFmt := x })), x, NumFmt.text, NumFmt.date
    | var => attr_from (congrArg Opts.var (h { var := x })), x, none, (some [])
    | valign => attr_from (congrArg Opts.valign (h { valign := x })), x, VAlign.top, VAlign.center
    | wrap => attr_from (congrArg Opts.wrap (h { wrap := x })), x, Wrap.wrap, Wrap.clip

/-- C108, options: two lists of options always have the same effect exactly if they say the same, attribute by attribute. -/
theorem C108_options (ss ss' : List Setting) : SameOptions ss ss' ↔ ∀ o, settled ss' o = settled ss o := ⟨fun h o => settled_same h o, same_of_settled⟩

/-- Options in another order say the same, if no attribute that has only one value is given twice. -/
theorem C108_order {ss ss' : List Setting} (hp : ss'.Perm ss)
    (hd : ∀ k, k ≠ .border → k ≠ .textFmt → (ss.filter fun s => s.attr = k).length ≤ 1) : SameOptions ss ss' := by
  refine ⟨fun x => hp.mem_iff, fun f => hp.mem_iff, fun k h1 h2 => ?_⟩
  have hq := hp.filter fun s => s.attr = k
  have hl := hd k h1 h2
  rw [latest, latest]
  revert hq hl
  generalize ss.filter _ = A, ss'.filter _ = B
  intro hq hl
  match A, hl with
  | [], _ => rw [List.perm_nil.mp hq]
  | [a], _ => rw [List.perm_singleton.mp hq]

end Verif.Cell
