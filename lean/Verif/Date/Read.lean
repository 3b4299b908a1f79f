import Verif.Date.Model
import Verif.Parser.Model
import Mathlib.Data.List.TakeWhile
import Mathlib.Tactic.Common
/-
C83: a date is the day that is written.
-/
namespace Verif.Date
open Verif.Parser (Uni)

/-! ## Specification -/

/-- From `lo` to `hi` digits, and the number they write. -/
structure Digits (lo hi : Nat) (d : Text) (n : Nat) : Prop where
  least : lo ≤ d.length
  most : d.length ≤ hi
  digits : ∀ c ∈ d, c.isDigit = true
  value : n = Nat.ofDigitChars 10 d 0

/-- The text is matched by the pattern for dates in options (src/parser/cell_lexer/token_library.rs:29-32); `\d` are the digits of all scripts. -/
inductive DateToken (u : Uni) : Text → Prop
  | iso {a b c : Text} (ha : a.length = 4) (hb : b.length = 2) (hc : c.length = 2) (h : ∀ x ∈ a ++ b ++ c, u.isD x = true) :
      DateToken u (a ++ '-' :: (b ++ '-' :: c))
  | us {a b c : Text} (ha : 1 ≤ a.length ∧ a.length ≤ 2) (hb : 1 ≤ b.length ∧ b.length ≤ 2) (hc : 2 ≤ c.length ∧ c.length ≤ 4)
      (h : ∀ x ∈ a ++ b ++ c, u.isD x = true) : DateToken u (a ++ '/' :: (b ++ '/' :: c))

/-- The day that a text is meant to write: `yyyy-mm-dd`, `mm/dd/yyyy` (the year may have three digits) or `mm/dd/yy` with a year from 1970 to 2069. -/
inductive Writes : Text → Day → Prop
  | iso {a b c : Text} {y m d : Nat} (ha : Digits 4 4 a y) (hb : Digits 2 2 b m) (hc : Digits 2 2 c d) : Writes (a ++ '-' :: (b ++ '-' :: c)) ⟨y, m, d⟩
  | us {a b c : Text} {y m d : Nat} (ha : Digits 1 2 a m) (hb : Digits 1 2 b d) (hc : Digits 3 4 c y) : Writes (a ++ '/' :: (b ++ '/' :: c)) ⟨y, m, d⟩
  | usShort {a b c : Text} {y m d : Nat} (ha : Digits 1 2 a m) (hb : Digits 1 2 b d) (hc : Digits 2 2 c y) :
      Writes (a ++ '/' :: (b ++ '/' :: c)) ⟨if y < 70 then 2000 + y else 1900 + y, m, d⟩

/-- The years with a 29th of February: every fourth year, of the centuries every fourth. -/
def LeapYear (y : Int) : Prop := 4 ∣ y ∧ (100 ∣ y → 400 ∣ y)

/-- "Thirty days hath September": the month has so many days in the year. -/
inductive HasDays (y : Int) : Nat → Nat → Prop
  | thirty {m : Nat} (h : m ∈ [9, 4, 6, 11]) : HasDays y m 30
  | february (h : ¬ LeapYear y) : HasDays y 2 28
  | leapFebruary (h : LeapYear y) : HasDays y 2 29
  | other {m : Nat} (h : m ∈ [1, 3, 5, 7, 8, 10, 12]) : HasDays y m 31

/-- The calendar has the day. -/
def Day.Real (d : Day) : Prop := ∃ n, HasDays d.year d.month n ∧ 1 ≤ d.day ∧ d.day ≤ n

/-! ## Proofs -/

theorem leap_iff (y : Int) : leap y = true ↔ LeapYear y := by
  simp only [leap, LeapYear, Bool.and_eq_true, Bool.or_eq_true, decide_eq_true_eq]; omega

theorem hasDays_iff {y : Int} {m n : Nat} : HasDays y m n ↔ (1 ≤ m ∧ m ≤ 12) ∧ n = monthLength y m := by
  constructor
  · intro h
    cases h with
    | thirty h =>
      simp only [List.mem_cons, List.not_mem_nil, or_false] at h
      rcases h with rfl | rfl | rfl | rfl <;> exact ⟨by omega, by simp [monthLength]⟩
    | february h => rw [← leap_iff] at h; exact ⟨by omega, by simp [monthLength, h]⟩
    | leapFebruary h => rw [← leap_iff] at h; exact ⟨by omega, by simp [monthLength, h]⟩
    | other h =>
      simp only [List.mem_cons, List.not_mem_nil, or_false] at h
      rcases h with rfl | rfl | rfl | rfl | rfl | rfl | rfl <;> exact ⟨by omega, by simp [monthLength]⟩
  · rintro ⟨h, rfl⟩
    by_cases h2 : m = 2
    · subst h2
      by_cases hl : leap y = true
      · have := HasDays.leapFebruary ((leap_iff y).mp hl); simpa [monthLength, hl] using this
      · have := HasDays.february (fun e => hl ((leap_iff y).mpr e)); simpa [monthLength, hl] using this
    · by_cases h3 : m = 4 ∨ m = 6 ∨ m = 9 ∨ m = 11
      · rw [monthLength, if_neg h2, if_pos h3]
        exact .thirty (by simp only [List.mem_cons, List.not_mem_nil, or_false]; omega)
      · rw [monthLength, if_neg h2, if_neg h3]
        exact .other (by simp only [List.mem_cons, List.not_mem_nil, or_false]; omega)

theorem real_iff {d : Day} : d.Real ↔ (1 ≤ d.month ∧ d.month ≤ 12) ∧ 1 ≤ d.day ∧ d.day ≤ monthLength d.year d.month := by
  constructor
  · rintro ⟨n, h1, h2⟩
    obtain ⟨h3, rfl⟩ := hasDays_iff.mp h1
    exact ⟨h3, h2⟩
  · rintro ⟨h1, h2⟩; exact ⟨_, hasDays_iff.mpr ⟨h1, rfl⟩, h2⟩

theorem Day.Real.month {d : Day} (h : d.Real) : 1 ≤ d.month ∧ d.month ≤ 12 := (real_iff.mp h).1
theorem Day.Real.day {d : Day} (h : d.Real) : 1 ≤ d.day ∧ d.day ≤ monthLength d.year d.month := (real_iff.mp h).2

theorem items_cons {i : Item} {is : List Item} {f g : Fields} {s : Text} :
    items (i :: is) f s = some g ↔ ∃ f' r, item i f s = some (f', r) ∧ items is f' r = some g := by
  simp only [items]
  split
  · rename_i f' r h; simp [h]
  · rename_i h; simp [h]

theorem items_nil {f g : Fields} {s : Text} : items [] f s = some g ↔ s = [] ∧ f = g := by
  simp only [items]; split <;> simp_all

theorem number_suffix {w n : Nat} {s r : Text} (h : number w s = some (n, r)) : ∃ p, s = p ++ r := by
  simp only [number] at h
  split at h
  · cases h
  · cases h; exact ⟨_, (List.take_append_drop _ s).symm⟩

theorem dropWhile_suffix (p : Char → Bool) (s : Text) : ∃ q, s = q ++ s.dropWhile p := ⟨_, List.takeWhile_append_dropWhile.symm⟩

theorem numeric_suffix {w lo hi n : Nat} {s r : Text} (h : numeric w lo hi s = some (n, r)) : ∃ p, s = p ++ r := by
  simp only [numeric] at h
  split at h
  · rename_i n' r' e
    split at h
    · cases h
      obtain ⟨p, hp⟩ := number_suffix e
      obtain ⟨q, hq⟩ := dropWhile_suffix isWs s
      exact ⟨q ++ p, by rw [List.append_assoc, ← hp]; exact hq⟩
    · cases h
  · cases h

theorem year_suffix {s r : Text} {y : Int} (h : signedYear s = some (y, r)) : ∃ p, s = p ++ r := by
  obtain ⟨q, hq⟩ := dropWhile_suffix isWs s
  simp only [signedYear] at h
  split at h
  · rename_i x e
    split at h
    · rename_i n r' e'
      split at h
      · cases h
        obtain ⟨p, hp⟩ := number_suffix e'
        exact ⟨q ++ '-' :: p, by rw [hq, e, hp]; simp⟩
      · cases h
    · cases h
  · rename_i x e
    split at h
    · rename_i n r' e'
      split at h
      · cases h
        obtain ⟨p, hp⟩ := number_suffix e'
        exact ⟨q ++ '+' :: p, by rw [hq, e, hp]; simp⟩
      · cases h
    · cases h
  · split at h
    · rename_i n r' e'
      cases h
      obtain ⟨p, hp⟩ := number_suffix e'
      exact ⟨q ++ p, by rw [List.append_assoc, ← hp]; exact hq⟩
    · cases h

theorem item_suffix {i : Item} {f g : Fields} {s r : Text} (h : item i f s = some (g, r)) : ∃ p, s = p ++ r := by
  cases i with
  | lit c =>
    simp only [item] at h
    split at h
    · split at h
      · cases h; exact ⟨[_], rfl⟩
      · cases h
    · cases h
  | zone => cases h; exact dropWhile_suffix _ s
  | space => cases h; exact dropWhile_suffix _ s
  | year =>
    simp only [item, Option.map_eq_some_iff] at h
    obtain ⟨⟨y, r'⟩, h1, h2⟩ := h; cases h2; exact year_suffix h1
  | _ =>
    simp only [item, Option.map_eq_some_iff] at h
    obtain ⟨⟨y, r'⟩, h1, h2⟩ := h; cases h2; exact numeric_suffix h1

/-- A format with a character matches only texts with it. -/
theorem items_lit {c : Char} {is : List Item} {f g : Fields} {s : Text} (hc : .lit c ∈ is) (h : items is f s = some g) : c ∈ s := by
  induction is generalizing f s with
  | nil => cases hc
  | cons i is ih =>
    obtain ⟨f', r, h1, h2⟩ := items_cons.mp h
    obtain ⟨p, rfl⟩ := item_suffix h1
    rcases List.mem_cons.mp hc with rfl | hc
    · simp only [item] at h1
      split at h1
      · rename_i x y e
        split at h1
        · rename_i hx; subst hx; rw [e]; exact List.mem_cons_self ..
        · cases h1
      · cases h1
    · exact List.mem_append_right _ (ih hc h2)

/-- The characters of a number: no white space, no signs and no separators. -/
def Fig (a : Text) : Prop := ∀ x ∈ a, isWs x = false ∧ x ≠ '-' ∧ x ≠ '/' ∧ x ≠ ':' ∧ x ≠ '+'

theorem fig_of {u : Uni} {a : Text} (h : ∀ x ∈ a, u.isD x = true) : Fig a := by
  intro x hx
  have := h x hx
  simp only [Uni.isD] at this
  split at this
  · refine ⟨?_, ?_⟩
    · have h48 : 48 ≤ x.toNat ∧ x.toNat ≤ 57 := by
        simp only [Char.isDigit, Bool.and_eq_true, decide_eq_true_eq] at this
        exact this
      simp only [isWs]
      have : ∀ k : Nat, k < 48 ∨ 57 < k → (x.toNat == k) = false := fun k hk => by simp only [beq_eq_false_iff_ne]; omega
      simp only [this 0x20 (by omega), this 0x85 (by omega), this 0xA0 (by omega), this 0x1680 (by omega), this 0x2028 (by omega), this 0x2029 (by omega),
        this 0x202F (by omega), this 0x205F (by omega), this 0x3000 (by omega), Bool.or_false, Bool.or_eq_false_iff, Bool.and_eq_false_iff, decide_eq_false_iff_not]
      omega
    · refine ⟨?_, ?_, ?_, ?_⟩ <;> (rintro rfl; revert this; decide)
  · rename_i h128
    refine ⟨u.digit_ws x this, ?_⟩
    refine ⟨?_, ?_, ?_, ?_⟩ <;> (rintro rfl; exact h128 (by decide))

theorem fig_dropWhile {a x : Text} {c : Char} (ha : Fig a) (hc : isWs c = false) : (a ++ c :: x).dropWhile isWs = a ++ c :: x := by
  cases a with
  | nil => simp [hc]
  | cons b a => simp [(ha b (List.mem_cons_self ..)).1]

theorem fig_dropWhile' {a : Text} (ha : Fig a) : a.dropWhile isWs = a := by
  cases a with
  | nil => rfl
  | cons b a => simp [(ha b (List.mem_cons_self ..)).1]

/-- A number and then a separator. -/
theorem number_sep {w n : Nat} {a x r : Text} {c c' : Char} (ha : Fig a) (hc' : c' = '-' ∨ c' = '/') (hc : c.isDigit = false) :
    number w (a ++ c :: x) = some (n, c' :: r) ↔ Digits 1 w a n ∧ c' = c ∧ r = x := by
  have hca : c' ∉ a := fun h => by rcases hc' with rfl | rfl
                                   · exact (ha _ h).2.1 rfl
                                   · exact (ha _ h).2.2.1 rfl
  simp only [number]
  constructor
  · intro h
    split at h
    · cases h
    · rename_i hne
      simp only [Option.some.injEq, Prod.mk.injEq] at h
      obtain ⟨h1, h2⟩ := h
      generalize hds : ((a ++ c :: x).take w).takeWhile Char.isDigit = ds at *
      have hpre : ds <+: a ++ c :: x := by rw [← hds]; exact (List.takeWhile_prefix _).trans (List.take_prefix _ _)
      have hlen : ds.length ≤ w := by
        rw [← hds]; exact ((List.takeWhile_prefix _).length_le).trans (List.length_take_le _ _)
      have hdig : ∀ y ∈ ds, y.isDigit = true := by
        intro y hy; rw [← hds] at hy; exact List.mem_takeWhile_imp hy
      have hsplit : a ++ c :: x = ds ++ c' :: r := by
        conv_lhs => rw [← List.take_append_drop ds.length (a ++ c :: x), h2]
        rw [List.prefix_iff_eq_take.mp hpre, List.length_take]
        simp [hpre.length_le]
      have hcd : c ∉ ds := fun h => by rw [hdig c h] at hc; cases hc
      have hcc : c' ∉ ds := fun h => by
        have := hdig c' h
        rcases hc' with rfl | rfl <;> cases this
      have hda : ds = a := by
        rcases List.append_eq_append_iff.mp hsplit with ⟨as, e1, e2⟩ | ⟨as, e1, e2⟩
        · cases as with
          | nil => simpa using e1
          | cons y as => rw [List.cons_append] at e2; cases e2; exact absurd (by rw [e1]; simp) hcd
        · cases as with
          | nil => simpa using e1.symm
          | cons y as => rw [List.cons_append] at e2; cases e2; exact absurd (by rw [e1]; simp) hca
      rw [hda] at hsplit hne hdig hlen h1
      have := List.append_cancel_left hsplit
      cases this
      exact ⟨⟨List.length_pos_iff.mpr hne, hlen, hdig, h1.symm⟩, rfl, rfl⟩
  · rintro ⟨⟨h1, h2, h3, h4⟩, rfl, rfl⟩
    have : ((a ++ c' :: r).take w).takeWhile Char.isDigit = a := by
      rw [List.take_append, List.take_of_length_le h2, List.takeWhile_append_of_pos h3]
      cases hw : w - a.length with
      | zero => simp
      | succ k => simp [hc]
    rw [this, if_neg (List.length_pos_iff.mp h1), List.drop_left, h4]

/-- A number at the end. -/
theorem number_end {w n : Nat} {a : Text} : number w a = some (n, []) ↔ Digits 1 w a n := by
  simp only [number]
  constructor
  · intro h
    split at h
    · cases h
    · rename_i hne
      simp only [Option.some.injEq, Prod.mk.injEq, List.drop_eq_nil_iff] at h
      obtain ⟨h1, h2⟩ := h
      have hp : (a.take w).takeWhile Char.isDigit <+: a := (List.takeWhile_prefix _).trans (List.take_prefix _ _)
      have he : (a.take w).takeWhile Char.isDigit = a := hp.eq_of_length (Nat.le_antisymm hp.length_le h2)
      have hl : a.length ≤ w := by
        have := (List.takeWhile_prefix (l := a.take w) Char.isDigit).length_le.trans (List.length_take_le _ _)
        rwa [he] at this
      have hd : ∀ c ∈ a, c.isDigit = true := by
        intro c hc; rw [← he] at hc; exact List.mem_takeWhile_imp hc
      rw [he] at hne h1
      exact ⟨List.length_pos_iff.mpr hne, hl, hd, h1.symm⟩
  · rintro ⟨h1, h2, h3, h4⟩
    have : (a.take w).takeWhile Char.isDigit = a := by
      rw [List.take_of_length_le h2, List.takeWhile_eq_self_iff]; exact h3
    rw [this, if_neg (List.length_pos_iff.mp h1), h4]; simp

theorem numeric_sep {w lo hi n : Nat} {a x r : Text} {c c' : Char} (ha : Fig a) (hc' : c' = '-' ∨ c' = '/') (hc : c = '-' ∨ c = '/') :
    numeric w lo hi (a ++ c :: x) = some (n, c' :: r) ↔ (Digits 1 w a n ∧ lo ≤ n ∧ n ≤ hi) ∧ c' = c ∧ r = x := by
  have hws : isWs c = false := by rcases hc with rfl | rfl <;> decide
  have hd : c.isDigit = false := by rcases hc with rfl | rfl <;> decide
  simp only [numeric, fig_dropWhile ha hws]
  have key := fun n' => number_sep (w := w) (n := n') (x := x) (r := r) ha hc' hd
  split
  · rename_i n' r' e
    split
    · rename_i hr
      constructor
      · intro h; cases h; obtain ⟨k1, k2⟩ := (key n).mp e; exact ⟨⟨k1, hr⟩, k2⟩
      · rintro ⟨⟨k1, k2⟩, k3⟩
        have := (key n).mpr ⟨k1, k3⟩
        rw [e] at this; cases this; rfl
    · rename_i hr
      constructor
      · intro h; cases h
      · rintro ⟨⟨k1, k2⟩, k3⟩
        have := (key n).mpr ⟨k1, k3⟩
        rw [e] at this; cases this; exact absurd k2 hr
  · rename_i e
    constructor
    · intro h; cases h
    · rintro ⟨⟨k1, k2⟩, k3⟩
      have := (key n).mpr ⟨k1, k3⟩
      rw [e] at this; cases this

theorem numeric_end {w lo hi n : Nat} {a : Text} (ha : Fig a) :
    numeric w lo hi a = some (n, []) ↔ Digits 1 w a n ∧ lo ≤ n ∧ n ≤ hi := by
  simp only [numeric, fig_dropWhile' ha]
  have key := fun n' => number_end (w := w) (n := n') (a := a)
  split
  · rename_i n' r' e
    split
    · rename_i hr
      constructor
      · intro h; cases h; exact ⟨(key n).mp e, hr⟩
      · rintro ⟨k1, k2⟩
        have := (key n).mpr k1
        rw [e] at this; cases this; rfl
    · rename_i hr
      constructor
      · intro h; cases h
      · rintro ⟨k1, k2⟩
        have := (key n).mpr k1
        rw [e] at this; cases this; exact absurd k2 hr
  · rename_i e
    constructor
    · intro h; cases h
    · rintro ⟨k1, k2⟩
      have := (key n).mpr k1
      rw [e] at this; cases this

/-- A year without a sign. -/
theorem year_plain {s : Text} (hs : s.dropWhile isWs = s) (h : ∀ c r, s = c :: r → c ≠ '-' ∧ c ≠ '+') :
    signedYear s = (number 4 s).map fun p => ((p.1 : Int), p.2) := by
  simp only [signedYear, hs]
  split
  · rename_i r; exact absurd rfl (h _ _ rfl).1
  · rename_i r; exact absurd rfl (h _ _ rfl).2
  · cases number 4 s <;> rfl

theorem year_sep {y : Int} {a x r : Text} {c c' : Char} (ha : Fig a) (hne : a ≠ []) (hc' : c' = '-' ∨ c' = '/') (hc : c = '-' ∨ c = '/') :
    signedYear (a ++ c :: x) = some (y, c' :: r) ↔ (∃ n : Nat, y = n ∧ Digits 1 4 a n) ∧ c' = c ∧ r = x := by
  have hws : isWs c = false := by rcases hc with rfl | rfl <;> decide
  have hd : c.isDigit = false := by rcases hc with rfl | rfl <;> decide
  rw [year_plain (fig_dropWhile ha hws) (by
    intro c0 r0 e
    cases a with
    | nil => exact absurd rfl hne
    | cons b a => cases e; exact ⟨(ha _ (List.mem_cons_self ..)).2.1, (ha _ (List.mem_cons_self ..)).2.2.2.2⟩)]
  simp only [Option.map_eq_some_iff, Prod.mk.injEq, Prod.exists]
  constructor
  · rintro ⟨n, r', h1, rfl, rfl⟩
    obtain ⟨k1, k2⟩ := (number_sep ha hc' hd).mp h1
    exact ⟨⟨n, rfl, k1⟩, k2⟩
  · rintro ⟨⟨n, rfl, k1⟩, k2⟩
    exact ⟨n, _, (number_sep ha hc' hd).mpr ⟨k1, k2⟩, rfl, rfl⟩

theorem year_end {y : Int} {a : Text} (ha : Fig a) : signedYear a = some (y, []) ↔ ∃ n : Nat, y = n ∧ Digits 1 4 a n := by
  rw [year_plain (fig_dropWhile' ha) (by
    intro c0 r0 e
    subst e; exact ⟨(ha _ (List.mem_cons_self ..)).2.1, (ha _ (List.mem_cons_self ..)).2.2.2.2⟩)]
  simp only [Option.map_eq_some_iff, Prod.mk.injEq, Prod.exists]
  constructor
  · rintro ⟨n, r', h1, rfl, rfl⟩; exact ⟨n, rfl, number_end.mp h1⟩
  · rintro ⟨n, rfl, k1⟩; exact ⟨n, _, number_end.mpr k1, rfl, rfl⟩

theorem item_lit {c : Char} {f g : Fields} {s r : Text} : item (.lit c) f s = some (g, r) ↔ s = c :: r ∧ f = g := by
  simp only [item]
  split
  · split
    · rename_i h; subst h; simp [and_comm]
    · rename_i h; simp [h]
  · simp

/-- A format that begins with a number and a separator. -/
theorem items_step {i : Item} {is : List Item} {c : Char} {f g : Fields} {s : Text} :
    items (i :: .lit c :: is) f s = some g ↔ ∃ f' r, item i f s = some (f', c :: r) ∧ items is f' r = some g := by
  rw [items_cons]
  constructor
  · rintro ⟨f', r, h1, h2⟩
    obtain ⟨f2, r2, h3, h4⟩ := items_cons.mp h2
    obtain ⟨rfl, rfl⟩ := item_lit.mp h3
    exact ⟨f', r2, h1, h4⟩
  · rintro ⟨f', r, h1, h2⟩
    exact ⟨f', _, h1, items_cons.mpr ⟨f', r, item_lit.mpr ⟨rfl, rfl⟩, h2⟩⟩

theorem items_last {i : Item} {f g : Fields} {s : Text} : items [i] f s = some g ↔ item i f s = some (g, []) := by
  rw [items_cons]
  constructor
  · rintro ⟨f', r, h1, h2⟩; obtain ⟨rfl, rfl⟩ := items_nil.mp h2; exact h1
  · intro h; exact ⟨g, [], h, items_nil.mpr ⟨rfl, rfl⟩⟩

theorem item_year {f g : Fields} {s r : Text} : item .year f s = some (g, r) ↔ ∃ n, signedYear s = some (n, r) ∧ g = { f with year := some n } := by
  simp only [item, Option.map_eq_some_iff, Prod.mk.injEq, Prod.exists]
  constructor
  · rintro ⟨n, r, h1, rfl, rfl⟩; exact ⟨n, h1, rfl⟩
  · rintro ⟨n, h1, rfl⟩; exact ⟨n, _, h1, rfl, rfl⟩

theorem item_yearMod100 {f g : Fields} {s r : Text} : item .yearMod100 f s = some (g, r) ↔ ∃ n, numeric 2 0 99 s = some (n, r) ∧ g = { f with yearMod100 := some n } := by
  simp only [item, Option.map_eq_some_iff, Prod.mk.injEq, Prod.exists]
  constructor
  · rintro ⟨n, r, h1, rfl, rfl⟩; exact ⟨n, h1, rfl⟩
  · rintro ⟨n, h1, rfl⟩; exact ⟨n, _, h1, rfl, rfl⟩

theorem item_month {f g : Fields} {s r : Text} : item .month f s = some (g, r) ↔ ∃ n, numeric 2 1 12 s = some (n, r) ∧ g = { f with month := some n } := by
  simp only [item, Option.map_eq_some_iff, Prod.mk.injEq, Prod.exists]
  constructor
  · rintro ⟨n, r, h1, rfl, rfl⟩; exact ⟨n, h1, rfl⟩
  · rintro ⟨n, h1, rfl⟩; exact ⟨n, _, h1, rfl, rfl⟩

theorem item_day {f g : Fields} {s r : Text} : item .day f s = some (g, r) ↔ ∃ n, numeric 2 1 31 s = some (n, r) ∧ g = { f with day := some n } := by
  simp only [item, Option.map_eq_some_iff, Prod.mk.injEq, Prod.exists]
  constructor
  · rintro ⟨n, r, h1, rfl, rfl⟩; exact ⟨n, h1, rfl⟩
  · rintro ⟨n, h1, rfl⟩; exact ⟨n, _, h1, rfl, rfl⟩

section
variable {a b c : Text} {g : Fields} (ha : Fig a) (hb : Fig b) (hc : Fig c)
include ha hb hc

theorem iso_fields (ha0 : a ≠ []) : items fmtIso {} (a ++ '-' :: (b ++ '-' :: c)) = some g ↔
    ∃ y m d : Nat, g = { year := some (y : Int), month := some m, day := some d } ∧ Digits 1 4 a y ∧ (Digits 1 2 b m ∧ 1 ≤ m ∧ m ≤ 12) ∧ Digits 1 2 c d ∧ 1 ≤ d ∧ d ≤ 31 := by
  have hd : ('-' : Char) = '-' ∨ ('-' : Char) = '/' := .inl rfl
  simp only [fmtIso, items_step, items_last]
  constructor
  · rintro ⟨f1, r1, h1, f2, r2, h2, h3⟩
    obtain ⟨y, e1, rfl⟩ := item_year.mp h1
    obtain ⟨⟨y, rfl, k1⟩, -, rfl⟩ := (year_sep ha ha0 hd hd).mp e1
    obtain ⟨m, e2, rfl⟩ := item_month.mp h2
    obtain ⟨k2, -, rfl⟩ := (numeric_sep hb hd hd).mp e2
    obtain ⟨d, e3, rfl⟩ := item_day.mp h3
    exact ⟨y, m, d, rfl, k1, k2, (numeric_end hc).mp e3⟩
  · rintro ⟨y, m, d, rfl, k1, k2, k3⟩
    exact ⟨_, _, item_year.mpr ⟨_, (year_sep ha ha0 hd hd).mpr ⟨⟨y, rfl, k1⟩, rfl, rfl⟩, rfl⟩, _, _, item_month.mpr ⟨_, (numeric_sep hb hd hd).mpr ⟨k2, rfl, rfl⟩, rfl⟩,
      item_day.mpr ⟨_, (numeric_end hc).mpr k3, rfl⟩⟩

omit hb hc in
theorem isoShort_fields (h : items fmtIsoShort {} (a ++ '-' :: (b ++ '-' :: c)) = some g) : a.length ≤ 2 := by
  have hd : ('-' : Char) = '-' ∨ ('-' : Char) = '/' := .inl rfl
  simp only [fmtIsoShort, items_step, items_last] at h
  obtain ⟨f1, r1, h1, -⟩ := h
  obtain ⟨y, e1, rfl⟩ := item_yearMod100.mp h1
  obtain ⟨⟨k1, -⟩, -⟩ := (numeric_sep ha hd hd).mp e1
  exact k1.most

theorem us_fields : items fmtUs {} (a ++ '/' :: (b ++ '/' :: c)) = some g ↔
    ∃ y m d : Nat, g = { year := some (y : Int), month := some m, day := some d } ∧ (Digits 1 2 a m ∧ 1 ≤ m ∧ m ≤ 12) ∧ (Digits 1 2 b d ∧ 1 ≤ d ∧ d ≤ 31) ∧ Digits 1 4 c y := by
  have hd : ('/' : Char) = '-' ∨ ('/' : Char) = '/' := .inr rfl
  simp only [fmtUs, items_step, items_last]
  constructor
  · rintro ⟨f1, r1, h1, f2, r2, h2, h3⟩
    obtain ⟨m, e1, rfl⟩ := item_month.mp h1
    obtain ⟨k1, -, rfl⟩ := (numeric_sep ha hd hd).mp e1
    obtain ⟨d, e2, rfl⟩ := item_day.mp h2
    obtain ⟨k2, -, rfl⟩ := (numeric_sep hb hd hd).mp e2
    obtain ⟨y, e3, rfl⟩ := item_year.mp h3
    obtain ⟨y, rfl, k3⟩ := (year_end hc).mp e3
    exact ⟨y, m, d, rfl, k1, k2, k3⟩
  · rintro ⟨y, m, d, rfl, k1, k2, k3⟩
    exact ⟨_, _, item_month.mpr ⟨_, (numeric_sep ha hd hd).mpr ⟨k1, rfl, rfl⟩, rfl⟩, _, _, item_day.mpr ⟨_, (numeric_sep hb hd hd).mpr ⟨k2, rfl, rfl⟩, rfl⟩,
      item_year.mpr ⟨_, (year_end hc).mpr ⟨y, rfl, k3⟩, rfl⟩⟩

theorem usShort_fields : items fmtUsShort {} (a ++ '/' :: (b ++ '/' :: c)) = some g ↔
    ∃ y m d : Nat, g = { yearMod100 := some y, month := some m, day := some d } ∧ (Digits 1 2 a m ∧ 1 ≤ m ∧ m ≤ 12) ∧ (Digits 1 2 b d ∧ 1 ≤ d ∧ d ≤ 31) ∧
      Digits 1 2 c y ∧ 0 ≤ y ∧ y ≤ 99 := by
  have hd : ('/' : Char) = '-' ∨ ('/' : Char) = '/' := .inr rfl
  simp only [fmtUsShort, items_step, items_last]
  constructor
  · rintro ⟨f1, r1, h1, f2, r2, h2, h3⟩
    obtain ⟨m, e1, rfl⟩ := item_month.mp h1
    obtain ⟨k1, -, rfl⟩ := (numeric_sep ha hd hd).mp e1
    obtain ⟨d, e2, rfl⟩ := item_day.mp h2
    obtain ⟨k2, -, rfl⟩ := (numeric_sep hb hd hd).mp e2
    obtain ⟨y, e3, rfl⟩ := item_yearMod100.mp h3
    exact ⟨y, m, d, rfl, k1, k2, (numeric_end hc).mp e3⟩
  · rintro ⟨y, m, d, rfl, k1, k2, k3⟩
    exact ⟨_, _, item_month.mpr ⟨_, (numeric_sep ha hd hd).mpr ⟨k1, rfl, rfl⟩, rfl⟩, _, _, item_day.mpr ⟨_, (numeric_sep hb hd hd).mpr ⟨k2, rfl, rfl⟩, rfl⟩,
      item_yearMod100.mpr ⟨_, (numeric_end hc).mpr k3, rfl⟩⟩
end

theorem digits_lt {lo hi n : Nat} {d : Text} (h : Digits lo hi d n) : n < 10 ^ hi := by
  rw [h.value]
  have : ∀ (l : Text) (k : Nat), (∀ c ∈ l, c.isDigit = true) → Nat.ofDigitChars 10 l k < (k + 1) * 10 ^ l.length := by
    intro l
    induction l with
    | nil => intro k _; simp
    | cons c l ih =>
      intro k hl
      rw [Nat.ofDigitChars_cons]
      have hc := hl c (List.mem_cons_self ..)
      have h10 : c.toNat - '0'.toNat ≤ 9 := by
        simp only [Char.isDigit, Bool.and_eq_true, decide_eq_true_eq] at hc
        have : c.toNat ≤ 57 := hc.2
        have : ('0' : Char).toNat = 48 := rfl
        omega
      refine (ih _ fun c h => hl c (List.mem_cons_of_mem _ h)).trans_le ?_
      rw [List.length_cons, Nat.pow_succ, Nat.mul_comm (10 ^ l.length) 10, ← Nat.mul_assoc]
      exact Nat.mul_le_mul_right _ (by omega)
  refine (this d 0 h.digits).trans_le ?_
  rw [Nat.zero_add, Nat.one_mul]
  exact Nat.pow_le_pow_right (by decide) h.most

theorem length_month_le (y : Int) (m : Nat) : monthLength y m ≤ 31 := by
  simp only [monthLength]; split
  · split <;> decide
  · split <;> decide

theorem fromYmd_some {y : Int} {m d : Nat} {x : Day} (hy : -262143 ≤ y ∧ y ≤ 262142) : fromYmd y m d = some x ↔ x = ⟨y, m, d⟩ ∧ x.Real := by
  simp only [fromYmd]
  split
  · rename_i h
    constructor
    · intro e; cases e; exact ⟨rfl, real_iff.mpr ⟨⟨h.2.2.1, h.2.2.2.1⟩, h.2.2.2.2⟩⟩
    · rintro ⟨rfl, -⟩; rfl
  · rename_i h
    constructor
    · intro e; cases e
    · rintro ⟨rfl, hr⟩; obtain ⟨h1, h2⟩ := real_iff.mp hr; exact absurd ⟨hy.1, hy.2, h1.1, h1.2, h2⟩ h

/-- The century does not matter for the days that there are. -/
theorem leap_century {y : Nat} (h : y ≤ 99) : leap (if y < 70 then 2000 + y else 1900 + y) = leap y := by
  simp only [leap]
  split <;> (rw [Bool.eq_iff_iff]; simp only [Bool.and_eq_true, Bool.or_eq_true, decide_eq_true_eq]; omega)

theorem real_century {y m d : Nat} (h : y ≤ 99) : Day.Real ⟨if y < 70 then 2000 + y else 1900 + y, m, d⟩ ↔ Day.Real ⟨y, m, d⟩ := by
  have : monthLength (if y < 70 then 2000 + y else 1900 + y) m = monthLength y m := by simp only [monthLength, leap_century h]
  rw [real_iff, real_iff]
  constructor
  · rintro ⟨h1, h2⟩; exact ⟨h1, by simpa only [this] using h2⟩
  · rintro ⟨h1, h2⟩; exact ⟨h1, by simpa only [this] using h2⟩

theorem findSome_none {α : Type} {l : List (List Item)} {p : List Item → Option α} (h : ∀ f ∈ l, p f = none) : l.findSome? p = none :=
  List.findSome?_eq_none_iff.mpr h

/-- The formats with a time do not match texts without a colon. -/
theorem no_time {t : Text} (h : ':' ∉ t) : tokenInto t = dateFormats.findSome? (parseDate t) := by
  have key : ∀ fmt : List Item, .lit ':' ∈ fmt → items fmt {} t = none := by
    intro fmt hf
    cases e : items fmt {} t with
    | none => rfl
    | some g => exact absurd (items_lit hf e) h
  have h1 : dateTimeFormats.findSome? (parseDateTime t) = none := findSome_none fun f hf => by
    simp only [parseDateTime, key f (by
      simp only [dateTimeFormats, List.mem_cons, List.not_mem_nil, or_false] at hf
      rcases hf with rfl | rfl | rfl | rfl <;> decide), Option.bind_none]
  have h2 : timeFormats.findSome? (parseTime t) = none := findSome_none fun f hf => by
    simp only [parseTime, key f (by
      simp only [timeFormats, List.mem_cons, List.not_mem_nil, or_false] at hf
      rcases hf with rfl | rfl | rfl <;> decide), Option.bind_none]
  simp only [tokenInto, h1, h2, Option.none_or, Option.or_none]

theorem parseDate_none {t : Text} {fmt : List Item} {c : Char} (hc : .lit c ∈ fmt) (h : c ∉ t) : parseDate t fmt = none := by
  cases e : items fmt {} t with
  | none => simp only [parseDate, e, Option.bind_none]
  | some g => exact absurd (items_lit hc e) h

theorem fig_notMem {a b c : Text} {s x : Char} (ha : Fig a) (hb : Fig b) (hc : Fig c) (hx : x = '-' ∨ x = '/' ∨ x = ':') (hs : x ≠ s) :
    x ∉ a ++ s :: (b ++ s :: c) := by
  have key : ∀ a, Fig a → x ∉ a := by
    intro a ha h
    obtain ⟨-, h1, h2, h3, -⟩ := ha x h
    rcases hx with rfl | rfl | rfl
    · exact h1 rfl
    · exact h2 rfl
    · exact h3 rfl
  simp only [List.mem_append, List.mem_cons, not_or]
  exact ⟨key a ha, hs, key b hb, hs, key c hc⟩

theorem digits_sep {a : Text} (h : ∀ c ∈ a, c.isDigit = true) : ('/' : Char) ∉ a := fun hm => by have := h _ hm; cases this

theorem split_us {a b c a' b' c' : Text} (ha : Fig a) (hb : Fig b) (ha' : ∀ x ∈ a', x.isDigit = true) (hb' : ∀ x ∈ b', x.isDigit = true)
    (h : a ++ '/' :: (b ++ '/' :: c) = a' ++ '/' :: (b' ++ '/' :: c')) : a = a' ∧ b = b' ∧ c = c' := by
  have key : ∀ {p q x y : Text}, Fig p → (∀ x ∈ q, x.isDigit = true) → p ++ '/' :: x = q ++ '/' :: y → p = q ∧ x = y := by
    intro p q x y hp hq h
    have h1 : ('/' : Char) ∉ p := fun hm => (hp _ hm).2.2.1 rfl
    have h2 := digits_sep hq
    rcases List.append_eq_append_iff.mp h with ⟨as, e1, e2⟩ | ⟨as, e1, e2⟩
    · cases as with
      | nil => simp only [List.append_nil] at e1; subst e1; cases e2; exact ⟨rfl, rfl⟩
      | cons z as => rw [List.cons_append] at e2; cases e2; exact absurd (by rw [e1]; simp) h2
    · cases as with
      | nil => simp only [List.append_nil] at e1; subst e1; cases e2; exact ⟨rfl, rfl⟩
      | cons z as => rw [List.cons_append] at e2; cases e2; exact absurd (by rw [e1]; simp) h1
  obtain ⟨rfl, h2⟩ := key ha ha' h
  obtain ⟨rfl, rfl⟩ := key hb hb' h2
  exact ⟨rfl, rfl, rfl⟩

/-- C83.  A date in an option is read as the day that is written, if the calendar has it, and rejected otherwise; it is never a time. -/
theorem C83_read {u : Uni} {t : Text} (h : DateToken u t) (v : DateTime) : tokenInto t = some v ↔ ∃ d, v = .date d ∧ Writes t d ∧ d.Real := by
  cases h with
  | @iso a b c la lb lc hall =>
    have fa : Fig a := fig_of fun x hx => hall x (by simp [hx])
    have fb : Fig b := fig_of fun x hx => hall x (by simp [hx])
    have fc : Fig c := fig_of fun x hx => hall x (by simp [hx])
    have ha0 : a ≠ [] := by rintro rfl; cases la
    rw [no_time (fig_notMem fa fb fc (by simp) (by decide))]
    have h1 : parseDate (a ++ '-' :: (b ++ '-' :: c)) fmtIsoShort = none := by
      cases e : items fmtIsoShort {} (a ++ '-' :: (b ++ '-' :: c)) with
      | none => simp only [parseDate, e, Option.bind_none]
      | some g => have := isoShort_fields fa e; omega
    have h2 : parseDate (a ++ '-' :: (b ++ '-' :: c)) fmtUsShort = none :=
      parseDate_none (c := '/') (by decide) (fig_notMem fa fb fc (by simp) (by decide))
    have h3 : parseDate (a ++ '-' :: (b ++ '-' :: c)) fmtUs = none :=
      parseDate_none (c := '/') (by decide) (fig_notMem fa fb fc (by simp) (by decide))
    have h4 : dateFormats.findSome? (parseDate (a ++ '-' :: (b ++ '-' :: c))) = parseDate (a ++ '-' :: (b ++ '-' :: c)) fmtIso := by
      simp only [dateFormats, List.findSome?_cons, List.findSome?_nil, h1, h2, h3]
      cases parseDate (a ++ '-' :: (b ++ '-' :: c)) fmtIso <;> rfl
    rw [h4]
    simp only [parseDate, Option.bind_eq_some_iff, Option.map_eq_some_iff]
    constructor
    · rintro ⟨g, hg, d, hd, rfl⟩
      obtain ⟨y, m, d', rfl, k1, k2, k3⟩ := (iso_fields fa fb fc ha0).mp hg
      have := digits_lt k1
      obtain ⟨rfl, hr⟩ := (fromYmd_some (by omega)).mp hd
      exact ⟨_, rfl, .iso ⟨by omega, k1.most, k1.digits, k1.value⟩ ⟨by omega, k2.1.most, k2.1.digits, k2.1.value⟩ ⟨by omega, k3.1.most, k3.1.digits, k3.1.value⟩, hr⟩
    · rintro ⟨d, rfl, hw, hr⟩
      generalize ht : a ++ '-' :: (b ++ '-' :: c) = t at hw
      cases hw with
      | @iso a' b' c' y m d ka kb kc =>
        have e1 : a = a' ∧ _ := List.append_inj ht (by rw [la]; exact Nat.le_antisymm ka.least ka.most)
        obtain ⟨rfl, e2⟩ := e1
        simp only [List.cons.injEq, true_and] at e2
        obtain ⟨rfl, e3⟩ := List.append_inj e2 (by rw [lb]; exact Nat.le_antisymm kb.least kb.most)
        simp only [List.cons.injEq, true_and] at e3
        subst e3
        have hlt := digits_lt ka
        have hm := hr.month
        have hd := hr.day
        have h31 := length_month_le (y : Int) m
        simp only at hm hd
        refine ⟨{ year := some (y : Int), month := some m, day := some d }, ht ▸ (iso_fields fa fb fc ha0).mpr ⟨y, m, d, rfl, ⟨by omega, ka.most, ka.digits, ka.value⟩, ⟨⟨by omega, kb.most, kb.digits, kb.value⟩, hm⟩,
          ⟨by omega, kc.most, kc.digits, kc.value⟩, by omega, by omega⟩, _, (fromYmd_some (by omega)).mpr ⟨rfl, hr⟩, rfl⟩
      | us => exact absurd (ht ▸ (by simp : ('/' : Char) ∈ _ ++ '/' :: _)) (fig_notMem fa fb fc (by simp) (by decide))
      | usShort => exact absurd (ht ▸ (by simp : ('/' : Char) ∈ _ ++ '/' :: _)) (fig_notMem fa fb fc (by simp) (by decide))
  | @us a b c la lb lc hall =>
    have fa : Fig a := fig_of fun x hx => hall x (by simp [hx])
    have fb : Fig b := fig_of fun x hx => hall x (by simp [hx])
    have fc : Fig c := fig_of fun x hx => hall x (by simp [hx])
    rw [no_time (fig_notMem fa fb fc (by simp) (by decide))]
    have h1 : parseDate (a ++ '/' :: (b ++ '/' :: c)) fmtIsoShort = none :=
      parseDate_none (c := '-') (by decide) (fig_notMem fa fb fc (by simp) (by decide))
    have h2 : parseDate (a ++ '/' :: (b ++ '/' :: c)) fmtIso = none :=
      parseDate_none (c := '-') (by decide) (fig_notMem fa fb fc (by simp) (by decide))
    have h4 : dateFormats.findSome? (parseDate (a ++ '/' :: (b ++ '/' :: c))) =
        (parseDate (a ++ '/' :: (b ++ '/' :: c)) fmtUsShort).or (parseDate (a ++ '/' :: (b ++ '/' :: c)) fmtUs) := by
      simp only [dateFormats, List.findSome?_cons, List.findSome?_nil, h1, h2]
      cases parseDate (a ++ '/' :: (b ++ '/' :: c)) fmtUsShort <;> cases parseDate (a ++ '/' :: (b ++ '/' :: c)) fmtUs <;> rfl
    rw [h4]
    have hshort : ∀ v, parseDate (a ++ '/' :: (b ++ '/' :: c)) fmtUsShort = some v ↔ ∃ y m d : Nat, v = .date ⟨if y < 70 then 2000 + y else 1900 + y, m, d⟩ ∧
        Digits 1 2 a m ∧ Digits 1 2 b d ∧ Digits 2 2 c y ∧ Day.Real ⟨if y < 70 then 2000 + y else 1900 + y, m, d⟩ := by
      intro v
      simp only [parseDate, Option.bind_eq_some_iff, Option.map_eq_some_iff]
      constructor
      · rintro ⟨g, hg, x, hx, rfl⟩
        obtain ⟨y, m, d, rfl, k1, k2, k3⟩ := (usShort_fields fa fb fc).mp hg
        obtain ⟨rfl, hr⟩ := (fromYmd_some (by split <;> omega)).mp hx
        exact ⟨y, m, d, rfl, k1.1, k2.1, ⟨lc.1, k3.1.most, k3.1.digits, k3.1.value⟩, hr⟩
      · rintro ⟨y, m, d, rfl, k1, k2, k3, hr⟩
        have hlt := digits_lt k3
        have hm := hr.month
        have hd := hr.day
        have h31 := length_month_le (if y < 70 then 2000 + y else 1900 + y) m
        simp only at hm hd
        exact ⟨_, (usShort_fields fa fb fc).mpr ⟨y, m, d, rfl, ⟨k1, hm⟩, ⟨k2, by omega, by omega⟩, ⟨by omega, k3.most, k3.digits, k3.value⟩, by omega, by omega⟩, _,
          (fromYmd_some (by split <;> omega)).mpr ⟨rfl, hr⟩, rfl⟩
    have hlong : ∀ v, parseDate (a ++ '/' :: (b ++ '/' :: c)) fmtUs = some v ↔ ∃ y m d : Nat, v = .date ⟨y, m, d⟩ ∧
        Digits 1 2 a m ∧ Digits 1 2 b d ∧ Digits 2 4 c y ∧ Day.Real ⟨y, m, d⟩ := by
      intro v
      simp only [parseDate, Option.bind_eq_some_iff, Option.map_eq_some_iff]
      constructor
      · rintro ⟨g, hg, x, hx, rfl⟩
        obtain ⟨y, m, d, rfl, k1, k2, k3⟩ := (us_fields fa fb fc).mp hg
        have := digits_lt k3
        obtain ⟨rfl, hr⟩ := (fromYmd_some (by omega)).mp hx
        exact ⟨y, m, d, rfl, k1.1, k2.1, ⟨lc.1, k3.most, k3.digits, k3.value⟩, hr⟩
      · rintro ⟨y, m, d, rfl, k1, k2, k3, hr⟩
        have hlt := digits_lt k3
        have hm := hr.month
        have hd := hr.day
        have h31 := length_month_le (y : Int) m
        simp only at hm hd
        exact ⟨_, (us_fields fa fb fc).mpr ⟨y, m, d, rfl, ⟨k1, hm⟩, ⟨k2, by omega, by omega⟩, ⟨by omega, k3.most, k3.digits, k3.value⟩⟩, _,
          (fromYmd_some (by omega)).mpr ⟨rfl, hr⟩, rfl⟩
    by_cases hl : c.length = 2
    · -- two digits: the first format decides
      have hnone : parseDate (a ++ '/' :: (b ++ '/' :: c)) fmtUsShort = none → parseDate (a ++ '/' :: (b ++ '/' :: c)) fmtUs = none := by
        intro hn
        cases e : parseDate (a ++ '/' :: (b ++ '/' :: c)) fmtUs with
        | none => rfl
        | some v =>
          obtain ⟨y, m, d, rfl, k1, k2, k3, hr⟩ := (hlong v).mp e
          have k3' : Digits 2 2 c y := ⟨k3.least, by omega, k3.digits, k3.value⟩
          have hlt := digits_lt k3'
          have := (hshort _).mpr ⟨y, m, d, rfl, k1, k2, k3', (real_century (by omega)).mpr hr⟩
          rw [hn] at this; cases this
      have hor : (parseDate (a ++ '/' :: (b ++ '/' :: c)) fmtUsShort).or (parseDate (a ++ '/' :: (b ++ '/' :: c)) fmtUs) =
          parseDate (a ++ '/' :: (b ++ '/' :: c)) fmtUsShort := by
        cases e : parseDate (a ++ '/' :: (b ++ '/' :: c)) fmtUsShort with
        | none => rw [hnone e]; rfl
        | some v => rfl
      rw [hor, hshort]
      constructor
      · rintro ⟨y, m, d, rfl, k1, k2, k3, hr⟩; exact ⟨_, rfl, .usShort k1 k2 k3, hr⟩
      · rintro ⟨x, rfl, hw, hr⟩
        generalize ht : a ++ '/' :: (b ++ '/' :: c) = t at hw
        cases hw with
        | iso => exact absurd (ht ▸ (by simp : ('-' : Char) ∈ _ ++ '-' :: _)) (fig_notMem fa fb fc (by simp) (by decide))
        | @us a' b' c' y m d ka kb kc =>
          obtain ⟨rfl, rfl, rfl⟩ := split_us fa fb ka.digits kb.digits ht
          exact absurd kc.least (by omega)
        | @usShort a' b' c' y m d ka kb kc =>
          obtain ⟨rfl, rfl, rfl⟩ := split_us fa fb ka.digits kb.digits ht
          exact ⟨y, m, d, rfl, ka, kb, kc, hr⟩
    · have hnone : parseDate (a ++ '/' :: (b ++ '/' :: c)) fmtUsShort = none := by
        cases e : parseDate (a ++ '/' :: (b ++ '/' :: c)) fmtUsShort with
        | none => rfl
        | some v =>
          obtain ⟨y, m, d, rfl, k1, k2, k3, hr⟩ := (hshort v).mp e
          exact absurd (Nat.le_antisymm k3.most k3.least) hl
      rw [hnone, Option.none_or, hlong]
      constructor
      · rintro ⟨y, m, d, rfl, k1, k2, k3, hr⟩; exact ⟨_, rfl, .us k1 k2 ⟨by omega, k3.most, k3.digits, k3.value⟩, hr⟩
      · rintro ⟨x, rfl, hw, hr⟩
        generalize ht : a ++ '/' :: (b ++ '/' :: c) = t at hw
        cases hw with
        | iso => exact absurd (ht ▸ (by simp : ('-' : Char) ∈ _ ++ '-' :: _)) (fig_notMem fa fb fc (by simp) (by decide))
        | @us a' b' c' y m d ka kb kc =>
          obtain ⟨rfl, rfl, rfl⟩ := split_us fa fb ka.digits kb.digits ht
          exact ⟨y, m, d, rfl, ka, kb, ⟨lc.1, kc.most, kc.digits, kc.value⟩, hr⟩
        | @usShort a' b' c' y m d ka kb kc =>
          obtain ⟨rfl, rfl, rfl⟩ := split_us fa fb ka.digits kb.digits ht
          exact absurd (Nat.le_antisymm kc.most kc.least) hl
end Verif.Date
