import Verif.Date.Read
/-
C83: dates are written as they are read, and counted as the calendar does.
-/
namespace Verif.Date
open Verif.Parser (Uni)

/-! ## Specification -/

/-- The day after: in the same month, in the same year, or on New Year's Day. -/
inductive Next : Day → Day → Prop
  | day {y : Int} {m d n : Nat} (h : HasDays y m n) (hd : d < n) : Next ⟨y, m, d⟩ ⟨y, m, d + 1⟩
  | month {y : Int} {m d : Nat} (h : HasDays y m d) (hm : m < 12) : Next ⟨y, m, d⟩ ⟨y, m + 1, 1⟩
  | year {y : Int} : Next ⟨y, 12, 31⟩ ⟨y + 1, 1, 1⟩

/-- The day is before the other. -/
def Day.Before (d e : Day) : Prop :=
  d.year < e.year ∨ d.year = e.year ∧ (d.month < e.month ∨ d.month = e.month ∧ d.day < e.day)

/-! ## Proofs -/

theorem ofDigitChars_zeros (k : Nat) (l : Text) : Nat.ofDigitChars 10 (List.replicate k '0' ++ l) 0 = Nat.ofDigitChars 10 l 0 := by
  induction k with
  | zero => rfl
  | succ k ih => rw [List.replicate_succ, List.cons_append, Nat.ofDigitChars_cons]; exact ih

theorem padded_digits {w n : Nat} (hw : 0 < w) (h : n < 10 ^ w) : Digits w w (padded w n) n := by
  have hl : (Nat.toDigits 10 n).length ≤ w := (Nat.length_toDigits_le_iff (by decide) hw).mpr h
  have : (padded w n).length = w := by simp only [padded, List.length_append, List.length_replicate]; omega
  refine ⟨this.ge, this.le, ?_, ?_⟩
  · intro c hc
    rcases List.mem_append.mp hc with hc | hc
    · rw [(List.mem_replicate.mp hc).2]; rfl
    · exact Nat.isDigit_of_mem_toDigits (by decide) (by decide) hc
  · rw [padded, ofDigitChars_zeros, Nat.ofDigitChars_ten_toDigits]

/-- A day is written as the text that writes it. -/
theorem writes_dayText {d : Day} (h : d.Real) (hy : 0 ≤ d.year ∧ d.year ≤ 9999) : Writes (dayText d) d := by
  obtain ⟨y, m, d⟩ := d
  obtain ⟨y, rfl⟩ := Int.eq_ofNat_of_zero_le hy.1
  have hm := h.month
  have hd := h.day
  have := length_month_le (y : Int) m
  simp only at hm hd hy
  rw [dayText, if_pos hy]
  exact .iso (padded_digits (by decide) (by simp only [Int.toNat_natCast]; omega)) (padded_digits (by decide) (by show m < 10 ^ 2; omega)) (padded_digits (by decide) (by show d < 10 ^ 2; omega))

theorem token_of_writes {u : Uni} {t : Text} {d : Day} (h : Writes t d) : DateToken u t := by
  have hD : ∀ x : Char, x.isDigit = true → u.isD x = true := by
    intro x hx
    have h128 : x.toNat < 128 := by
      simp only [Char.isDigit, Bool.and_eq_true, decide_eq_true_eq] at hx
      have : x.toNat ≤ 57 := hx.2
      omega
    rw [Uni.isD, if_pos h128, hx]
  have hall : ∀ {a b c : Text}, (∀ x ∈ a, x.isDigit = true) → (∀ x ∈ b, x.isDigit = true) → (∀ x ∈ c, x.isDigit = true) → ∀ x ∈ a ++ b ++ c, u.isD x = true := by
    intro a b c ha hb hc x hx
    rcases List.mem_append.mp hx with hx | hx
    · rcases List.mem_append.mp hx with hx | hx
      · exact hD x (ha x hx)
      · exact hD x (hb x hx)
    · exact hD x (hc x hx)
  cases h with
  | iso ha hb hc => exact .iso (Nat.le_antisymm ha.most ha.least) (Nat.le_antisymm hb.most hb.least) (Nat.le_antisymm hc.most hc.least) (hall ha.digits hb.digits hc.digits)
  | us ha hb hc => exact .us ⟨ha.least, ha.most⟩ ⟨hb.least, hb.most⟩ ⟨by have := hc.least; omega, hc.most⟩ (hall ha.digits hb.digits hc.digits)
  | usShort ha hb hc => exact .us ⟨ha.least, ha.most⟩ ⟨hb.least, hb.most⟩ ⟨hc.least, by have := hc.most; omega⟩ (hall ha.digits hb.digits hc.digits)

/-- The years of dates in options. -/
theorem writes_year {t : Text} {d : Day} (h : Writes t d) : 0 ≤ d.year ∧ d.year ≤ 9999 := by
  cases h with
  | iso ha hb hc => have := digits_lt ha; simp only; omega
  | us ha hb hc => have := digits_lt hc; simp only; omega
  | usShort ha hb hc => have := digits_lt hc; simp only; split <;> omega

theorem uni_exists : Nonempty Uni := ⟨⟨fun _ => false, fun _ => false, (fun _ h => by cases h), (fun _ h => by cases h)⟩⟩

/-- C83.  A date is written so that reading it gives the same day. -/
theorem C83_written {t : Text} {d : Day} (h : Writes t d) (hr : d.Real) :
    tokenInto t = some (.date d) ∧ tokenInto (dayText d) = some (.date d) := by
  obtain ⟨u⟩ := uni_exists
  have h2 := writes_dayText hr (writes_year h)
  exact ⟨(C83_read (token_of_writes (u := u) h) _).mpr ⟨d, rfl, h, hr⟩, (C83_read (token_of_writes (u := u) h2) _).mpr ⟨d, rfl, h2, hr⟩⟩

/-- The first day of the year, less one. -/
def yearStart (y : Int) : Int := 365 * (y - 1) + (y - 1) / 4 - (y - 1) / 100 + (y - 1) / 400

theorem yearStart_succ (y : Int) : yearStart (y + 1) = yearStart y + (if leap y then 366 else 365) := by
  by_cases h : leap y = true
  · rw [if_pos h]
    simp only [leap, Bool.and_eq_true, Bool.or_eq_true, decide_eq_true_eq] at h
    simp only [yearStart]; omega
  · rw [if_neg h]
    simp only [leap, Bool.and_eq_true, Bool.or_eq_true, decide_eq_true_eq] at h
    simp only [yearStart]; omega

theorem days_before_year (y : Int) : daysBefore y 12 + 31 = if leap y then 366 else 365 := by
  simp only [daysBefore, monthLength]
  cases leap y <;> decide

theorem monthLength_dec {y : Int} : monthLength y 12 = 31 := by simp [monthLength]

theorem daysBefore_succ {y : Int} {m : Nat} (h : 1 ≤ m) : daysBefore y (m + 1) = daysBefore y m + monthLength y m := by
  obtain ⟨k, rfl⟩ := Nat.exists_eq_add_of_le' h
  rfl

theorem daysBefore_le {y : Int} {m n : Nat} (h1 : 1 ≤ m) (h : m < n) : daysBefore y m + monthLength y m ≤ daysBefore y n := by
  induction n with
  | zero => omega
  | succ n ih =>
    rcases Nat.lt_succ_iff_lt_or_eq.mp h with h | rfl
    · rw [daysBefore_succ (by omega)]; have := ih h; omega
    · rw [daysBefore_succ h1]

theorem dayNumber_eq (d : Day) : dayNumber d = yearStart d.year + daysBefore d.year d.month + d.day := rfl

/-- The day is in its year. -/
theorem in_year {d : Day} (h : d.Real) : yearStart d.year < dayNumber d ∧ dayNumber d ≤ yearStart (d.year + 1) := by
  have h1 := h.month
  have h2 := h.day
  have h3 : daysBefore d.year d.month + monthLength d.year d.month ≤ daysBefore d.year 12 + 31 := by
    by_cases e : d.month = 12
    · rw [e, monthLength_dec]
    · have := daysBefore_le (y := d.year) h1.1 (show d.month < 12 by omega); omega
  have h4 := days_before_year d.year
  have h5 := yearStart_succ d.year
  rw [dayNumber_eq]
  constructor
  · omega
  · rw [h5]
    split at h4 <;> (rename_i hl; simp only [hl, if_true, Bool.false_eq_true, if_false] at *; omega)

theorem yearStart_mono {x y : Int} (h : x ≤ y) : yearStart x ≤ yearStart y := by
  simp only [yearStart]; omega

/-- C83.  Every day has a next one.  The number of days that Excel is given for a date is 0 for the first of January 1900, and one more for the day after. -/
theorem C83_days : DateTime.distance (.date ⟨1900, 1, 1⟩) = some 0 ∧
    ∀ d : Day, d.Real → ∃ e, Next d e ∧ e.Real ∧ ∃ n, DateTime.distance (.date d) = some n ∧ DateTime.distance (.date e) = some (n + 1) := by
  refine ⟨by decide, fun d hr => ?_⟩
  have h1 := hr.month
  have h2 := hr.day
  have hm : HasDays d.year d.month (monthLength d.year d.month) := hasDays_iff.mpr ⟨h1, rfl⟩
  have key : ∃ e, Next d e ∧ e.Real ∧ dayNumber e = dayNumber d + 1 := by
    obtain ⟨y, m, d⟩ := d
    by_cases h : d < monthLength y m
    · refine ⟨_, .day hm h, real_iff.mpr ⟨h1, ⟨by simp, h⟩⟩, ?_⟩
      simp only [dayNumber_eq]; omega
    · have e : d = monthLength y m := by simp only at h2; omega
      by_cases h' : m < 12
      · refine ⟨_, .month (by rw [e]; exact hm) h', real_iff.mpr ⟨⟨by simp, by simp only; omega⟩, by simp, ?_⟩, ?_⟩
        · simp only [monthLength]; split
          · split <;> decide
          · split <;> decide
        · simp only [dayNumber_eq, daysBefore_succ h1.1]; omega
      · obtain rfl : m = 12 := by simp only at h1; omega
        rw [monthLength_dec] at e
        subst e
        refine ⟨_, .year, real_iff.mpr ⟨by simp, by simp [monthLength]⟩, ?_⟩
        have h4 := days_before_year y
        have h5 := yearStart_succ y
        simp only [dayNumber_eq]
        have : daysBefore (y + 1) 1 = 0 := rfl
        rw [h5, this]
        split at h4 <;> (rename_i hl; simp only [hl, if_true, Bool.false_eq_true, if_false] at *; omega)
  obtain ⟨e, k1, k2, k3⟩ := key
  refine ⟨e, k1, k2, _, rfl, ?_⟩
  simp only [DateTime.distance, k3, Option.some.injEq]; omega

theorem before_lt {d e : Day} (hd : d.Real) (he : e.Real) (h : d.Before e) : dayNumber d < dayNumber e := by
  obtain ⟨d1, d2⟩ := in_year hd
  obtain ⟨e1, e2⟩ := in_year he
  rcases h with h | ⟨hy, h | ⟨hm, h⟩⟩
  · have := yearStart_mono (show d.year + 1 ≤ e.year by omega); omega
  · have := daysBefore_le (y := d.year) hd.month.1 h
    have := hd.day
    have := he.day
    simp only [dayNumber_eq, ← hy]; omega
  · simp only [dayNumber_eq, ← hy, ← hm]; omega

/-- C83.  The numbers are in the order of the days. -/
theorem C83_order {d e : Day} (hd : d.Real) (he : e.Real) {m n : Int} (h1 : DateTime.distance (.date d) = some m) (h2 : DateTime.distance (.date e) = some n) :
    d.Before e ↔ m < n := by
  simp only [DateTime.distance, Option.some.injEq] at h1 h2
  constructor
  · intro h; have := before_lt hd he h; omega
  · intro h
    have key : ¬ e.Before d ∧ d ≠ e := by
      constructor
      · intro h'; have := before_lt he hd h'; omega
      · rintro rfl; omega
    obtain ⟨k1, k2⟩ := key
    simp only [Day.Before] at *
    by_contra hc
    apply k2
    obtain ⟨y, m, d⟩ := d
    obtain ⟨y', m', d'⟩ := e
    simp only [Day.mk.injEq] at *
    omega

end Verif.Date
