import Verif.Sheet.Refs
/-
C53: what a reference means.  The specification is the A1 notation as spreadsheets read it, written down without the functions that print references.
-/
namespace Verif.Sheet
open Verif.Ast Verif.Cell

/-! ## Specification -/

/-- The number of a column from its letters: A is 1, Z is 26, AA is 27. -/
def columnNumber (letters : Text) : Nat := letters.foldl (fun n c => 26 * n + (c.toNat - 64)) 0

/-- Decimal notation. -/
def decimal (digits : Text) : Nat := digits.foldl (fun n c => 10 * n + (c.toNat - 48)) 0

def Letters (t : Text) : Prop := t ≠ [] ∧ ∀ c ∈ t, 65 ≤ c.toNat ∧ c.toNat ≤ 90

def Digits (t : Text) : Prop := t ≠ [] ∧ ∀ c ∈ t, 48 ≤ c.toNat ∧ c.toNat ≤ 57

/-- The cell in column `x` and row `y` (counted from 0) is one of those that the reference `t` means. -/
inductive Covers : Text → Nat → Nat → Prop
  /-- `B7` -/
  | cell {l d : Text} {x y : Nat} : Letters l → Digits d → columnNumber l = x + 1 → decimal d = y + 1 → Covers (l ++ d) x y
  /-- `2:5`, whole rows -/
  | rows {d e : Text} {x y : Nat} : Digits d → Digits e → decimal d ≤ y + 1 → y + 1 ≤ decimal e → Covers (d ++ ':' :: e) x y
  /-- `B2:D5`, a rectangle -/
  | block {l m d e : Text} {x y : Nat} : Letters l → Letters m → Digits d → Digits e → columnNumber l ≤ x + 1 → x + 1 ≤ columnNumber m →
      decimal d ≤ y + 1 → y + 1 ≤ decimal e → Covers ((l ++ d) ++ ':' :: (m ++ e)) x y

/-! ## Lemmas -/

theorem digits_isDigit {t : Text} (h : Digits t) : ∀ c ∈ t, c.isDigit = true := fun c hc => by
  have := h.2 c hc
  simp only [Char.isDigit, Bool.and_eq_true, decide_eq_true_eq]
  exact ⟨this.1, this.2⟩

theorem letters_not {t : Text} (h : Letters t) : ∀ c ∈ t, c.isDigit = false := fun c hc => by
  have := h.2 c hc
  rw [Bool.eq_false_iff]
  intro hd
  simp only [Char.isDigit, Bool.and_eq_true, decide_eq_true_eq] at hd
  have h2 : c.toNat ≤ 57 := hd.2
  omega

theorem digits_of {t : Text} (h0 : t ≠ []) (h : ∀ c ∈ t, c.isDigit = true) : Digits t := ⟨h0, fun c hc => by
  have := h c hc
  simp only [Char.isDigit, Bool.and_eq_true, decide_eq_true_eq] at this
  exact ⟨this.1, this.2⟩⟩

theorem digits_natText (n : Nat) : Digits (natText n) := digits_of (Parser.natText_digits n).1 (Parser.natText_digits n).2

theorem decimal_natText (n : Nat) : decimal (natText n) = n := by
  have h2 : Nat.ofDigitChars 10 (natText n) 0 = n := Nat.ofDigitChars_ten_toDigits
  exact h2

theorem letter_toNat : ∀ n, n < 26 → (Char.ofNat (65 + n)).toNat = 65 + n := by decide

theorem letters_colText (n : Nat) : Letters (colText n) := by
  refine ⟨colText_ne n, ?_⟩
  induction n using Nat.strongRecOn with
  | _ n ih =>
    rw [colText]
    split
    · intro c hc; rw [List.mem_singleton.mp hc, letter_toNat _ ‹_›]; omega
    · intro c hc
      rcases List.mem_append.mp hc with hc | hc
      · exact ih _ (by omega) c hc
      · rw [List.mem_singleton.mp hc, letter_toNat _ (Nat.mod_lt _ (by decide))]
        have := Nat.mod_lt n (show 26 > 0 by decide)
        omega

theorem columnNumber_colText (n : Nat) : columnNumber (colText n) = n + 1 := by
  induction n using Nat.strongRecOn with
  | _ n ih =>
    rw [colText]
    split
    · rw [columnNumber, List.foldl_cons, List.foldl_nil, letter_toNat _ ‹_›]; omega
    · have := ih (n / 26 - 1) (by omega)
      rw [columnNumber] at this ⊢
      rw [List.foldl_append, this, List.foldl_cons, List.foldl_nil, letter_toNat _ (Nat.mod_lt _ (by decide))]
      omega

theorem colon_notin_digits {t : Text} (h : Digits t) : ∀ c ∈ t, c ≠ ':' := by
  rintro c hc rfl
  have := (h.2 _ hc).2
  revert this; decide

theorem colon_notin_letters {t : Text} (h : Letters t) : ∀ c ∈ t, c ≠ ':' := by
  rintro c hc rfl
  have := (h.2 _ hc).1
  revert this; decide

theorem colon_notin_cell {l d : Text} (h : Letters l) (h' : Digits d) : ∀ c ∈ l ++ d, c ≠ ':' := fun c hc => by
  rcases List.mem_append.mp hc with hc | hc
  · exact colon_notin_letters h c hc
  · exact colon_notin_digits h' c hc

theorem cell_split {l d l' d' : Text} (hl : Letters l) (hd : Digits d) (hl' : Letters l') (hd' : Digits d') (h : l ++ d = l' ++ d') : l = l' ∧ d = d' :=
  split_unique (p := fun c => !c.isDigit) (fun c hc => by simp [letters_not hl c hc]) (fun c hc => by simp [letters_not hl' c hc])
    (fun c hc => by simp [digits_isDigit hd c (List.mem_of_mem_head? hc)]) (fun c hc => by simp [digits_isDigit hd' c (List.mem_of_mem_head? hc)]) h

theorem digits_ne_cell {d l e r r' : Text} (hd : Digits d) (hl : Letters l) : d ++ r ≠ (l ++ e) ++ r' := by
  intro h
  obtain ⟨c, d', rfl⟩ := List.exists_cons_of_ne_nil hd.1
  obtain ⟨b, l', rfl⟩ := List.exists_cons_of_ne_nil hl.1
  simp only [List.cons_append, List.cons.injEq] at h
  have h1 := digits_isDigit hd c (by simp)
  have h2 := letters_not hl b (by simp)
  rw [h.1, h2] at h1
  cases h1

/-! ## Theorems -/

/-- C53: the reference of a cell means that cell and no other. -/
theorem C53_covers_cell (x y x' y' : Nat) : Covers (cellRef x y) x' y' ↔ x' = x ∧ y' = y := by
  constructor
  · generalize ht : cellRef x y = t
    intro h
    have hl := letters_colText x
    have hd := digits_natText (y + 1)
    have e : colText x ++ natText (y + 1) = t := ht
    cases h with
    | cell hl' hd' h1 h2 =>
      obtain ⟨rfl, rfl⟩ := cell_split hl hd hl' hd' e
      rw [columnNumber_colText] at h1
      rw [decimal_natText] at h2
      omega
    | @rows d _ _ _ hd' he' h1 h2 =>
      exact absurd rfl (colon_notin_cell hl hd ':' (by rw [e]; simp))
    | block hl' hm' hd' he' h1 h2 h3 h4 =>
      exact absurd rfl (colon_notin_cell hl hd ':' (by rw [e]; simp))
  · rintro ⟨rfl, rfl⟩
    exact .cell (letters_colText _) (digits_natText _) (columnNumber_colText _) (decimal_natText _)

/-- C53: the reference of rows means the cells in these rows and no others. -/
theorem C53_covers_rows (s e x' y' : Nat) : Covers (rowsRef s e) x' y' ↔ s ≤ y' ∧ y' ≤ e := by
  constructor
  · generalize ht : rowsRef s e = t
    intro h
    have hd := digits_natText (s + 1)
    have he := digits_natText (e + 1)
    have eq : natText (s + 1) ++ ':' :: natText (e + 1) = t := ht
    cases h with
    | cell hl' hd' h1 h2 =>
      have := colon_notin_cell hl' hd' ':' (by rw [← eq]; simp)
      exact absurd rfl this
    | rows hd' he' h1 h2 =>
      obtain ⟨rfl, rfl⟩ := colon_split (colon_notin_digits hd) (colon_notin_digits hd') eq
      rw [decimal_natText] at h1 h2
      omega
    | block hl' hm' hd' he' h1 h2 h3 h4 => exact absurd eq (digits_ne_cell hd hl')
  · rintro ⟨h1, h2⟩
    exact .rows (digits_natText _) (digits_natText _) (by rw [decimal_natText]; omega) (by rw [decimal_natText]; omega)

/-- C53: the reference of a part of a column means the cells in this part and no others. -/
theorem C53_covers_column (x s e x' y' : Nat) : Covers (columnRef x s e) x' y' ↔ x' = x ∧ s ≤ y' ∧ y' ≤ e := by
  constructor
  · generalize ht : columnRef x s e = t
    intro h
    have hl := letters_colText x
    have hd := digits_natText (s + 1)
    have he := digits_natText (e + 1)
    have eq : (colText x ++ natText (s + 1)) ++ ':' :: (colText x ++ natText (e + 1)) = t := ht
    cases h with
    | cell hl' hd' h1 h2 =>
      have := colon_notin_cell hl' hd' ':' (by rw [← eq]; simp)
      exact absurd rfl this
    | rows hd' he' h1 h2 => exact absurd eq.symm (digits_ne_cell hd' hl)
    | block hl' hm' hd' he' h1 h2 h3 h4 =>
      obtain ⟨e1, e2⟩ := colon_split (colon_notin_cell hl hd) (colon_notin_cell hl' hd') eq
      obtain ⟨rfl, rfl⟩ := cell_split hl hd hl' hd' e1
      obtain ⟨rfl, rfl⟩ := cell_split hl he hm' he' e2
      rw [columnNumber_colText] at h1 h2
      rw [decimal_natText] at h3 h4
      omega
  · rintro ⟨rfl, h1, h2⟩
    have : Covers ((colText x' ++ natText (s + 1)) ++ ':' :: (colText x' ++ natText (e + 1))) x' y' :=
      .block (letters_colText _) (letters_colText _) (digits_natText _) (digits_natText _) (Nat.le_of_eq (columnNumber_colText _))
        (Nat.le_of_eq (columnNumber_colText _).symm) (by rw [decimal_natText]; omega) (by rw [decimal_natText]; omega)
    exact this

/-- The specification on references as a user writes them. -/
example : Covers "AB12".toList 27 11 ∧ Covers "2:5".toList 100 3 ∧ Covers "C2:C3".toList 2 2 ∧ ¬ Covers "C2:C3".toList 2 3 := by
  refine ⟨.cell (l := "AB".toList) (d := "12".toList) ⟨by decide, by decide⟩ ⟨by decide, by decide⟩ (by decide) (by decide),
    .rows (d := "2".toList) (e := "5".toList) ⟨by decide, by decide⟩ ⟨by decide, by decide⟩ (by decide) (by decide),
    .block (l := "C".toList) (m := "C".toList) (d := "2".toList) (e := "3".toList) ⟨by decide, by decide⟩ ⟨by decide, by decide⟩
      ⟨by decide, by decide⟩ ⟨by decide, by decide⟩ (by decide) (by decide) (by decide) (by decide), fun h => ?_⟩
  have e : "C2:C3".toList = columnRef 2 1 2 := by decide +kernel
  rw [e, C53_covers_column] at h
  omega

end Verif.Sheet
