import Verif.Sheet.Spec
import Verif.Parser.Print
/-
C53: references to different places have different texts.  (The text of a reference is produced by the
external crate `a1`; the model of it is `Addr.text` and `A1.text`, see DESIGN.md.)
-/
namespace Verif.Sheet
open Verif.Ast Verif.Cell

theorem letter_inj {a b : Nat} (ha : a < 26) (hb : b < 26) (h : Char.ofNat (65 + a) = Char.ofNat (65 + b)) : a = b := by
  have key : ∀ n, n < 26 → (Char.ofNat (65 + n)).toNat = 65 + n := by decide
  have := congrArg Char.toNat h
  rw [key a ha, key b hb] at this
  omega

theorem letter_not_digit {a : Nat} (ha : a < 26) : (Char.ofNat (65 + a)).isDigit = false := by
  revert a; decide

theorem colText_ne (n : Nat) : colText n ≠ [] := by
  rw [colText]; split <;> simp

theorem colText_inj (a b : Nat) (h : colText a = colText b) : a = b := by
  induction a using Nat.strongRecOn generalizing b with
  | _ a ih =>
    rw [colText.eq_def a, colText.eq_def b] at h
    by_cases ha : a < 26
    · by_cases hb : b < 26
      · rw [dif_pos ha, dif_pos hb, List.cons.injEq] at h
        exact letter_inj ha hb h.1
      · rw [dif_pos ha, dif_neg hb] at h
        have := congrArg List.length h
        have h2 := List.length_pos_of_ne_nil (colText_ne (b / 26 - 1))
        simp only [List.length_append, List.length_singleton] at this; omega
    · by_cases hb : b < 26
      · rw [dif_neg ha, dif_pos hb] at h
        have := congrArg List.length h
        have h2 := List.length_pos_of_ne_nil (colText_ne (a / 26 - 1))
        simp only [List.length_append, List.length_singleton] at this; omega
      · rw [dif_neg ha, dif_neg hb] at h
        have h1 := List.append_inj' h rfl
        have h3 := letter_inj (Nat.mod_lt _ (by decide)) (Nat.mod_lt _ (by decide)) (List.cons.inj h1.2).1
        have h4 := ih (a / 26 - 1) (by omega) _ h1.1
        omega

theorem colText_no_digit (n : Nat) : ∀ c ∈ colText n, c.isDigit = false := by
  induction n using Nat.strongRecOn with
  | _ n ih =>
    rw [colText]
    split
    · intro c hc; rw [List.mem_singleton.mp hc]; exact letter_not_digit ‹_›
    · intro c hc
      rcases List.mem_append.mp hc with hc | hc
      · exact ih _ (by omega) c hc
      · rw [List.mem_singleton.mp hc]; exact letter_not_digit (Nat.mod_lt _ (by decide))

theorem natText_inj (a b : Nat) (h : natText a = natText b) : a = b := by
  have := congrArg (Nat.ofDigitChars 10 · 0) h
  simpa [natText] using this

theorem split_unique {p : Char → Bool} {a a' d d' : Text} (ha : ∀ c ∈ a, p c = true) (ha' : ∀ c ∈ a', p c = true)
    (hd : ∀ c ∈ d.head?, p c = false) (hd' : ∀ c ∈ d'.head?, p c = false) (h : a ++ d = a' ++ d') : a = a' ∧ d = d' := by
  have key : ∀ a d : Text, (∀ c ∈ a, p c = true) → (∀ c ∈ d.head?, p c = false) → (a ++ d).takeWhile p = a := by
    intro a d ha hd
    rw [List.takeWhile_append_of_pos ha]
    cases d with
    | nil => simp
    | cons c d => simp [hd c (by simp)]
  have h1 : a = a' := by rw [← key a d ha hd, ← key a' d' ha' hd', h]
  subst h1
  exact ⟨rfl, List.append_cancel_left h⟩

theorem natText_head (n : Nat) : ∀ c ∈ (natText n).head?, c.isDigit = true := fun c hc =>
  (Parser.natText_digits n).2 c (List.mem_of_mem_head? hc)

theorem addr_inj (a b : Addr) (h : a.text = b.text) : a = b := by
  have := split_unique (p := fun c => !c.isDigit) (fun c hc => by simp [colText_no_digit _ c hc])
    (fun c hc => by simp [colText_no_digit _ c hc]) (fun c hc => by simp [natText_head _ c hc])
    (fun c hc => by simp [natText_head _ c hc]) h
  have h1 := colText_inj _ _ this.1
  have h2 := natText_inj _ _ this.2
  cases a; cases b
  simp only [Nat.add_right_cancel_iff] at h1 h2
  rw [h1, h2]

theorem colText_no_colon (n : Nat) : ∀ c ∈ colText n, c ≠ ':' := by
  have key : ∀ n, n < 26 → Char.ofNat (65 + n) ≠ ':' := by decide
  induction n using Nat.strongRecOn with
  | _ n ih =>
    rw [colText]
    split
    · intro c hc; rw [List.mem_singleton.mp hc]; exact key _ ‹_›
    · intro c hc
      rcases List.mem_append.mp hc with hc | hc
      · exact ih _ (by omega) c hc
      · rw [List.mem_singleton.mp hc]; exact key _ (Nat.mod_lt _ (by decide))

theorem natText_no_colon (n : Nat) : ∀ c ∈ natText n, c ≠ ':' := by
  rintro c hc rfl
  have := (Parser.natText_digits n).2 _ hc
  revert this; decide

theorem addr_no_colon (a : Addr) : ∀ c ∈ a.text, c ≠ ':' := by
  intro c hc
  rcases List.mem_append.mp hc with hc | hc
  · exact colText_no_colon _ c hc
  · exact natText_no_colon _ c hc

theorem colon_split {a a' d d' : Text} (ha : ∀ c ∈ a, c ≠ ':') (ha' : ∀ c ∈ a', c ≠ ':') (h : a ++ ':' :: d = a' ++ ':' :: d') :
    a = a' ∧ d = d' := by
  have := split_unique (p := fun c => decide (c ≠ ':')) (fun c hc => by simpa using ha c hc) (fun c hc => by simpa using ha' c hc)
    (by simp) (by simp) h
  exact ⟨this.1, (List.cons.inj this.2).2⟩

/-- C53: different cells have different references. -/
theorem C53_cells (x y x' y' : Nat) : cellRef x y = cellRef x' y' ↔ x = x' ∧ y = y' := by
  constructor
  · intro h
    have := addr_inj _ _ h
    simpa using this
  · rintro ⟨rfl, rfl⟩; rfl

/-- C53: different ranges of rows have different references. -/
theorem C53_rows (y z y' z' : Nat) : rowsRef y z = rowsRef y' z' ↔ y = y' ∧ z = z' := by
  constructor
  · intro h
    have := colon_split (natText_no_colon _) (natText_no_colon _) h
    have h1 := natText_inj _ _ this.1
    have h2 := natText_inj _ _ this.2
    omega
  · rintro ⟨rfl, rfl⟩; rfl

/-- C53: different column ranges have different references. -/
theorem C53_columns (x y z x' y' z' : Nat) : columnRef x y z = columnRef x' y' z' ↔ x = x' ∧ y = y' ∧ z = z' := by
  constructor
  · intro h
    have := colon_split (addr_no_colon _) (addr_no_colon _) h
    have h1 := addr_inj _ _ this.1
    have h2 := addr_inj _ _ this.2
    simp only [Addr.mk.injEq] at h1 h2
    omega
  · rintro ⟨rfl, rfl, rfl⟩; rfl

/-- C53: a cell, a range of rows and a range of a column never have the same reference. -/
theorem C53_kinds (x y s e x' s' e' : Nat) :
    cellRef x y ≠ rowsRef s e ∧ cellRef x y ≠ columnRef x' s' e' ∧ rowsRef s e ≠ columnRef x' s' e' := by
  refine ⟨fun h => ?_, fun h => ?_, fun h => ?_⟩
  · exact addr_no_colon ⟨x, y⟩ ':' (by rw [show (Addr.mk x y).text = rowsRef s e from h]; simp [rowsRef, A1.text]) rfl
  · exact addr_no_colon ⟨x, y⟩ ':' (by rw [show (Addr.mk x y).text = columnRef x' s' e' from h]; simp [columnRef, A1.text]) rfl
  · have := (colon_split (natText_no_colon _) (addr_no_colon _) h).1
    obtain ⟨c, l, hc⟩ := List.exists_cons_of_ne_nil (colText_ne x')
    have h1 := colText_no_digit x' c (by rw [hc]; simp)
    have h2 := (Parser.natText_digits (s + 1)).2 c (by rw [this, Addr.text, hc]; simp)
    rw [h1] at h2; cases h2

example : cellRef 27 0 = ['A', 'B', '1'] ∧ rowsRef 1 2 = ['2', ':', '3'] ∧ columnRef 2 1 2 = ['C', '2', ':', 'C', '3'] := by
  decide +kernel

end Verif.Sheet
