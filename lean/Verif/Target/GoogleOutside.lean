import Verif.Target.GoogleExact
/-
C41 and C103 for Google Sheets: sheets of every size.
-/
namespace Verif.Target
open Verif.Ast Verif.Parser Verif.Cell Verif.Sheet

/-- Row `i` and column `j` of both sheets are cells with the same formula, text and options, or neither sheet has a cell there. -/
def AlikeAt (s t : Sheet) (i j : Nat) : Prop :=
  (∃ c c', sheetCell s i j = some c ∧ sheetCell t i j = some c' ∧ c'.ast = c.ast ∧ c'.value = c.value ∧ c'.opts = c.opts) ∨
  sheetCell s i j = none ∧ sheetCell t i j = none

section
variable {ov : Bool} {x y : Nat} {s t : Sheet} {rows : List (List GData)} {g g' : GSheet}

/-- C41, for sheets of every size: without offsets, a cell that the compiled sheet does not have is kept in all rows for which no row of a later thousand has something in that
column, and in all rows from the 1001st on. -/
theorem C41_google_rows_partial {i j : Nat} (h : writeGoogle ov (0, 0) s rows = some g) (hc : sheetCell s i j = none)
    (hl : i < 1000 → ∀ m, 1 ≤ m → sheetCell s (1000 * m + i) j = none ∧ given rows (1000 * m + i) j = none) : g i j = gridOf rows i j := by
  refine (C40_google_iff h rfl).mpr fun m e hs _ => ?_
  obtain ⟨_, hi, _, h4⟩ := hs
  rw [Nat.sub_zero, Nat.sub_zero] at h4
  cases m with
  | succ m =>
    obtain ⟨k1, k2⟩ := hl (by omega) (m + 1) (by omega)
    rw [sent, k1, k2] at h4; cases h4
  | zero =>
    rw [Nat.mul_zero, Nat.zero_add, sent, hc] at h4
    show e = (given rows i j).getD _
    cases hd : given rows i j with
    | none => rw [hd] at h4; cases h4
    | some d =>
      rw [hd] at h4
      simp only at h4
      split at h4
      · simpa using h4.symm
      · cases h4

theorem sent_alike (hn : t.rows.length = s.rows.length) {i j : Nat} (h : AlikeAt s t i j) : sent ov t rows i j = sent ov s rows i j := by
  rcases h with ⟨c, c', h1, h2, h3, h4, h5⟩ | ⟨h1, h2⟩
  · have : gNew c' = gNew c := by simp only [gNew, gValue, h3, h4, h5]
    rw [sent, sent, h1, h2]
    cases given rows i j with
    | none => exact congrArg some this
    | some d => exact congrArg some (show (if ov then gNew c' else d) = if ov then gNew c else d by rw [this])
  · rw [sent, sent, h1, h2, hn]

/-- C103, one cell of a Google spreadsheet, for sheets of every size and all offsets: two compiled sheets with the same number of rows give the same cell in a place if they are
alike there, and also in the same place of every other thousand rows (those are written over each other). -/
theorem C103_google_rows (hs : writeGoogle ov (x, y) s rows = some g) (ht : writeGoogle ov (x, y) t rows = some g') (hn : t.rows.length = s.rows.length) {i j : Nat}
    (h : ∀ m, AlikeAt s t (1000 * m + i) j) : g' (x + i) (y + j) = g (x + i) (y + j) := by
  have key : ∀ m d, Sends ov x y t rows (x + i) (y + j) m d ↔ Sends ov x y s rows (x + i) (y + j) m d := fun m d => by
    unfold Sends
    rw [Nat.add_sub_cancel_left, Nat.add_sub_cancel_left, sent_alike hn (h m)]
  rcases C44_exact hs (x + i) (y + j) with ⟨m, d, k1, k2, k3⟩ | ⟨k1, k2⟩
  · rcases C44_exact ht (x + i) (y + j) with ⟨m', d', l1, l2, l3⟩ | ⟨l1, -⟩
    · have hm : m' = m := by
        rcases Nat.lt_trichotomy m m' with q | q | q
        · exact absurd ((key _ _).mp l1) (k2 _ _ q)
        · exact q.symm
        · exact absurd ((key _ _).mpr k1) (l2 _ _ q)
      subst hm
      have e1 := k1.2.2.2
      rw [((key _ _).mp l1).2.2.2] at e1
      rw [l3, k3, Option.some.inj e1]
    · exact absurd ((key _ _).mpr k1) (l1 _ _)
  · rcases C44_exact ht (x + i) (y + j) with ⟨m', d', l1, -, -⟩ | ⟨-, l2⟩
    · exact absurd ((key _ _).mp l1) (k1 _ _)
    · rw [l2, k2]

end

/-! ### Examples -/

theorem long_length (r r' : Row) : (longSheet r r').rows.length = 1001 := by
  rw [show (longSheet r r').rows = List.replicate 1000 r ++ [r'] from rfl, List.length_append, List.length_replicate]
  rfl

/-- A sheet of 1001 rows of one cell each leaves the second column alone. -/
example (r r' : Row) (c c' : Cell) (hr : r.cells = [c]) (hr' : r'.cells = [c']) (d d' : GData) (g : GSheet)
    (h : writeGoogle false (0, 0) (longSheet r r') [[d, d']] = some g) : g 0 1 = d' := by
  have hcell : ∀ i, sheetCell (longSheet r r') i 1 = none := fun i => by
    rw [sheetCell]
    cases h : (longSheet r r').rows[i]? with
    | none => rfl
    | some q =>
      have hm : q ∈ List.replicate 1000 r ++ [r'] := List.mem_of_getElem? h
      rw [Option.bind_some]
      rcases List.mem_append.mp hm with hm | hm
      · rw [(List.mem_replicate.mp hm).2, hr]; rfl
      · rw [List.mem_singleton.mp hm, hr']; rfl
  refine C41_google_rows_partial h (hcell 0) fun _ m hm => ⟨hcell _, ?_⟩
  rw [given, List.getElem?_eq_none (by simp; omega)]
  rfl

/-- If the last of the 1001 rows is changed, the second row shows the same as before (the first one does not: it shows the last). -/
example (r r' r'' : Row) (c : Cell) (hr : r.cells = [c]) (rows : List (List GData)) (g g' : GSheet)
    (h : writeGoogle true (3, 3) (longSheet r r') rows = some g) (h' : writeGoogle true (3, 3) (longSheet r r'') rows = some g') : g' (3 + 1) (3 + 0) = g (3 + 1) (3 + 0) := by
  refine C103_google_rows h h' ((long_length ..).trans (long_length ..).symm) fun m => ?_
  have at0 : ∀ q : Row, sheetCell (longSheet r q) 1 0 = some c := fun q => by
    rw [sheetCell, show (longSheet r q).rows = List.replicate 1000 r ++ [q] from rfl,
      List.getElem?_append_left (by rw [List.length_replicate]; decide), List.getElem?_replicate_of_lt (by decide), Option.bind_some, hr]
    rfl
  cases m with
  | zero => exact .inl ⟨c, c, at0 _, at0 _, rfl, rfl, rfl⟩
  | succ m =>
    have : ∀ q : Row, sheetCell (longSheet r q) (1000 * (m + 1) + 1) 0 = none := fun q => by
      rw [sheetCell, List.getElem?_eq_none (by rw [long_length]; omega)]
      rfl
    exact .inr ⟨this _, this _⟩

end Verif.Target
