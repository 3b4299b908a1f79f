import Verif.Target.GoogleExact
/-
C122: what the offsets do to a sheet of the service.
-/
namespace Verif.Target
open Verif.Ast Verif.Parser Verif.Cell Verif.Sheet

/-! ## Specification -/

/-- What `g` shows is what `g₀` shows, moved by `right` columns and `down` rows: where the compiled sheet has a cell the one shows the same as the other; elsewhere
either the cells show the same as well, or they were not written; and above and to the left nothing was written. -/
structure Moved (right down : Nat) (s : Sheet) (before g₀ g : GSheet) : Prop where
  cells : ∀ i j c, i < 1000 → sheetCell s i j = some c → g (i + down) (j + right) = g₀ i j
  others : ∀ i j, g (i + down) (j + right) = g₀ i j ∨ g (i + down) (j + right) = before (i + down) (j + right) ∧ g₀ i j = before i j
  outside : ∀ i j, i < down ∨ j < right → g i j = before i j

section
variable {ov : Bool} {x y : Nat} {s : Sheet} {rows : List (List GData)} {g g₀ : GSheet}

theorem sends_moved {i j m : Nat} {d : GData} : Sends ov x y s rows (i + x) (j + y) m d ↔ Sends ov 0 0 s rows i j m d := by
  unfold Sends
  rw [Nat.add_sub_cancel, Nat.add_sub_cancel, Nat.sub_zero, Nat.sub_zero]
  constructor
  · rintro ⟨-, h, -, h'⟩; exact ⟨by omega, by omega, by omega, h'⟩
  · rintro ⟨-, h, -, h'⟩; exact ⟨by omega, by omega, by omega, h'⟩

theorem sends_cell {i j : Nat} {c : Cell} (hi : i < 1000) (hc : sheetCell s i j = some c) : ∃ d, Sends ov 0 0 s rows i j 0 d := by
  have : ∃ d, sent ov s rows i j = some d := by
    rw [sent, hc]
    cases given rows i j <;> exact ⟨_, rfl⟩
  obtain ⟨d, hd⟩ := this
  exact ⟨d, by omega, by omega, by omega, by rw [Nat.mul_zero, Nat.zero_add, Nat.sub_zero, Nat.sub_zero]; exact hd⟩

/-- C122 is false for Google Sheets, for every size: `--x-offset x --y-offset y` moves what is written down by `x` and to the right by `y`. -/
theorem C122_google_swapped (h : writeGoogle ov (x, y) s rows = some g) (h₀ : writeGoogle ov (0, 0) s rows = some g₀) :
    Moved y x s (gridOf rows) g₀ g := by
  have key : ∀ i j, (g (i + x) (j + y) = g₀ i j ∧ ∃ m d, Sends ov 0 0 s rows i j m d) ∨
      (∀ m d, ¬ Sends ov 0 0 s rows i j m d) ∧ g (i + x) (j + y) = gridOf rows (i + x) (j + y) ∧ g₀ i j = gridOf rows i j := by
    intro i j
    rcases C44_exact h (i + x) (j + y) with ⟨m, d, h1, h2, h3⟩ | ⟨h1, h3⟩
    · rcases C44_exact h₀ i j with ⟨m', d', k1, k2, k3⟩ | ⟨k1, k3⟩
      · left
        refine ⟨?_, m', d', k1⟩
        have : m = m' := by
          rcases Nat.lt_trichotomy m m' with hlt | he | hlt
          · exact absurd (sends_moved.mpr k1) (h2 _ _ hlt)
          · exact he
          · exact absurd (sends_moved.mp h1) (k2 _ _ hlt)
        subst this
        have e1 := (sends_moved.mp h1).2.2.2
        rw [k1.2.2.2, Option.some.injEq] at e1
        rw [h3, k3, e1]
      · exact absurd (sends_moved.mp h1) (k1 _ _)
    · rcases C44_exact h₀ i j with ⟨m', d', k1, k2, k3⟩ | ⟨k1, k3⟩
      · exact absurd (sends_moved.mpr k1) (h1 _ _)
      · exact .inr ⟨k1, h3, k3⟩
  refine ⟨fun i j c hi hc => ?_, fun i j => ?_, fun i j ho => Verif.Target.outside h ho⟩
  · rcases key i j with ⟨h1, -⟩ | ⟨h1, -⟩
    · exact h1
    · obtain ⟨d, hd⟩ := sends_cell (ov := ov) (rows := rows) hi hc
      exact absurd hd (h1 _ _)
  · rcases key i j with ⟨h1, -⟩ | ⟨-, h1, h2⟩
    · exact .inl h1
    · exact .inr ⟨h1, h2⟩

/-- C122, the part that holds for Google Sheets, for every size: if both offsets are the same, what is written is moved by them.  (As without offsets, only the first thousand
rows of the spreadsheet are written to, and what is kept is what was there without offsets: C44, C41.) -/
theorem C122_google_partial {n : Nat} (h : writeGoogle ov (n, n) s rows = some g) (h₀ : writeGoogle ov (0, 0) s rows = some g₀) :
    Moved n n s (gridOf rows) g₀ g :=
  C122_google_swapped h h₀

/-- C122 is false for Google Sheets: with different offsets, a sheet with one cell in an empty spreadsheet is not moved as asked. -/
theorem C122_google_violated {r : Row} {c : Cell} (hne : x ≠ y) (hr : r.cells = [c]) (hs : s.rows = [r])
    (h : writeGoogle true (x, y) s [] = some g) (h₀ : writeGoogle true (0, 0) s [] = some g₀) : ¬ Moved x y s (gridOf []) g₀ g := by
  intro hm
  have hc : gNew c ≠ {} := fun h => by have := congrArg GData.format h; cases this
  have hcell : sheetCell s 0 0 = some c := by
    rw [sheetCell, hs]
    show r.cells[0]? = some c
    rw [hr]; rfl
  have e0 : g₀ 0 0 = gNew c := C44_partial (n := 0) h₀ (by rw [hs]; show 1 ≤ 1000; omega) hcell
  have e1 : g (0 + y) (0 + x) = g₀ 0 0 := hm.cells 0 0 c (by decide) hcell
  have hsw := C122_google_swapped h h₀
  have hb : ∀ i j, gridOf [] i j = {} := fun i j => rfl
  rw [Nat.zero_add, Nat.zero_add, e0] at e1
  rcases Nat.lt_or_gt_of_ne hne with hlt | hlt
  · have := hsw.outside y x (.inr hlt)
    rw [e1, hb] at this
    exact hc this
  · have := hsw.outside y x (.inl hlt)
    rw [e1, hb] at this
    exact hc this
end

/-- `--x-offset 1 --y-offset 2` with one cell: it is moved to `C2` instead of `B3`. -/
example (r : Row) (c : Cell) (hr : r.cells = [c]) : ∃ g₀ g, writeGoogle true (0, 0) ⟨[r], false⟩ [] = some g₀ ∧ writeGoogle true (1, 2) ⟨[r], false⟩ [] = some g ∧
    g 1 2 = gNew c ∧ g 2 1 = {} ∧ ¬ Moved 1 2 ⟨[r], false⟩ (gridOf []) g₀ g := by
  have hq : ∀ x y, x < 2 ^ 31 → y < 2 ^ 31 → ∃ g, writeGoogle true (x, y) ⟨[r], false⟩ [] = some g := by
    intro x y hx hy
    rw [writeGoogle, requests]
    simp only
    rw [if_neg (by simp [rowData]), if_pos ⟨hx, hy⟩]
    exact ⟨_, rfl⟩
  obtain ⟨g₀, h₀⟩ := hq 0 0 (by decide) (by decide)
  obtain ⟨g, h⟩ := hq 1 2 (by decide) (by decide)
  have hcell : sheetCell ⟨[r], false⟩ 0 0 = some c := by
    rw [sheetCell]
    show r.cells[0]? = some c
    rw [hr]; rfl
  have hm := C122_google_swapped h h₀
  refine ⟨g₀, g, h₀, h, ?_, ?_, C122_google_violated (by decide) hr rfl h h₀⟩
  · have := hm.cells 0 0 c (by decide) hcell
    rw [← C44_partial (n := 0) h₀ (by show 1 ≤ 1000; omega) hcell]
    exact this
  · exact hm.outside 2 1 (.inr (by decide))
end Verif.Target
