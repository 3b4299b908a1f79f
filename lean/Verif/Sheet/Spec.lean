import Verif.Sheet.Model
/-
What expanding fills and naming cells means, independently of the code.
-/
namespace Verif.Sheet
open Verif.Ast Verif.Cell

/-- The definitions that the formulas of an expanded sheet see: the functions of the code section, and for
each name its variable of the code section, else its cell or row, else its value on the command line. -/
def effective (sc : Scope) (ext : Text → Option Ast) (s : Sheet) : Scope :=
  { sc with variables := fun k => (sc.variables k).or ((sheetVars s k).or (ext k)) }

/-- The row has a fill without an amount. -/
def Unbounded (r : Row) : Prop := ∃ y, r.fill = some ⟨none, y⟩

instance (r : Row) : Decidable (Unbounded r) :=
  match h : r.fill with
  | some ⟨none, y⟩ => .isTrue ⟨y, h⟩
  | some ⟨some _, _⟩ => .isFalse (by rintro ⟨y, h'⟩; rw [h] at h'; cases h')
  | none => .isFalse (by rintro ⟨y, h'⟩; rw [h] at h'; cases h')

/-- The number of rows that a row without an unbounded fill stands for. -/
def boundedCopies (r : Row) : Nat :=
  match r.fill with
  | none => 1
  | some ⟨some n, _⟩ => n
  | some ⟨none, _⟩ => 0

/-- The rows that are not in an unbounded fill. -/
def bounded (rows : List Row) : Nat := (rows.map boundedCopies).sum

/-- The number of rows that a row of the sheet stands for: an unbounded fill takes what the others leave
of 1000 rows. -/
def copies (rows : List Row) (r : Row) : Nat :=
  if Unbounded r then 1000 - bounded rows else boundedCopies r

/-- The number of rows that some rows of a sheet stand for. -/
def total (rows part : List Row) : Nat := (part.map (copies rows)).sum

/-- The row with its fill, if any, starting at row `y`. -/
def placed (y : Nat) (r : Row) : Row := { r with fill := r.fill.map fun f => ⟨f.amount, y⟩ }

/-- The names the row gives: to itself and to its cells. -/
def names (r : Row) : List Text := r.opts.var.toList ++ r.cells.filterMap (·.opts.var)

/-- The row gives the name to its cell in column `x`; of several cells with the name it is the last. -/
def NamesCell (r : Row) (x : Nat) (v : Text) : Prop :=
  (∃ c, r.cells[x]? = some c ∧ c.opts.var = some v) ∧ ∀ x' c, x < x' → r.cells[x']? = some c → c.opts.var ≠ some v

/-- The row gives the name to itself, and none of its cells has it. -/
def NamesRow (r : Row) (v : Text) : Prop := r.opts.var = some v ∧ ∀ c ∈ r.cells, c.opts.var ≠ some v

/-- In the sheet, `r` (which comes after the rows `before`) is the last row that gives the name `v`. -/
def LastWith (rows before : List Row) (r : Row) (v : Text) : Prop :=
  ∃ after, rows = before ++ r :: after ∧ ∀ q ∈ after, v ∉ names q

/-- Row `y` of the expanded sheet is one of the copies of `r` (which comes after the rows `before`). -/
def InCopies (rows before : List Row) (r : Row) (y : Nat) : Prop :=
  total rows before ≤ y ∧ y < total rows before + copies rows r

/-- The text of the reference to a cell, a whole row, some rows, or a column of some rows. -/
def cellRef (x y : Nat) : Text := (A1.cell ⟨x, y⟩).text
def rowsRef (y y' : Nat) : Text := (A1.rows y y').text
def columnRef (x y y' : Nat) : Text := (A1.colRows x y y').text

/-- The rows of the range that a variable on a row with the fill denotes. -/
def fillRange (f : Fill) (y : Nat) : Prop := ∃ first last, f.toA1 = .rows first last ∧ first ≤ y ∧ y ≤ last

/-- The rows made by the row's fill are all in its range (C26 says exactly when this holds). -/
def InLimits (rows before : List Row) (r : Row) : Prop :=
  ∀ f, (placed (total rows before) r).fill = some f → ∀ y, fillRange f y ↔ InCopies rows before r y

/-- `t` is the text of the reference that the name `v`, given by a cell or row of the sheet, means in a
formula at `pos`. -/
inductive Means (rows : List Row) (v : Text) (pos : Addr) : Text → Prop
  /-- The cell, when its row has no fill. -/
  | cell {before r x} : LastWith rows before r v → NamesCell r x v → r.fill = none →
      Means rows v pos (cellRef x (total rows before))
  /-- The row, when it has no fill. -/
  | row {before r} : LastWith rows before r v → NamesRow r v → r.fill = none →
      Means rows v pos (rowsRef (total rows before) (total rows before))
  /-- Used in the copies of the row made by its fill: the cell of the same copy. -/
  | sameCell {before r x} : LastWith rows before r v → NamesCell r x v → r.fill.isSome = true →
      InLimits rows before r → InCopies rows before r pos.y → Means rows v pos (cellRef x pos.y)
  /-- Used outside of them: the column, in all the copies. -/
  | column {before r x} : LastWith rows before r v → NamesCell r x v → r.fill.isSome = true →
      0 < copies rows r → InLimits rows before r → ¬ InCopies rows before r pos.y →
      Means rows v pos (columnRef x (total rows before) (total rows before + copies rows r - 1))
  /-- Used in the copies of the row made by its fill: the same copy. -/
  | sameRow {before r} : LastWith rows before r v → NamesRow r v → r.fill.isSome = true →
      InLimits rows before r → InCopies rows before r pos.y → Means rows v pos (rowsRef pos.y pos.y)
  /-- Used outside of them: all the copies. -/
  | range {before r} : LastWith rows before r v → NamesRow r v → r.fill.isSome = true →
      0 < copies rows r → InLimits rows before r → ¬ InCopies rows before r pos.y →
      Means rows v pos (rowsRef (total rows before) (total rows before + copies rows r - 1))

end Verif.Sheet
