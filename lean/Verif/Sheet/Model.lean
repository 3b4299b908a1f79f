import Verif.Cell.Model
import Verif.Source.Model
/-
Model of the spreadsheet: src/spreadsheet/mod.rs, src/row/mod.rs (eval), src/module/mod.rs
(eval_fills, eval_spreadsheet).

A `usize` is modelled by an unbounded natural number: the sums of `rows_left_over` and of the row
numbers, which overflow only for fills of about 2^64 rows, are exact here.
-/
namespace Verif.Sheet
open Verif.Ast Verif.Cell

/-- src/spreadsheet/mod.rs:12-16 `Spreadsheet`. -/
structure Sheet where
  rows : List Row
  expanded : Bool

/-- src/spreadsheet/mod.rs:154-168 `has_multiple_infinite_expands`: the loop with `saw_infinite`. -/
def multipleInfinite : Bool → List Row → Bool
  | _, [] => false
  | saw, r :: rs =>
    match r.fill with
    | some ⟨none, _⟩ => if saw then true else multipleInfinite true rs
    | _ => multipleInfinite saw rs

/-- src/spreadsheet/mod.rs:172: what a row adds to the total of `rows_left_over`. -/
def rowCount (r : Row) : Nat :=
  match r.fill with
  | none => 1
  | some f => f.amount.getD 0

/-- src/spreadsheet/mod.rs:170-176 `rows_left_over`. -/
def rowsLeftOver (rows : List Row) : Nat :=
  rowMax - rows.foldl (fun acc r => acc + rowCount r) 0

/-- src/spreadsheet/mod.rs:40-56: the loop of `eval_fills` with the current `row_num`. -/
def expandLoop (left : Nat) : Nat → List Row → List Row
  | _, [] => []
  | n, r :: rs =>
    match r.fill with
    | some f =>
      let k := f.amount.getD left
      List.replicate k { r with fill := some (f.cloneToRow n) } ++ expandLoop left (n + k) rs
    | none => r :: expandLoop left (n + 1) rs

/-- src/spreadsheet/mod.rs:24-62 `eval_fills`; `none` is the error about multiple infinite fills. -/
def evalFills (s : Sheet) : Option Sheet :=
  if s.expanded then some s
  else if multipleInfinite false s.rows then none
  else some ⟨expandLoop (rowsLeftOver s.rows) 0 s.rows, true⟩

/-- src/spreadsheet/mod.rs:101-117: the value of the variable of row `y` itself. -/
def rowValue (y : Nat) : Option Fill → CellVal
  | some f => .rowRelative y f
  | none => .row y

/-- src/spreadsheet/mod.rs:119-140: the value of the variable of the cell in column `x` of row `y`. -/
def cellValue (x y : Nat) : Option Fill → CellVal
  | some f => .columnRelative x f
  | none => .absolute ⟨x, y⟩

/-- src/spreadsheet/mod.rs:101-117: the variable of the row itself. -/
def rowVar (y : Nat) (r : Row) : List (Text × CellVal) :=
  r.opts.var.toList.map fun v => (v, rowValue y r.fill)

/-- src/spreadsheet/mod.rs:119-140: the variable of a cell. -/
def cellVar (y : Nat) (fill : Option Fill) (x : Nat) (c : Cell) : List (Text × CellVal) :=
  c.opts.var.toList.map fun v => (v, cellValue x y fill)

/-- src/spreadsheet/mod.rs:119-140: the variables of the cells of a row, from column `x` on. -/
def cellVars (y : Nat) (fill : Option Fill) : Nat → List Cell → List (Text × CellVal)
  | _, [] => []
  | x, c :: cs => cellVar y fill x c ++ cellVars y fill (x + 1) cs

/-- src/spreadsheet/mod.rs:97-141: the insertions of the loop of `variables`, in order, from row `y`
on. -/
def insertions : Nat → List Row → List (Text × CellVal)
  | _, [] => []
  | y, r :: rs => rowVar y r ++ cellVars y r.fill 0 r.cells ++ insertions (y + 1) rs

/-- src/spreadsheet/mod.rs:94-144 `variables`: the contents of the hash map after the insertions. -/
def sheetVars (s : Sheet) : Text → Option Ast :=
  collect ((insertions 0 s.rows).map fun p => (p.1, .cellVar p.1 p.2))

/-- src/spreadsheet/mod.rs:146-152 `widest_row`. -/
def widestRow (s : Sheet) : Nat := (s.rows.map (·.cells.length)).foldl max 0

/-- The outcome of parsing the cells section (src/spreadsheet/mod.rs:71-82): the CSV error or the error
of a row. -/
inductive SErr where
  | csv (e : Csvp.Err)
  | row (e : CErr)

/-- src/spreadsheet/mod.rs:78-82: the rows in order. -/
def rowsLoop (E : Env) : List (List Csvp.Field) → Except SErr (List Row)
  | [] => .ok []
  | r :: rs =>
    match rowParse E r with
    | .error e => .error (.row e)
    | .ok r' =>
      match rowsLoop E rs with
      | .error e => .error e
      | .ok rs' => .ok (r' :: rs')

/-- src/spreadsheet/mod.rs:65-88 `parse`: the cells section with the number of lines of the code section;
the separator is the default one (csvp/src/config.rs:13-19). -/
def parse (E : Env) (csv : Text) (linesAbove : Nat) : Except SErr Sheet :=
  match Csvp.parse ⟨',', linesAbove⟩ csv with
  | .error e => .error (.csv e)
  | .ok records =>
    match rowsLoop E records with
    | .error e => .error e
    | .ok rows => .ok ⟨rows, false⟩

/-- What evaluating cells, rows or a sheet can end with: the result, the first error of a row with the
address it is reported at (src/row/mod.rs:46-47), or a panic. -/
inductive Out (α : Type) where
  | ok (a : α)
  | err (pos : Addr) (e : EvalError)
  | panic

/-- The function applied to the result, if there is one. -/
def Out.map {α β : Type} (f : α → β) : Out α → Out β
  | .ok a => .ok (f a)
  | .err p e => .err p e
  | .panic => .panic

/-- src/row/mod.rs:40-53: the loop over the cells of row `y` from column `x` on, which stops at the first
error.  A relation, as evaluation is. -/
inductive EvalCells (sc : Scope) (y : Nat) : Nat → List Cell → Out (List Cell) → Prop
  | nil {x} : EvalCells sc y x [] (.ok [])
  | value {x c cs o} : c.ast = none → EvalCells sc y (x + 1) cs o →
      EvalCells sc y x (c :: cs) (o.map ({ c with ast := none } :: ·))
  | formula {x c cs o a b} : c.ast = some a → Eval sc (some ⟨x, y⟩) a (.ok b) → EvalCells sc y (x + 1) cs o →
      EvalCells sc y x (c :: cs) (o.map ({ c with ast := some b } :: ·))
  | err {x c cs a e} : c.ast = some a → Eval sc (some ⟨x, y⟩) a (.err e) → EvalCells sc y x (c :: cs) (.err ⟨x, y⟩ e)
  | panic {x c cs a} : c.ast = some a → Eval sc (some ⟨x, y⟩) a .panic → EvalCells sc y x (c :: cs) .panic

/-- src/row/mod.rs:34-55 `Row::eval`. -/
def EvalRow (sc : Scope) (y : Nat) (r : Row) (o : Out Row) : Prop :=
  ∃ o', EvalCells sc y 0 r.cells o' ∧ o = o'.map fun cells => { r with cells := cells }

/-- src/module/mod.rs:52-57: the rows from row `y` on when all of them succeed. -/
inductive EvalAll (sc : Scope) : Nat → List Row → List Row → Prop
  | nil {y} : EvalAll sc y [] []
  | cons {y r rs r' rs'} : EvalRow sc y r (.ok r') → EvalAll sc (y + 1) rs rs' → EvalAll sc y (r :: rs) (r' :: rs')

/-- src/module/mod.rs:52-57: the rows are evaluated in parallel; all of them when there is no error, and
otherwise the error (or panic) of one of the rows, whichever the scheduler reports. -/
inductive EvalRows (sc : Scope) (rows : List Row) : Out (List Row) → Prop
  | ok {rows'} : EvalAll sc 0 rows rows' → EvalRows sc rows (.ok rows')
  | err {y r p e} : rows[y]? = some r → EvalRow sc y r (.err p e) → EvalRows sc rows (.err p e)
  | panic {y r} : rows[y]? = some r → EvalRow sc y r .panic → EvalRows sc rows .panic

/-- src/module/mod.rs:45-67 `eval_spreadsheet` after `eval_fills` (src/compiler/mod.rs:93-98 `eval`), when
the fills are accepted: the variables of the expanded sheet and then the external ones are merged into the
scope of the code section, and the rows are evaluated in it.  The hash maps are merged in some iteration
orders. -/
def EvalSheet (sc : Scope) (ext : Text → Option Ast) (s : Sheet) (o : Out Sheet) : Prop :=
  ∃ s₁ sheet own e own' o', evalFills s = some s₁ ∧
    IsEnum sheet (sheetVars s₁) ∧ IsEnum own sc.variables ∧ IsEnum e ext ∧
    IsEnum own' (mergeVariables sc sheet own).variables ∧
    EvalRows (evalScope sc sheet own e own') s₁.rows o' ∧ o = o'.map fun rows => ⟨rows, s₁.expanded⟩

end Verif.Sheet
