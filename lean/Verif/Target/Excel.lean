import Verif.Target.CsvProps
/-
Model of src/target/excel and what writing to a worksheet does (C40, C41, C57, C58, C61-C65).

The external library (umya_spreadsheet) is represented by a worksheet of cells, comments and data validations.  Its coordinates
begin with 1: the cell `A1` is in column 1 and row 1.
-/
namespace Verif.Target
open Verif.Ast Verif.Parser Verif.Cell Verif.Sheet

/-- The value of a cell of a worksheet.  A number is an `f64` in the code: that of an `i64` is the nearest one. -/
inductive XVal where
  | bool (b : Bool)
  | text (t : Text)
  | int (n : Int)
  | float (t : Text)
  | formula (t : Text)
deriving DecidableEq, Repr

/-- src/target/excel/excel_cell.rs:134-174 `set_font`: `umya_spreadsheet::Font`. -/
structure XFont where
  size : Option UInt8
  name : Option Text
  color : Option Text
  bold : Bool
  italic : Bool
  strikethrough : Bool
  underline : Bool
deriving DecidableEq

/-- src/target/excel/excel_cell.rs:27-39: `umya_spreadsheet::Style`; the four sides are those of its `Borders`. -/
structure XStyle where
  halign : HAlign
  valign : VAlign
  wrap : Bool
  background : Option Text
  left : Option BorderStyle
  right : Option BorderStyle
  top : Option BorderStyle
  bottom : Option BorderStyle
  font : Option XFont
  numFmt : NumFmt
deriving DecidableEq

/-- `umya_spreadsheet::Cell`. -/
structure XCell where
  value : Option XVal
  style : XStyle
deriving DecidableEq

/-- src/target/excel/cell_validation.rs:11,26: `DataValidationValues`, those in use. -/
inductive XType where | custom | date | decimal | list
deriving DecidableEq, Repr

/-- src/target/excel/cell_validation.rs:22-29: `DataValidationOperatorValues`. -/
inductive XOp where | between | notBetween | equal | notEqual | less | lessEq | greater | greaterEq
deriving DecidableEq, Repr

/-- `formula1` and `formula2` of a data validation: the text of a number, or any other text. -/
inductive XArg where
  | num (n : Int)
  | text (t : Text)
deriving DecidableEq, Repr

/-- `umya_spreadsheet::DataValidation`: `input` and `error` say if the prompt and an error message are shown. -/
structure XRule where
  sqref : Text
  type : XType
  op : Option XOp
  formula1 : XArg
  formula2 : Option XArg
  prompt : Text
  input : Bool
  error : Bool
deriving DecidableEq, Repr

/-- src/date_time/mod.rs:8-13 `DateTime`.  A date is given by the number of days since 1900-01-01. -/
inductive DateVal where
  | date (days : Int)
  | dateAndTime
  | time
deriving DecidableEq, Repr

/-- src/date_time/mod.rs:22-29 `distance_from_epoch`; `none` is the panic of `unimplemented!`. -/
def DateVal.distance : DateVal → Option Int
  | .date n => some n
  | _ => none

/-- src/target/excel/cell_validation.rs:187-203: the text of the list of `ValueInList`. -/
def listText (vs : List Ast) : Text :=
  '"' :: List.intercalate ", ".toList (vs.map fun v => (display v).filter (· ≠ '"')) ++ ['"']

/-- src/target/excel/cell_validation.rs:54-212 `From<CellValidation> for DataValidation`, for the cell in column `x` and row `y` (from 0).
`den` gives the value of a date as written. -/
def excelRule (den : Text → DateVal) (x y : Nat) (v : Validation) : Option XRule :=
  let pos := (A1.cell ⟨x, y⟩).text
  let custom (f prompt : Text) : Option XRule := some ⟨pos, .custom, none, .text f, none, prompt, true, true⟩
  let num1 (op : XOp) (n : Int) (prompt : Text) : Option XRule := some ⟨pos, .decimal, some op, .num n, none, prompt, true, true⟩
  let num2 (op : XOp) (m n : Int) (prompt : Text) : Option XRule := some ⟨pos, .decimal, some op, .num m, some (.num n), prompt, true, true⟩
  let date1 (op : XOp) (d : Text) (prompt : Text) : Option XRule := (den d).distance.map fun n => ⟨pos, .date, some op, .num n, none, prompt, true, true⟩
  let date2 (op : XOp) (d e : Text) (prompt : Text) : Option XRule := (den d).distance.bind fun m => (den e).distance.map fun n =>
    ⟨pos, .date, some op, .num m, some (.num n), prompt, true, true⟩
  match v with
  | .custom c => custom c ("Custom formula: ".toList ++ c)
  | .dateAfter d => date1 .greater d ("Date after ".toList ++ d)
  | .dateBefore d => date1 .less d ("Date before ".toList ++ d)
  | .dateBetween d e => date2 .between d e ("Date between ".toList ++ d ++ " and ".toList ++ e)
  | .dateEqualTo d => date1 .equal d ("Date equal to ".toList ++ d)
  | .dateIsValid => custom ("=ISNUMBER(DAY(".toList ++ pos ++ "))".toList) "Date is valid".toList
  | .dateNotBetween d e => date2 .notBetween d e ("Date not between ".toList ++ d ++ " and ".toList ++ e)
  | .dateOnOrAfter d => date1 .greaterEq d ("Date on or after ".toList ++ d)
  | .dateOnOrBefore d => date1 .lessEq d ("Date on or before ".toList ++ d)
  | .numberBetween m n => num2 .between m n ("Number between ".toList ++ intText m ++ " and ".toList ++ intText n)
  | .numberEqualTo n => num1 .equal n ("Number equal to ".toList ++ intText n)
  | .numberGreaterThan n => num1 .greater n ("Number greater than ".toList ++ intText n)
  | .numberGreaterThanOrEqualTo n => num1 .greaterEq n ("Number greater than or equal to ".toList ++ intText n)
  | .numberLessThan n => num1 .less n ("Number less than ".toList ++ intText n)
  | .numberLessThanOrEqualTo n => num1 .lessEq n ("Number less than or equal to ".toList ++ intText n)
  | .numberNotBetween m n => num2 .notBetween m n ("Number not between ".toList ++ intText m ++ " and ".toList ++ intText n)
  | .numberNotEqualTo n => num1 .notEqual n ("Number not equal to ".toList ++ intText n)
  | .textContains t => custom ("=ISNUMBER(SEARCH(\"".toList ++ t ++ "\", ".toList ++ pos ++ "))".toList) ("Text contains \"".toList ++ t ++ "\"".toList)
  | .textDoesNotContain t => custom ("=NOT(ISNUMBER(SEARCH(\"".toList ++ t ++ "\", ".toList ++ pos ++ ")))".toList)
      ("Text does not contain \"".toList ++ t ++ "\"".toList)
  | .textEqualTo t => custom (pos ++ " = \"".toList ++ t ++ "\"".toList) ("Text equal to \"".toList ++ t ++ "\"".toList)
  | .textIsValidEmail => custom ("=ISNUMBER(MATCH(\"*@*.?*\", ".toList ++ pos ++ ", 0))".toList) "Text is valid email".toList
  | .textIsValidUrl => custom ("=RegExpMatch(".toList ++ pos ++ ", \"^http\")".toList) "Text is valid URL".toList
  | .valueInList vs => some ⟨pos, .list, some .equal, .text (listText vs), none, "Value in list: ".toList ++ listText vs, true, true⟩
  | .valueInRange r => some ⟨pos, .list, some .equal, .text r, none, "Value in range ".toList ++ r, true, true⟩

/-- `umya_spreadsheet::Worksheet`: columns and rows begin with 1. -/
structure Worksheet where
  cells : Nat × Nat → Option XCell
  comments : List ((Nat × Nat) × Text)
  validations : List XRule

/-- src/target/excel/excel_cell.rs:109-132 `set_borders` for a side, with src/cell/mod.rs:108-110. -/
def borderOf (c : Cell) (s : BorderSide) : Option BorderStyle := if c.sideHasBorder s then some c.opts.borderStyle else none

/-- src/target/excel/excel_cell.rs:134-174 `set_font`. -/
def fontOf (o : Opts) : Option XFont :=
  if o.fontSize = none ∧ o.fontColor = none ∧ o.fontFamily = none ∧
      o.textFmts .bold = false ∧ o.textFmts .italic = false ∧ o.textFmts .strikethrough = false ∧ o.textFmts .underline = false then none
  else some ⟨o.fontSize, o.fontFamily, o.fontColor.map Rgb.toRgba, o.textFmts .bold, o.textFmts .italic, o.textFmts .strikethrough,
    o.textFmts .underline⟩

/-- src/target/excel/mod.rs:137-139 `build_style` with src/target/excel/excel_cell.rs:27-39, 69-75, 86-107, 176-178. -/
def styleOf (c : Cell) : XStyle where
  halign := c.opts.halign
  valign := c.opts.valign
  wrap := c.opts.wrap = .wrap
  background := c.opts.color.map Rgb.toRgba
  left := borderOf c .left
  right := borderOf c .right
  top := borderOf c .top
  bottom := borderOf c .bottom
  font := fontOf c.opts
  numFmt := c.opts.numFmt

/-- src/target/excel/mod.rs:114-135 `set_value`. -/
def setValue (old : Option XVal) (c : Cell) : Option XVal :=
  match c.ast with
  | some a =>
    match a with
    | .bool b => some (.bool b)
    | .text t => some (.text t)
    | .float false none v => some (.float v)
    | .int false none n => some (.int n)
    | a => some (.formula (display a))
  | none => if c.value = [] then old else some (.text c.value)

/-- src/target/excel/mod.rs:141-151 `get_existing_cell`, for the cell in column `x` and row `y` (from 0). -/
def existingCell (ws : Worksheet) (x y : Nat) : Existing XCell :=
  match ws.cells (x + 1, y + 1) with
  | some c => .value c
  | none => .empty

/-- The validations that are collected while the cells are written: src/target/excel/mod.rs:44, 73-75. -/
abbrev Pending := List ((Nat × Nat) × Validation)

/-- src/target/excel/mod.rs:48-78: one cell; the validations are collected. -/
def placeCell (overwrite : Bool) (st : Worksheet × Pending) (x y : Nat) (c : Cell) : Worksheet × Pending :=
  match mergeCell overwrite (existingCell st.1 x y) (some c) with
  | .new c =>
    let old := (st.1.cells (x + 1, y + 1)).bind (·.value)
    let cells := fun p => if p = (x + 1, y + 1) then some ⟨setValue old c, styleOf c⟩ else st.1.cells p
    -- src/target/excel/mod.rs:99-111 `set_comment`: the coordinates are those of the address, from 0
    let comments := st.1.comments ++ c.opts.note.toList.map fun n => ((x, y), n)
    (⟨cells, comments, st.1.validations⟩, st.2 ++ c.opts.validation.toList.map fun v => ((x, y), v))
  | _ => st

/-- src/target/excel/mod.rs:47: the cells of a row from column `x` on. -/
def placeCells (overwrite : Bool) (y : Nat) : Nat → List Cell → Worksheet × Pending → Worksheet × Pending
  | _, [], st => st
  | x, c :: cs, st => placeCells overwrite y (x + 1) cs (placeCell overwrite st x y c)

/-- src/target/excel/mod.rs:46: the rows from `y` on. -/
def placeRows (overwrite : Bool) : Nat → List Row → Worksheet × Pending → Worksheet × Pending
  | _, [], st => st
  | y, r :: rs, st => placeRows overwrite (y + 1) rs (placeCells overwrite y 0 r.cells st)

/-- src/target/excel/mod.rs:43-82 `build_worksheet` with 84-97 `set_data_validations`; `none` is a panic. -/
def buildWorksheet (den : Text → DateVal) (overwrite : Bool) (s : Sheet) (ws : Worksheet) : Option Worksheet :=
  let st := placeRows overwrite 0 s.rows (ws, [])
  if st.2 = [] then some st.1
  else (st.2.mapM fun (p : (Nat × Nat) × Validation) => excelRule den p.1.1 p.1.2 p.2).map fun rules =>
    ⟨st.1.cells, st.1.comments, rules⟩

/-- `umya_spreadsheet::Spreadsheet`: the worksheets with their names. -/
abbrev Workbook := List (Text × Worksheet)

/-- A new worksheet: `new_sheet`. -/
def blankSheet : Worksheet := ⟨fun _ => none, [], []⟩

/-- `get_sheet_by_name`. -/
def sheetNamed (wb : Workbook) (name : Text) : Option Worksheet := (wb.find? fun p => p.1 = name).map (·.2)

/-- src/target/excel/mod.rs:164-176 `create_worksheet`. -/
def createWorksheet (wb : Workbook) (name : Text) : Workbook :=
  match sheetNamed wb name with
  | none => wb ++ [(name, blankSheet)]
  | some _ => wb

/-- The workbook with the worksheet of that name changed in place: `get_sheet_by_name_mut` (src/target/excel/mod.rs:178-190). -/
def changeSheet (f : Worksheet → Option Worksheet) (name : Text) : Workbook → Option Workbook
  | [] => none
  | (n, ws) :: wb => if n = name then (f ws).map fun ws' => (n, ws') :: wb else (changeSheet f name wb).map ((n, ws) :: ·)

/-- src/target/excel/compilation_target.rs:12-31 `write`, with src/target/excel/mod.rs:153-162 `open_spreadsheet`: a workbook that
does not exist begins without worksheets.  Errors of reading and writing the file are left out; `none` is a panic. -/
def writeExcel (den : Text → DateVal) (overwrite : Bool) (name : Text) (s : Sheet) (file : Option Workbook) : Option Workbook :=
  changeSheet (buildWorksheet den overwrite s) name (createWorksheet (file.getD []) name)

end Verif.Target
