import Verif.Target.CsvProps
/-
Model of src/target/google_sheets: the request that is sent, and what the service does with it.  The network, credentials and errors of the
service are left out.
-/
namespace Verif.Target
open Verif.Ast Verif.Parser Verif.Cell Verif.Sheet

/-- `api::ExtendedValue`.  A number is an `f64` in the code: that of an `i64` is the nearest one. -/
inductive GVal where
  | bool (b : Bool)
  | text (t : Text)
  | int (n : Int)
  | float (t : Text)
  | formula (t : Text)
deriving DecidableEq, Repr

/-- `api::Border`; a colour (components scaled to 1: src/rgb/from.rs:3-20, google_sheets_cell.rs:45-61) is given by its `Rgb`. -/
structure GBorder where
  style : Text
  color : Option Rgb
deriving DecidableEq

/-- `api::Borders`. -/
structure GBorders where
  bottom : Option GBorder
  left : Option GBorder
  right : Option GBorder
  top : Option GBorder
deriving DecidableEq

/-- `api::TextFormat`. -/
structure GText where
  bold : Option Bool
  family : Option Text
  size : Option UInt8
  color : Option Rgb
  italic : Option Bool
  strikethrough : Option Bool
  underline : Option Bool
deriving DecidableEq

/-- `api::CellFormat`. -/
structure GFormat where
  background : Option Rgb
  borders : Option GBorders
  halign : Text
  numFmt : Text
  text : Option GText
  valign : Text
  wrap : Text
deriving DecidableEq

/-- `api::ConditionValue`. -/
inductive GArg where
  | userEntered (t : Text)
  | relativeDate (t : Text)
deriving DecidableEq, Repr

/-- `api::BooleanCondition`. -/
structure GCond where
  type : Text
  values : List GArg
deriving DecidableEq, Repr

/-- `api::CellData`, as far as it is written. -/
structure GData where
  validation : Option GCond := none
  format : Option GFormat := none
  value : Option GVal := none
  note : Option Text := none
deriving DecidableEq

/-- src/target/google_sheets/batch_update_builder.rs:117-158 `user_entered_value`. -/
def gValue (c : Cell) : Option GVal :=
  match c.ast with
  | some a =>
    match a with
    | .bool b => some (.bool b)
    | .text t => some (.text t)
    | .float false none v => some (.float v)
    | .int false none n => some (.int n)
    | a => some (.formula ('=' :: display a))
  | none => if c.value = [] then none else some (.text c.value)

/-- src/target/google_sheets/google_sheets_cell.rs:164-174 `border_style`. -/
def gBorderStyle : BorderStyle → Text
  | .dashed => "DASHED".toList
  | .dotted => "DOTTED".toList
  | .double => "DOUBLE".toList
  | .solid => "SOLID".toList
  | .solidMedium => "SOLID_MEDIUM".toList
  | .solidThick => "SOLID_THICK".toList

/-- src/target/google_sheets/google_sheets_cell.rs:155-161 `border_side`, with 189-195 `border`. -/
def gSide (o : Opts) (s : BorderSide) : Option GBorder := if o.borders s then some ⟨gBorderStyle o.borderStyle, o.borderColor⟩ else none

/-- src/target/google_sheets/google_sheets_cell.rs:176-187 `borders`. -/
def gBorders (o : Opts) : Option GBorders :=
  if o.borders .all = false ∧ o.borders .top = false ∧ o.borders .bottom = false ∧ o.borders .left = false ∧ o.borders .right = false then none
  else some ⟨gSide o .bottom, gSide o .left, gSide o .right, gSide o .top⟩

/-- src/target/google_sheets/google_sheets_cell.rs:197-203 `format_as_option`. -/
def gFlag (o : Opts) (f : TextFmt) : Option Bool := if o.textFmts f then some true else none

/-- src/target/google_sheets/google_sheets_cell.rs:205-212 `horizontal_alignment`. -/
def gHAlign : HAlign → Text
  | .left => "LEFT".toList
  | .center => "MIDDLE".toList
  | .right => "RIGHT".toList

/-- src/target/google_sheets/google_sheets_cell.rs:216-233 `number_format`. -/
def gNumFmt : NumFmt → Text
  | .currency => "CURRENCY".toList
  | .date => "DATE".toList
  | .datetime => "DATE_TIME".toList
  | .number => "NUMBER".toList
  | .percent => "PERCENT".toList
  | .text => "TEXT".toList
  | .time => "TIME".toList
  | .scientific => "SCIENTIFIC".toList

/-- src/target/google_sheets/google_sheets_cell.rs:235-266 `text_format`. -/
def gText (o : Opts) : Option GText :=
  let t : GText := ⟨gFlag o .bold, o.fontFamily, o.fontSize, o.fontColor, gFlag o .italic, gFlag o .strikethrough, gFlag o .underline⟩
  if t = ⟨none, none, none, none, none, none, none⟩ then none else some t

/-- src/target/google_sheets/google_sheets_cell.rs:268-275 `vertical_alignment`. -/
def gVAlign : VAlign → Text
  | .top => "TOP".toList
  | .center => "MIDDLE".toList
  | .bottom => "BOTTOM".toList

/-- src/target/google_sheets/google_sheets_cell.rs:277-284 `wrap_strategy`. -/
def gWrap : Wrap → Text
  | .wrap => "WRAP".toList
  | .overflow => "OVERFLOW".toList
  | .clip => "CLIP".toList

/-- src/target/google_sheets/google_sheets_cell.rs:64-83 `cell_format`. -/
def gFormat (o : Opts) : GFormat := ⟨o.color, gBorders o, gHAlign o.halign, gNumFmt o.numFmt, gText o, gVAlign o.valign, gWrap o.wrap⟩

/-- src/target/google_sheets/google_sheets_cell.rs:85-143: the name of the condition of each validation. -/
def gCondName : Validation → String
  | .custom _ => "CUSTOM"
  | .dateAfter _ => "DATE_AFTER"
  | .dateBefore _ => "DATE_BEFORE"
  | .dateBetween _ _ => "DATE_BETWEEN"
  | .dateEqualTo _ => "DATE_EQUAL_TO"
  | .dateIsValid => "DATE_IS_VALID_DATE"
  | .dateNotBetween _ _ => "DATE_NOT_BETWEEN"
  | .dateOnOrAfter _ => "DATE_ON_OR_AFTER"
  | .dateOnOrBefore _ => "DATE_ON_OR_BEFORE"
  | .numberBetween _ _ => "NUMBER_BETWEEN"
  | .numberEqualTo _ => "NUMBER_EQUAL_TO"
  | .numberGreaterThan _ => "NUMBER_GREATER_THAN"
  | .numberGreaterThanOrEqualTo _ => "NUMBER_GREATER_THAN_OR_EQUAL_TO"
  | .numberLessThan _ => "NUMBER_LESS_THAN"
  | .numberLessThanOrEqualTo _ => "NUMBER_LESS_THAN_OR_EQUAL_TO"
  | .numberNotBetween _ _ => "NUMBER_NOT_BETWEEN"
  | .numberNotEqualTo _ => "NUMBER_NOT_EQUAL_TO"
  | .textContains _ => "TEXT_CONTAINS"
  | .textDoesNotContain _ => "TEXT_DOES_NOT_CONTAIN"
  | .textEqualTo _ => "TEXT_EQUAL_TO"
  | .textIsValidEmail => "TEXT_IS_VALID_EMAIL"
  | .textIsValidUrl => "TEXT_IS_VALID_URL"
  | .valueInList _ => "VALUE_IN_LIST"
  | .valueInRange _ => "VALUE_IN_RANGE"

/-- src/target/google_sheets/google_sheets_cell.rs:19-43, 85-143: the values of the condition. -/
def gCondArgs : Validation → List GArg
  | .custom c => [.userEntered c]
  | .dateAfter d => [.relativeDate d]
  | .dateBefore d => [.relativeDate d]
  | .dateBetween d e => [.relativeDate d, .relativeDate e]
  | .dateEqualTo d => [.relativeDate d]
  | .dateIsValid => []
  | .dateNotBetween d e => [.relativeDate d, .relativeDate e]
  | .dateOnOrAfter d => [.relativeDate d]
  | .dateOnOrBefore d => [.relativeDate d]
  | .numberBetween m n => [.userEntered (intText m), .userEntered (intText n)]
  | .numberEqualTo n => [.userEntered (intText n)]
  | .numberGreaterThan n => [.userEntered (intText n)]
  | .numberGreaterThanOrEqualTo n => [.userEntered (intText n)]
  | .numberLessThan n => [.userEntered (intText n)]
  | .numberLessThanOrEqualTo n => [.userEntered (intText n)]
  | .numberNotBetween m n => [.userEntered (intText m), .userEntered (intText n)]
  | .numberNotEqualTo n => [.userEntered (intText n)]
  | .textContains t => [.userEntered t]
  | .textDoesNotContain t => [.userEntered t]
  | .textEqualTo t => [.userEntered t]
  | .textIsValidEmail => []
  | .textIsValidUrl => []
  | .valueInList vs => vs.map fun v => .userEntered (display v)
  | .valueInRange r => [.userEntered r]

/-- src/target/google_sheets/google_sheets_cell.rs:85-153 `data_validation_rule`. -/
def gCond (v : Validation) : GCond := ⟨(gCondName v).toList, gCondArgs v⟩

/-- src/target/google_sheets/batch_update_builder.rs:61-70: the data of a compiled cell. -/
def gNew (c : Cell) : GData := ⟨c.opts.validation.map gCond, some (gFormat c.opts), gValue c, c.opts.note⟩

/-- src/target/google_sheets/batch_update_builder.rs:50-74 `cell_data`. -/
def cellData : Merged GData → GData
  | .existing d => d
  | .empty => {}
  | .new c => gNew c

/-- src/target/google_sheets/mod.rs:102-116: the rows that the service returns; each cell in them counts as a value. -/
def readGoogle (rows : List (List GData)) : List (List (Existing GData)) := rows.map fun r => r.map .value

/-- src/target/google_sheets/batch_update_builder.rs:76-92 `row_data`, from row `i` on. -/
def rowData (overwrite : Bool) (existing : List (List (Existing GData))) : Nat → List Row → List (List GData)
  | _, [] => []
  | i, r :: rs => (mergeRows overwrite ((existing[i]?).getD []) r.cells).map cellData :: rowData overwrite existing (i + 1) rs

/-- `[T]::chunks` for `n > 0`. -/
def chunks {α : Type} (n : Nat) (l : List α) : List (List α) :=
  (List.range ((l.length + (n - 1)) / n)).map fun k => (l.drop (k * n)).take n

/-- `api::UpdateCellsRequest`: where it starts and the rows. -/
structure Request where
  row : Nat
  column : Nat
  rows : List (List GData)
deriving DecidableEq

/-- src/target/google_sheets/batch_update_builder.rs:37-48 `batch_update_cells_requests`, with 94-112 `update_cells_request`; `none` is the panic of
`expect` if an offset is not an `i32`.  `offset` is that of the configuration. -/
def requests (overwrite : Bool) (offset : Nat × Nat) (s : Sheet) (rows : List (List GData)) : Option (List Request) :=
  let all := rowData overwrite (readGoogle rows) 0 s.rows
  if all = [] then some []
  else if offset.1 < 2 ^ 31 ∧ offset.2 < 2 ^ 31 then some ((chunks 1000 all).map fun rs => ⟨offset.1, offset.2, rs⟩)
  else none

/-- The cells of a sheet of the service, by row and column. -/
abbrev GSheet := Nat → Nat → GData

/-- What the service does with a request: `fields` is `*`, so all data of each given cell are replaced. -/
def Request.apply (r : Request) (g : GSheet) : GSheet := fun i j =>
  if r.row ≤ i ∧ r.column ≤ j then
    match (r.rows[i - r.row]?).bind (·[j - r.column]?) with
    | some d => d
    | none => g i j
  else g i j

/-- The cells that the service returned. -/
def gridOf (rows : List (List GData)) : GSheet := fun i j => ((rows[i]?).bind (·[j]?)).getD {}

/-- src/target/google_sheets/mod.rs:152-168 `write_sheet`: the sheet afterwards; `none` is a panic.  (Requests with values that the service does not
know are rejected as a whole; see C66.) -/
def writeGoogle (overwrite : Bool) (offset : Nat × Nat) (s : Sheet) (rows : List (List GData)) : Option GSheet :=
  (requests overwrite offset s rows).map fun rs => rs.foldl (fun g r => r.apply g) (gridOf rows)

end Verif.Target
