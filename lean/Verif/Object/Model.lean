import Verif.Object.Codec
import Verif.Cache.Model
import Verif.Source.Model
/-
The object file of a module: the derived serialization (`serde::Serialize`, `serde::Deserialize`) of src/module/mod.rs:22-32 `Module` and of all types in it, in the
format of Verif.Object.Codec.
-/
namespace Verif.Object
open Verif.Ast Verif.Loader Verif.Sheet Verif.Cache
open Verif.Cell hiding Target

/-- How values of types from outside the repository are written: `f64`, the dates and times of chrono, the types of the a1 crate, and (as a number in the model) the
version.  They only have to obey the laws. -/
structure Ext where
  f64 : Codec Text
  date : Codec Text
  addr : Codec Ast.Addr
  column : Codec Nat
  row : Codec Nat
  a1 : Codec Text
  version : Codec Nat
  f64_lawful : Lawful f64
  date_lawful : Lawful date
  addr_lawful : Lawful addr
  column_lawful : Lawful column
  row_lawful : Lawful row
  a1_lawful : Lawful a1
  version_lawful : Lawful version

section
variable (X : Ext)

/-- A variant without fields. -/
def bare {α : Type} (a : α) : Codec α := ctor (fun _ => a) unit

/-- src/cell_options/fill/mod.rs:12-15 `Fill`. -/
def fill : Codec Fill := ctor (fun x => ⟨x.1, x.2⟩) (pair (option (le 8)) X.row)

/-- src/ast/node.rs:5-9 `NumberSign`. -/
def sign : Codec Sign := enum [bare .negative, bare .positive]

/-- src/ast/variable_value.rs:7-48 `VariableValue`, where `rec` is for the tree in it. -/
def variableValue (rec : Codec Ast) : Codec (CellVal ⊕ Ast) :=
  enum [ctor (fun a => .inl (.absolute a)) X.addr, ctor .inr rec, ctor (fun x => .inl (.columnRelative x.1 x.2)) (pair X.column (fill X)),
    ctor (fun r => .inl (.row r)) X.row, ctor (fun x => .inl (.rowRelative x.1 x.2)) (pair X.row (fill X))]

/-- The variable with this name and value. -/
def variableOf (x : Text × (CellVal ⊕ Ast)) : Ast :=
  match x.2 with
  | .inl v => .cellVar x.1 v
  | .inr a => .var x.1 a

/-- src/ast/node.rs:14-76: the variants of `Node`, where `rec` is for the trees in them. -/
def nodeAlts (rec : Codec Ast) : List (Codec Ast) :=
  [ctor .bool bool, ctor .date X.date, ctor (fun x => .float x.1 x.2.1 x.2.2) (pair bool (pair (option sign) X.f64)),
   ctor (fun x => .fn x.2.2 x.1 x.2.1) (pair (list text) (pair rec text)), ctor (fun x => .call x.2 x.1) (pair (list rec) text),
   ctor (fun x => .infix x.1 x.2.1 x.2.2) (pair rec (pair text rec)), ctor (fun x => .int x.1 x.2.1 x.2.2) (pair bool (pair (option sign) i64)),
   ctor .ref text, ctor .text text, ctor variableOf (pair text (variableValue X rec))]

/-- Trees of depth at most `n`. -/
def astN : Nat → Codec Ast
  | 0 => ⟨fun _ _ => False, fun _ => none⟩
  | n + 1 => enum (nodeAlts X (astN n))

/-- src/ast/mod.rs:31 `Ast` (`Box<Node>` is written as the node).  Reading is recursive; it goes no deeper than there are bytes. -/
def ast : Codec Ast := ⟨fun a b => ∃ n, (astN X n).enc a b, fun p => (astN X (p.length + 1)).dec p⟩

/-- src/scope/mod.rs:7-11 `Scope`.  The exported names are a set, which the model keeps as a list. -/
def scope : Codec Scope := ctor (fun x => ⟨x.1, x.2.1, x.2.2⟩) (pair (hashMap (ast X)) (pair (hashMap (ast X)) (list text)))

/-- src/rgb/mod.rs:11-16 `Rgb`. -/
def rgb : Codec Rgb := ctor (fun x => ⟨x.1, x.2.1, x.2.2⟩) (pair u8 (pair u8 u8))

/-- src/cell_options/border_side.rs:9-15 `BorderSide`. -/
def borderSide : Codec BorderSide := enum [bare .all, bare .top, bare .bottom, bare .left, bare .right]
/-- src/cell_options/border_style.rs:7-15 `BorderStyle`. -/
def borderStyle : Codec BorderStyle := enum [bare .dashed, bare .dotted, bare .double, bare .solid, bare .solidMedium, bare .solidThick]
/-- src/cell_options/horizontal_align.rs:6-11 `HorizontalAlign`. -/
def hAlign : Codec HAlign := enum [bare .center, bare .left, bare .right]
/-- src/cell_options/vertical_align.rs:7-12 `VerticalAlign`. -/
def vAlign : Codec VAlign := enum [bare .bottom, bare .center, bare .top]
/-- src/cell_options/number_format.rs:6-16 `NumberFormat`. -/
def numFmt : Codec NumFmt :=
  enum [bare .currency, bare .date, bare .datetime, bare .number, bare .percent, bare .text, bare .time, bare .scientific]
/-- src/cell_options/text_format.rs:6-11 `TextFormat`. -/
def textFmt : Codec TextFmt := enum [bare .bold, bare .italic, bare .strikethrough, bare .underline]
/-- src/cell_options/text_wrap.rs:6-11 `TextWrap`. -/
def wrap : Codec Wrap := enum [bare .wrap, bare .overflow, bare .clip]

/-- src/cell_options/data_validation.rs:11-36 `DataValidation`. -/
def validation : Codec Validation :=
  enum [ctor .custom text, ctor .dateAfter X.date, ctor .dateBefore X.date, ctor (fun x => .dateBetween x.1 x.2) (pair X.date X.date), ctor .dateEqualTo X.date,
    bare .dateIsValid, ctor (fun x => .dateNotBetween x.1 x.2) (pair X.date X.date), ctor .dateOnOrAfter X.date, ctor .dateOnOrBefore X.date,
    ctor (fun x => .numberBetween x.1 x.2) (pair i64 i64), ctor .numberEqualTo i64, ctor .numberGreaterThan i64, ctor .numberGreaterThanOrEqualTo i64,
    ctor .numberLessThan i64, ctor .numberLessThanOrEqualTo i64, ctor (fun x => .numberNotBetween x.1 x.2) (pair i64 i64), ctor .numberNotEqualTo i64,
    ctor .textContains text, ctor .textDoesNotContain text, ctor .textEqualTo text, bare .textIsValidEmail, bare .textIsValidUrl,
    ctor .valueInList (list (ast X)), ctor .valueInRange X.a1]

/-- csvp/src/source_position.rs:5-8 `SourcePosition`. -/
def srcPos : Codec Csvp.SrcPos := ctor (fun x => ⟨x.1, x.2⟩) (pair (le 8) (le 8))

/-- csvp/src/field.rs:4-16 `Field`. -/
def field : Codec Csvp.Field :=
  ctor (fun x => ⟨⟨x.1.x, x.1.y⟩, x.2.1, x.2.2⟩) (pair X.addr (pair text (list srcPos)))

/-- The options that src/cell/mod.rs:17-37 and src/row/mod.rs:12-31 have first. -/
def opts₁ : Codec (Option Rgb × BorderStyle × (BorderSide → Bool) × Option Rgb × Option Validation) :=
  pair (option rgb) (pair borderStyle (pair (hashSet borderSide) (pair (option rgb) (option (validation X)))))

/-- The options that src/cell/mod.rs:17-37 and src/row/mod.rs:12-31 have last. -/
def opts₂ : Codec (Option Rgb × Option Text × Option UInt8 × HAlign × Bool × Option Text × NumFmt × (TextFmt → Bool) × Wrap × Option Text × VAlign) :=
  pair (option rgb) (pair (option text) (pair (option u8) (pair hAlign (pair bool (pair (option text) (pair numFmt (pair (hashSet textFmt)
    (pair wrap (pair (option text) vAlign)))))))))

/-- The options together. -/
def optsOf (x : Option Rgb × BorderStyle × (BorderSide → Bool) × Option Rgb × Option Validation)
    (y : Option Rgb × Option Text × Option UInt8 × HAlign × Bool × Option Text × NumFmt × (TextFmt → Bool) × Wrap × Option Text × VAlign) : Opts where
  borderColor := x.1
  borderStyle := x.2.1
  borders := x.2.2.1
  color := x.2.2.2.1
  validation := x.2.2.2.2
  fontColor := y.1
  fontFamily := y.2.1
  fontSize := y.2.2.1
  halign := y.2.2.2.1
  lock := y.2.2.2.2.1
  note := y.2.2.2.2.2.1
  numFmt := y.2.2.2.2.2.2.1
  textFmts := y.2.2.2.2.2.2.2.1
  wrap := y.2.2.2.2.2.2.2.2.1
  var := y.2.2.2.2.2.2.2.2.2.1
  valign := y.2.2.2.2.2.2.2.2.2.2

/-- src/cell/mod.rs:17-37 `Cell`. -/
def cell : Codec Cell.Cell :=
  ctor (fun x => ⟨x.1, x.2.1, x.2.2.1, optsOf x.2.2.2.1 x.2.2.2.2⟩) (pair (option (ast X)) (pair (field X) (pair text (pair (opts₁ X) opts₂))))

/-- src/row/mod.rs:12-31 `Row`. -/
def row : Codec Row :=
  ctor (fun x => ⟨optsOf x.2.1 x.2.2.2, x.2.2.1, x.1⟩) (pair (list (cell X)) (pair (opts₁ X) (pair (option (fill X)) opts₂)))

/-- src/spreadsheet/mod.rs:13-16 `Spreadsheet`. -/
def sheet : Codec Sheet := ctor (fun x => ⟨x.1, x.2⟩) (pair (list (row X)) bool)

/-- src/module_path/mod.rs:9-11 `ModulePath`. -/
def mpath : Codec MPath := list text

/-- src/source_code/mod.rs:19-27 `SourceCode` (src/source_code/arc_source_code.rs:5-6: an `Arc` is written as what it points to) of a source text; the file name is a
text.  Of what is read, the model keeps the text. -/
def source : Codec Text :=
  let c := pair text (pair (le 8) (pair (le 8) (pair (le 8) (pair (option text) (pair text text)))))
  ⟨fun t b => ∃ filename, c.enc (filename, (Source.SourceCode.new t).lines, (Source.SourceCode.new t).lenCode, (Source.SourceCode.new t).lenCsv,
      (Source.SourceCode.new t).code, (Source.SourceCode.new t).csv, t) b,
   fun p => (c.dec p).map fun x => (x.1.2.2.2.2.2.2, x.2)⟩

/-- src/module/mod.rs:22-32 `Module`.  The module path is the name of the file in the model. -/
def module : Codec (Module Text) :=
  ctor (fun x => ⟨x.1, x.2.2.2.2.1, x.2.2.1, x.2.2.2.1, x.2.2.2.2.2.1, x.2.2.2.2.2.2.1, x.2.2.2.2.2.2.2⟩)
    (pair X.version (pair mpath (pair (scope X) (pair (sheet X) (pair (list mpath) (pair source (pair bool bool)))))))

/-- The same module, but for the order in which the exported names, which are a set, are listed. -/
def SameModule (m m' : Module Text) : Prop :=
  (∀ k, k ∈ m.scope.exports ↔ k ∈ m'.scope.exports) ∧ m' = { m with scope := { m.scope with exports := m'.scope.exports } }

/-- src/module/mod.rs:184-204: `b` can be written for the module `m`: sets and maps are written in any order. -/
def ObjectFile (m : Module Text) (b : Bytes) : Prop := ∃ m', SameModule m m' ∧ m'.scope.exports.Nodup ∧ (module X).enc m' b

/-- src/module/mod.rs:78-103: what is read from an object file; `none` if it is not one.  Bytes that follow are ignored. -/
def readObject (b : Bytes) : Option (Module Text) := ((module X).dec b).map (·.1)

end
end Verif.Object
