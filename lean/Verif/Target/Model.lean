import Verif.Target.Path
import Verif.Target.Csv
import Verif.Sheet.Model
/-
Model of the targets: src/target/mod.rs, src/target/csv, src/target/file_backer_upper.rs, src/output,
src/config/try_from.rs, src/logger.rs and src/main.rs.  (Excel and Google Sheets are in Excel.lean and Google.lean.)
-/
namespace Verif.Target
open Verif.Cell Verif.Sheet

/-! ### Merging with what is there: src/target/mod.rs -/

/-- src/target/mod.rs:15-19 `ExistingCell`. -/
inductive Existing (V : Type) where
  | value (v : V)
  | empty
deriving DecidableEq, Repr

/-- src/target/mod.rs:44-49 `MergeResult`. -/
inductive Merged (V : Type) where
  | existing (v : V)
  | new (c : Cell)
  | empty

/-- src/target/mod.rs:67-91 `merge_cell`. -/
def mergeCell {V : Type} (overwrite : Bool) (existing : Existing V) (new : Option Cell) : Merged V :=
  match new with
  | some c =>
    match existing with
    | .value v => if overwrite then .new c else .existing v
    | .empty => .new c
  | none =>
    match existing with
    | .value v => .existing v
    | .empty => .empty

/-- src/target/mod.rs:51-65 `merge_rows`. -/
def mergeRows {V : Type} (overwrite : Bool) (existing : List (Existing V)) (row : List Cell) : List (Merged V) :=
  (List.range (max existing.length row.length)).map fun i => mergeCell overwrite ((existing[i]?).getD .empty) row[i]?

/-! ### CSV: src/target/csv -/

/-- src/target/csv/mod.rs:50-63: a record of an existing file. -/
def existingRow (r : List Text) : List (Existing Text) := r.map fun c => if c = [] then .empty else .value c

/-- src/target/csv/mod.rs:34-67 `read`; there may be no file.  (A file that is not UTF-8 is an error; it is not
modelled.) -/
def readExisting (file : Option Text) : List (List (Existing Text)) :=
  match file with
  | none => []
  | some s => (csvRead s).map existingRow

/-- src/target/csv/compilation_target.rs:33-37: the text of a merged cell. -/
def mergedText : Merged Text → Text
  | .new c => c.display
  | .existing v => v
  | .empty => []

/-- `Vec::resize`. -/
def resize (n : Nat) (l : List Text) : List Text := l.take n ++ List.replicate (n - l.length) []

/-- src/target/csv/compilation_target.rs:24-41: the record of a row. -/
def outputRow (overwrite : Bool) (widest : Nat) (existing : List (Existing Text)) (row : Row) : List Text :=
  resize widest ((mergeRows overwrite existing row.cells).map mergedText)

/-- src/target/csv/compilation_target.rs:23-47: the records of the rows from `i` on. -/
def outputRows (overwrite : Bool) (widest : Nat) (existing : List (List (Existing Text))) : Nat → List Row → List (List Text)
  | _, [] => []
  | i, r :: rs => outputRow overwrite widest ((existing[i]?).getD []) r :: outputRows overwrite widest existing (i + 1) rs

/-- src/target/csv/compilation_target.rs:10-55 `write`: the new contents of the file. -/
def writeCsv (overwrite : Bool) (sheet : Sheet) (file : Option Text) : Text :=
  csvWrite (outputRows overwrite (widestRow sheet) (readExisting file) 0 sheet.rows)

/-! ### The target: src/output -/

/-- src/output/mod.rs:12-18 `Output`. -/
inductive Output where
  | csv (p : Path)
  | excel (p : Path)
  | openDocument (p : Path)
  | googleSheets (id : Text)
deriving DecidableEq, Repr

/-- `OsStr::eq_ignore_ascii_case`. -/
def eqIgnoreCase (s t : Text) : Bool := s.map Char.toLower == t.map Char.toLower

/-- src/target/csv/mod.rs:30-32 `supports_extension`. -/
def csvExtension (e : Text) : Bool := eqIgnoreCase e "csv".toList

/-- src/target/excel/mod.rs:33-38 `supports_extension`. -/
def excelExtension (e : Text) : Bool :=
  eqIgnoreCase e "xlsx".toList || eqIgnoreCase e "xlsm".toList || eqIgnoreCase e "xltx".toList || eqIgnoreCase e "xltm".toList

/-- src/target/open_document/mod.rs:34-36 `supports_extension`. -/
def odsExtension (e : Text) : Bool := eqIgnoreCase e "ods".toList

/-- src/output/mod.rs:40-62 `from_filename`; `none` is an error. -/
def fromFilename (p : Path) : Option Output :=
  match p.extension with
  | none => none
  | some e =>
    if csvExtension e then some (.csv p)
    else if excelExtension e then some (.excel p)
    else if odsExtension e then some (.openDocument p)
    else none

/-- src/output/mod.rs:64-72 `from_google_sheet_id`, with `char::is_alphanumeric`. -/
def fromGoogleSheetId (alnum : Char → Bool) (id : Text) : Option Output :=
  if id.all alnum then some (.googleSheets id) else none

/-- src/output/try_from.rs:6-16. -/
def outputOf (alnum : Char → Bool) (googleSheetId : Option Text) (outputFilename : Option Path) : Option Output :=
  match googleSheetId with
  | some id => fromGoogleSheetId alnum id
  | none =>
    match outputFilename with
    | some p => fromFilename p
    | none => none

/-! ### Options: src/cli_args.rs, src/config -/

/-- src/cli_args.rs:6-92 `CliArgs`, without the Google credentials and the `-k` values. -/
structure CliArgs where
  backup : Bool
  googleSheetId : Option Text
  noCache : Bool
  outputFilename : Option Path
  safe : Bool
  sheetName : Option Text
  verbose : Nat
  xOffset : Nat
  yOffset : Nat
  inputFilename : Path

/-- `log::LevelFilter`. -/
inductive Level where | error | warn | info | debug | trace
deriving DecidableEq, Repr

/-- src/logger.rs:4-17 `u8_into_level_filter`. -/
def levelOf : Nat → Option Level
  | 0 => some .error
  | 1 => some .warn
  | 2 => some .info
  | 3 => some .debug
  | 4 => some .trace
  | _ => none

/-- src/config/mod.rs:13-23 `Config`. -/
structure Config where
  backup : Bool
  offset : Nat × Nat
  overwrite : Bool
  sheetName : Text
  useCache : Bool
  verbosity : Level

/-- src/config/mod.rs:35-47 `sheet_name`. -/
def sheetNameOf (a : CliArgs) : Option Text :=
  match a.sheetName with
  | some n => some n
  | none => a.inputFilename.fileStem

/-- src/config/try_from.rs:9-20. -/
def configOf (a : CliArgs) : Option Config :=
  match sheetNameOf a, levelOf a.verbose with
  | some n, some v => some ⟨a.backup, (a.xOffset, a.yOffset), !a.safe, n, !a.noCache, v⟩
  | _, _ => none

/-! ### Backups: src/target/file_backer_upper.rs -/

/-- The contents of the files. -/
abbrev Files (C : Type) := Path → Option C

/-- `files[p] := c`. -/
def Files.set {C : Type} (fs : Files C) (p : Path) (c : C) : Files C := fun q => if q = p then some c else fs q

/-- src/target/file_backer_upper.rs:51-53: the name of a backup. -/
def backupName (parent : Path) (stem ext timestamp : Text) : Path :=
  (parent.join ⟨false, [stem ++ '-' :: timestamp]⟩).setExtension ext

/-- src/target/file_backer_upper.rs:48-66: the loop over the timestamps (in the formats of lines 7-16); `none` is
an error.  `fs::copy` fails if there is no file to copy (other errors of the file system are not modelled). -/
def backupLoop {C : Type} (fs : Files C) (p parent : Path) (stem ext : Text) : List Text → Option (Files C × Path)
  | [] => none
  | t :: ts =>
    let new := backupName parent stem ext t
    if (fs new).isSome then backupLoop fs p parent stem ext ts
    else
      match fs p with
      | none => none
      | some c => some (fs.set new c, new)

/-- src/target/file_backer_upper.rs:23-71 `backup_file` with the four timestamps of the current time. -/
def backupFile {C : Type} (timestamps : List Text) (fs : Files C) (p : Path) : Option (Files C × Path) :=
  match p.fileStem, p.parent, p.extension with
  | some stem, some parent, some ext => backupLoop fs p parent stem ext timestamps
  | _, _, _ => none

/-! ### The program: src/main.rs -/

/-- What a run ends with. -/
inductive Exit where | success | failure | panic
deriving DecidableEq, Repr

/-- What writing a target does to the contents of its file: the contents on the way, and the end. -/
inductive WriteOut (C : Type) where
  | ok (between : List C) (new : C)
  | failed (between : List C)
  | panic

/-- src/main.rs:7-18 `compile_from_cli` for a target that is a file: how it ends and all states of the files on the way,
in order.  `compiled` is the result of the compilation (line 9), `partials c` are the contents of a file on the way to
becoming a copy of `c`, and `write` is how the target is written. -/
def run {C : Type} (timestamps : List Text) (partials : C → List C) (backup : Bool) (target : Path) (compiled : Option Sheet)
    (write : Sheet → Option C → WriteOut C) (fs : Files C) : Exit × List (Files C) :=
  let writing (sheet : Sheet) (fs' : Files C) : Exit × List (Files C) :=
    match write sheet (fs' target) with
    | .panic => (.panic, [])
    | .failed cs => (.failure, cs.map (fs'.set target))
    | .ok cs c => (.success, cs.map (fs'.set target) ++ [fs'.set target c])
  match compiled with
  | none => (.failure, [fs])
  | some sheet =>
    if backup then
      match backupFile timestamps fs target with
      | none => (.failure, [fs])
      | some (fs', new) =>
        let w := writing sheet fs'
        (w.1, fs :: ((match fs target with | none => [] | some c => partials c).map (fs.set new)) ++ fs' :: w.2)
    else
      let w := writing sheet fs
      (w.1, fs :: w.2)

/-- src/target/csv/compilation_target.rs:10-55: the file is truncated and then written in pieces.  `cuts` are the lengths
of what is written after each piece. -/
def csvTarget (overwrite : Bool) (cuts : List Nat) (sheet : Sheet) (file : Option Text) : WriteOut Text :=
  let new := writeCsv overwrite sheet file
  .ok ([] :: cuts.map new.take) new

/-- src/target/open_document/mod.rs:21-23: `todo!()`. -/
def odsTarget {C : Type} (_ : Sheet) (_ : Option C) : WriteOut C := .panic

end Verif.Target
