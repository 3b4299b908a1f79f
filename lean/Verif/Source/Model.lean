import Verif.Text
/-
Model of `SourceCode` (src/source_code/mod.rs) and of the error excerpt (src/source_code/errors.rs).
-/
namespace Verif.Source
open Verif

/-- `strip_suffix('\r')` as done by Rust's `str::lines` on a newline-terminated line. -/
def stripCr (l : Text) : Text := if l.getLast? = some '\r' then l.dropLast else l

/-- Rust `str::lines` (used in src/source_code/mod.rs:42,45,60 and src/source_code/errors.rs:88): split
at newlines, a carriage return directly before the newline is dropped, a final empty piece is not a
line.  `cur` is the line being collected. -/
def rlinesFrom : Text → Text → List Text
  | cur, [] => if cur = [] then [] else [cur]
  | cur, c :: cs => if c = '\n' then stripCr cur :: rlinesFrom [] cs else rlinesFrom (cur ++ [c]) cs

def rlines (t : Text) : List Text := rlinesFrom [] t

/-- The regular expression `^\s*---\s*$` of src/source_code/mod.rs:43 (`\s` is Unicode white space). -/
def isSepLine (l : Text) : Bool := trim l == ['-', '-', '-']

/-- Rust `[String]::join("\n")` (src/source_code/mod.rs:55-56). -/
def joinNl (ls : List Text) : Text := List.intercalate ['\n'] ls

/-- src/source_code/mod.rs:19-27 `SourceCode` (file name omitted). -/
structure SourceCode where
  lines : Nat
  lenCode : Nat
  lenCsv : Nat
  code : Option Text
  csv : Text
  original : Text
deriving DecidableEq, Repr

/-- src/source_code/mod.rs:34-72 `SourceCode::new`. -/
def SourceCode.new (input : Text) : SourceCode :=
  match (rlines input).findIdx? isSepLine with
  | some p =>
    let ls := rlines input
    let csvLines := ls.drop (p + 1)
    let codeLines := ls.take p
    { lines := ls.length, lenCode := codeLines.length + 1, lenCsv := csvLines.length,
      csv := joinNl csvLines, code := some (joinNl codeLines), original := input }
  | none =>
    let n := (rlines input).length
    { lines := n, lenCode := 0, lenCsv := n, csv := input, code := none, original := input }

/-- A rendered excerpt line: its number in the gutter (none for the caret line) and its text.  The
terminal colours and the padding of the gutter are not modelled. -/
structure Entry where
  num : Option Nat
  text : Text
deriving DecidableEq, Repr

/-- src/source_code/errors.rs:11. -/
def contextLines : Nat := 3

/-- src/source_code/errors.rs:134-148: number the lines, except the one at index `skip`. -/
def numberLines (skip : Nat) : Nat → Nat → List Text → List Entry
  | _, _, [] => []
  | i, count, l :: ls =>
    if i = skip then ⟨none, l⟩ :: numberLines skip (i + 1) count ls
    else ⟨some (count + 1), l⟩ :: numberLines skip (i + 1) (count + 1) ls

/-- src/source_code/errors.rs:83-149 `highlight_line`, for the lines of the original text. -/
def highlight (lines : List Text) (lineNumber lineOffset : Nat) : List Entry :=
  if h : lineNumber ≥ lines.length then []
  else
    let start := lineNumber - contextLines
    let stop := min lines.length (lineNumber + contextLines + 1)
    let out := (lines.take lineNumber).drop start ++ [lines[lineNumber]]
    let skip := out.length
    let out := out ++ [List.replicate lineOffset '-' ++ ['^']]
    let out := out ++ (lines.take stop).drop (lineNumber + 1)
    numberLines skip 0 start out

end Verif.Source
