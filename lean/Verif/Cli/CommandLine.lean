import Verif.Cli.Model
import Mathlib.Tactic.Common
/-
The command line: the attributes of src/cli_args.rs and what the documentation of clap 4 (a dependency, not part of /repo) says they mean.

Not modelled: arguments that are not UTF-8, the texts of the messages, and which of several errors is reported.  `--help` and `--version`
end the program with a message like an error does.
-/
namespace Verif.Cli
open Verif.Target hiding MPath

/-- The options of src/cli_args.rs that take no value, and the two that clap adds (`#[command(version, about)]`, line 5). -/
inductive Flag where | backup | noCache | safe | verbose | help | version
deriving DecidableEq, Repr

/-- The options of src/cli_args.rs that take one value. -/
inductive Opt where | sheetId | credentials | output | sheetName | xOffset | yOffset
deriving DecidableEq, Repr

/-- src/cli_args.rs:6-92: what an option takes. -/
inductive Kind where
  | flag (f : Flag)
  | value (o : Opt)
  /-- lines 29-35: `num_args = 0..` -/
  | keys
deriving DecidableEq, Repr

/-- src/cli_args.rs:6-92: the letters (`short` is the first letter of the name unless another is given). -/
def short : Char → Option Kind
  | 'b' => some (.flag .backup)
  | 'g' => some (.value .sheetId)
  | 'k' => some .keys
  | 'o' => some (.value .output)
  | 's' => some (.flag .safe)
  | 'n' => some (.value .sheetName)
  | 'v' => some (.flag .verbose)
  | 'x' => some (.value .xOffset)
  | 'y' => some (.value .yOffset)
  | 'h' => some (.flag .help)
  | 'V' => some (.flag .version)
  | _ => none

/-- src/cli_args.rs:6-92: the names (`long` is the name of the field with `-` for `_`). -/
def longNames : List (Text × Kind) :=
  [("backup".toList, .flag .backup), ("google-sheet-id".toList, .value .sheetId), ("google-account-credentials".toList, .value .credentials),
   ("key-values".toList, .keys), ("no-cache".toList, .flag .noCache), ("output-filename".toList, .value .output), ("safe".toList, .flag .safe),
   ("sheet-name".toList, .value .sheetName), ("verbose".toList, .flag .verbose), ("x-offset".toList, .value .xOffset),
   ("y-offset".toList, .value .yOffset), ("help".toList, .flag .help), ("version".toList, .flag .version)]

/-- src/cli_args.rs:6-92: the option with a name. -/
def long (n : Text) : Option Kind := (longNames.find? (·.1 = n)).map (·.2)

/-- One thing that was asked for. -/
inductive Item where
  | flag (f : Flag)
  | value (o : Opt) (v : Text)
  | keys (vs : List Text)
  | input (p : Text)
deriving DecidableEq, Repr

/-- What the parser of clap waits for. -/
inductive Mode where
  | free
  | need (o : Opt)
  | keys (vs : List Text)
  /-- after `--` -/
  | trailing
deriving DecidableEq, Repr

/-- A value that stands in the same argument as its option. -/
def attached (k : Kind) (v : Text) : Option (List Item × Mode) :=
  match k with
  | .flag _ => none
  | .value o => some ([.value o v], .free)
  | .keys => some ([.keys [v]], .free)

/-- An option with nothing attached. -/
def alone (k : Kind) : List Item × Mode :=
  match k with
  | .flag f => ([.flag f], .free)
  | .value o => ([], .need o)
  | .keys => ([], .keys [])

/-- clap: the letters after one `-`. -/
def cluster : Text → Option (List Item × Mode)
  | [] => some ([], .free)
  | c :: cs =>
    match short c with
    | none => none
    | some (.flag f) => (cluster cs).map fun r => (.flag f :: r.1, r.2)
    | some k =>
      match cs with
      | [] => some (alone k)
      | '=' :: v => attached k v
      | v => attached k v

/-- clap: the text after `--`, up to the first `=`. -/
def longWord (w : Text) : Option (List Item × Mode) :=
  match w.span (· != '=') with
  | (n, []) => (long n).map alone
  | (n, _ :: v) => (long n).bind fun k => attached k v

/-- clap: what is asked for when the parser stops waiting. -/
def close : Mode → Option (List Item)
  | .free => some []
  | .need _ => none
  | .keys vs => some [.keys vs]
  | .trailing => some []

/-- clap: an argument that is not an option (options begin with `-`; `-` alone is none). -/
def plainWord (m : Mode) (t : Text) : List Item × Mode :=
  match m with
  | .free => ([.input t], .free)
  | .need o => ([.value o t], .free)
  | .keys vs => ([], .keys (vs ++ [t]))
  | .trailing => ([.input t], .trailing)

/-- clap: one argument. -/
def word (m : Mode) (t : Text) : Option (List Item × Mode) :=
  if m = .trailing then some (plainWord m t)
  else
    match t with
    | ['-', '-'] => (close m).map fun is => (is, .trailing)
    | '-' :: '-' :: w => (close m).bind fun is => (longWord w).map fun r => (is ++ r.1, r.2)
    | '-' :: c :: w => (close m).bind fun is => (cluster (c :: w)).map fun r => (is ++ r.1, r.2)
    | _ => some (plainWord m t)

/-- clap: all arguments. -/
def items (m : Mode) : List Text → Option (List Item)
  | [] => close m
  | t :: ts => (word m t).bind fun r => (items r.2 ts).map fun is => r.1 ++ is

/-- The values that were given to an option. -/
def valuesOf (o : Opt) (is : List Item) : List Text :=
  is.filterMap fun i => match i with | .value o' v => if o' = o then some v else none | _ => none

/-- How often a flag was given. -/
def countOf (f : Flag) (is : List Item) : Nat := is.countP (· = .flag f)

/-- clap: an option or a flag may be given once. -/
def once (vs : List Text) : Option (Option Text) :=
  match vs with
  | [] => some none
  | [v] => some (some v)
  | _ => none

/-- clap: `ArgAction::SetTrue`. -/
def onceFlag (n : Nat) : Option Bool := if n = 0 then some false else if n = 1 then some true else none

/-- clap: `PathBufValueParser` takes no empty path. -/
def pathValue (v : Text) : Option Path := if v = [] then none else some (Path.ofText v)

/-- `i64::from_str` without the sign. -/
def digitsOf (w : Text) : Option Nat :=
  if w ≠ [] ∧ w.all (fun c => '0' ≤ c ∧ c ≤ '9') then some (w.foldl (fun n c => 10 * n + (c.toNat - '0'.toNat)) 0) else none

/-- clap: `RangedI64ValueParser<u32>` (`i64::from_str`, then the range); overflows of `i64` are out of the range anyway. -/
def numberValue (v : Text) : Option Nat :=
  match v with
  | '-' :: w => (digitsOf w).bind fun n => if n = 0 then some 0 else none
  | '+' :: w => (digitsOf w).bind fun n => if n < 4294967296 then some n else none
  | w => (digitsOf w).bind fun n => if n < 4294967296 then some n else none

/-- A value that may be missing. -/
def optional {α : Type} (f : Text → Option α) : Option Text → Option (Option α)
  | none => some none
  | some v => (f v).map some

/-- The input files that were given. -/
def inputsOf (is : List Item) : List Text := is.filterMap fun i => match i with | .input p => some p | _ => none

/-- clap: `ArgAction::Append`. -/
def keysOf (is : List Item) : List Text := (is.filterMap fun i => match i with | .keys vs => some vs | _ => none).flatten

/-- src/cli_args.rs:6-92 and clap: the fields, if all is in order (`group = "output"`: not both; line 90: the input file is required). -/
def gather (is : List Item) : Option (Args × Option Text) :=
  match onceFlag (countOf .backup is), onceFlag (countOf .noCache is), onceFlag (countOf .safe is), once (valuesOf .sheetId is),
      once (valuesOf .credentials is), (once (valuesOf .output is)).bind (optional pathValue), once (valuesOf .sheetName is),
      (once (valuesOf .xOffset is)).bind (optional numberValue), (once (valuesOf .yOffset is)).bind (optional numberValue), inputsOf is with
  | some backup, some noCache, some safe, some sheetId, some credentials, some output, some sheetName, some x, some y, [p] =>
    if countOf .help is = 0 ∧ countOf .version is = 0 ∧ ¬ (sheetId.isSome ∧ output.isSome) then
      (pathValue p).map fun input =>
        ({ backup, googleSheetId := sheetId, noCache, outputFilename := output, safe, sheetName, verbose := min (countOf .verbose is) 255,
           xOffset := x.getD 0, yOffset := y.getD 0, inputFilename := input, keyValues := keysOf is }, credentials)
    else none
  | _, _, _, _, _, _, _, _, _, _ => none

/-- src/compiler/mod.rs:78-80 `from_cli_args`: `CliArgs::parse()` on the arguments after the name of the program. -/
def parseArgs (words : List Text) : Option (Args × Option Text) := (items .free words).bind gather

end Verif.Cli
