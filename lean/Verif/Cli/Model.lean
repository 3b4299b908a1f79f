import Verif.Cache.Model
import Verif.Target.Run
/-
Model of the program from its arguments to its files: src/main.rs, src/compiler/try_from.rs and the parsing of a source file
(src/module/mod.rs:119-145), put together from the models of the parts.  The target is a file (CSV in `Main`; workbooks are in
Verif.Cli.Workbook).  The target is not one of the source or object files, and the texts of messages are not modelled.
-/
namespace Verif.Cli
open Verif.Ast Verif.Loader Verif.Sheet Verif.Cache
open Verif.Target hiding MPath

/-- src/cli_args.rs:6-92 `CliArgs` with the `-k` values. -/
structure Args extends CliArgs where
  keyValues : List Text

/-- src/module/mod.rs:127-131: the scope and the required modules of the code section, if there is one. -/
def parseScope (E : Cell.Env) : Option Text → Except Parser.CErr (Scope × List MPath)
  | some code => Parser.parseCode E.uni E.f64 code
  | none => .ok (Scope.empty, [])

/-- src/module/mod.rs:119-145 `load_from_source_from_filename` for the contents of the file.  A panic while parsing a cell is not told
from an error here (see C50). -/
def parseModule (E : Cell.Env) (src : Text) : Except LoadError Parsed :=
  match parseScope E (Source.SourceCode.new src).code with
  | .error _ => .error []
  | .ok (scope, required) =>
    match Sheet.parse E (Source.SourceCode.new src).csv (Source.SourceCode.new src).lenCode with
    | .error _ => .error []
    | .ok sheet => .ok ⟨required, scope, sheet⟩

/-- src/compiler/try_from.rs:9-29: the `-k` values, the options and the target; `none` is an error. -/
def configured (E : Cell.Env) (a : Args) : Option ((Text → Option Ast) × Config × Output) :=
  match Parser.parseKeyValues E.uni E.f64 a.keyValues with
  | none => none
  | some kv =>
    match configOf a.toCliArgs with
    | none => none
    | some c => (outputOf E.alnum a.googleSheetId a.outputFilename).map fun o => (collect kv, c, o)

/-- src/main.rs:7-25 with a target that is a file, written by `write`: how the program ends (`none` if it does not), the states of the files on
the way, and the object files written.  A compilation that ends with an error may have been a panic of the cell parser (see `parseModule`), which also
ends the program unsuccessfully. -/
inductive MainFile {C : Type} (E : Cell.Env) (version : Nat) (timestamps : List Text) (partials : C → List C) (out : Path → Output)
    (write : Config → Sheet → Option C → WriteOut C) (a : Args) (fs : FS Text) (files : Files C) :
    Option Exit → List (Files C) → List (MPath × Module Text) → Prop
  /-- src/main.rs:8 -/
  | badArgs : configured E a = none → MainFile E version timestamps partials out write a fs files (some .failure) [files] []
  /-- src/compiler/mod.rs:37-42 -/
  | noName {kv c p} : configured E a = some (kv, c, out p) → mainModulePath a.inputFilename = none →
      MainFile E version timestamps partials out write a fs files (some .failure) [files] []
  /-- src/main.rs:9: the source does not compile -/
  | failed {kv c p mp w e} : configured E a = some (kv, c, out p) → mainModulePath a.inputFilename = some mp →
      Compile (parseModule E) version c.useCache kv fs mp .error w → e = .failure ∨ e = .panic →
      MainFile E version timestamps partials out write a fs files (some e) [files] w
  /-- src/main.rs:9: the compiler panics -/
  | panics {kv c p mp w} : configured E a = some (kv, c, out p) → mainModulePath a.inputFilename = some mp →
      Compile (parseModule E) version c.useCache kv fs mp .panic w →
      MainFile E version timestamps partials out write a fs files (some .panic) [files] w
  /-- src/main.rs:9: the compiler does not end -/
  | hangs {kv c p mp w} : configured E a = some (kv, c, out p) → mainModulePath a.inputFilename = some mp →
      Compile (parseModule E) version c.useCache kv fs mp .stuck w →
      MainFile E version timestamps partials out write a fs files none [files] w
  /-- src/main.rs:11-15: the target is written -/
  | compiled {kv c p mp w sheet} : configured E a = some (kv, c, out p) → mainModulePath a.inputFilename = some mp →
      Compile (parseModule E) version c.useCache kv fs mp (.ok sheet) w →
      MainFile E version timestamps partials out write a fs files (some (run timestamps partials c.backup p (some sheet) (write c) files).1)
        (run timestamps partials c.backup p (some sheet) (write c) files).2 w

/-- The program with a CSV target (src/target/csv). -/
abbrev Main (E : Cell.Env) (version : Nat) (timestamps : List Text) (partials : Text → List Text) (cuts : List Nat) (a : Args) (fs : FS Text)
    (files : Files Text) : Option Exit → List (Files Text) → List (MPath × Module Text) → Prop :=
  MainFile E version timestamps partials .csv (fun c => csvTarget c.overwrite cuts) a fs files

end Verif.Cli
