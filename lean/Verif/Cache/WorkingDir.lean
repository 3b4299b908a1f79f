import Verif.Cache.Model
import Verif.Target.Run
/-
C91: the working directory.  An object file has the name of its source file as it was given (src/source_code/mod.rs:20 `filename`), relative to the directory in
which the compiler was run.  This file models loading with that name; Verif.Cache.Model is about the case where the name is right.

Not modelled: symbolic links, and object files that cannot be read but exist (they are like none).  A `use` names one component without dots (C73).
-/
namespace Verif.Cache
open Verif.Ast Verif.Loader Verif.Sheet
open Verif.Target (Path FileName sourceFile)

/-! ## Files by their place -/

/-- One component further. -/
def goto (d : List Text) (c : Text) : List Text :=
  if c = ['.', '.'] then d.dropLast else if c = ['.'] then d else d ++ [c]

/-- The place of a path that is given in the directory `cwd`: the directories from the root on, and the name. -/
def locate (cwd : List Text) (p : Path) : List Text := p.comps.foldl goto (if p.root then [] else cwd)

/-- A module with the name of its source file. -/
structure Stored (C : Type) where
  module : Module C
  filename : Path

/-- The files of all directories, with their modification times. -/
structure Disk (C : Type) where
  src : List Text → Option (C × Nat)
  obj : List Text → Option (Stored C × Nat)

/-- src/source_code/mod.rs:74-78 `object_code_filename`. -/
def objectName (p : Path) : Path := p.setExtension "csvpo".toList

/-- The name of a module that a `use` can name. -/
def plainName : MPath → Option Text
  | [n] => if n ≠ [] ∧ '/' ∉ n ∧ '.' ∉ n then some n else none
  | _ => none

section
variable {C : Type} (parse : C → Except LoadError Parsed) (version : Nat) (disk : Disk C) (cwd : List Text)

/-- src/module/mod.rs:119-145 `load_from_source_from_filename`. -/
def readSource (p : Path) : Except LoadError (Stored C) :=
  match disk.src (locate cwd p) with
  | none => .error []
  | some (c, _) =>
    match parse c with
    | .error e => .error e
    | .ok m => .ok ⟨⟨version, m.required, m.scope, m.sheet, c, false, true⟩, p⟩

/-- src/module/mod.rs:214-263 `check_if_is_dirty`: the times are those of the files that the module says it is from. -/
def checkStored (s : Stored C) : Except LoadError (Stored C) :=
  match disk.obj (locate cwd (objectName s.filename)) with
  | none => .error []
  | some (_, t) =>
    match disk.src (locate cwd s.filename) with
    | none => .error []
    | some (_, t') =>
      if t' > t then .ok ⟨{ s.module with dirty := true, needsEval := true }, s.filename⟩
      else .ok ⟨{ s.module with dirty := decide (version < s.module.version) }, s.filename⟩

/-- src/module/mod.rs:147-163 `load_from_cache_from_filename`: the main module. -/
def readMain (input : Path) : Except LoadError (Stored C) :=
  match disk.obj (locate cwd (objectName input)) with
  | none => readSource parse version disk cwd input
  | some (s, _) =>
    match checkStored version disk cwd s with
    | .error e => .error e
    | .ok s' => if s'.module.dirty then readSource parse version disk cwd input else .ok s'

/-- src/module/mod.rs:165-182 `load_from_cache`, src/module_loader/mod.rs:313-317: a dependency. -/
def readDep (useCache : Bool) (input : Path) (mainPath p : MPath) : Except LoadError (Stored C) :=
  match plainName p with
  | none => .error []
  | some _ =>
    if useCache then
      match disk.obj (locate cwd (objectName (sourceFile input p mainPath))) with
      | none => readSource parse version disk cwd (sourceFile input p mainPath)
      | some (s, _) => checkStored version disk cwd s
    else readSource parse version disk cwd (sourceFile input p mainPath)

end

/-- src/compiler/mod.rs:47-73 `compile`, when loading the main module gives `load` and loading dependencies is `fetch`: the outcome, the dependencies that were
evaluated, and the main module if it was evaluated (see `compile_iff`). -/
inductive CompileWith {C : Type} (load : Except LoadError (Module C)) (fetch : MPath → Except LoadError Mod) (kv : Text → Option Ast) (mainPath : MPath) :
    COut → List (MPath × Scope) → Option (Module C) → Prop
  | main {e} : load = .error e → CompileWith load fetch kv mainPath .error [] none
  | deps {main w lo o} : load = .ok main → LoadMainW fetch mainPath main.toMod w lo → LOut.failure lo = some o → CompileWith load fetch kv mainPath o w none
  | cached {main w sc} : load = .ok main → LoadMainW fetch mainPath main.toMod w (.ok sc) → main.needsEval = false →
      CompileWith load fetch kv mainPath (.ok main.sheet) w none
  | fills {main w sc} : load = .ok main → LoadMainW fetch mainPath main.toMod w (.ok sc) → main.needsEval = true → evalFills main.sheet = none →
      CompileWith load fetch kv mainPath .error w none
  | cell {main w sc pos e} : load = .ok main → LoadMainW fetch mainPath main.toMod w (.ok sc) → main.needsEval = true →
      EvalSheet sc kv main.sheet (.err pos e) → CompileWith load fetch kv mainPath .error w none
  | eval {main w sc s₁ sheet own e own' rows} : load = .ok main → LoadMainW fetch mainPath main.toMod w (.ok sc) → main.needsEval = true →
      evalFills main.sheet = some s₁ → IsEnum sheet (sheetVars s₁) → IsEnum own sc.variables → IsEnum e kv →
      IsEnum own' (mergeVariables sc sheet own).variables → EvalRows (evalScope sc sheet own e own') s₁.rows (.ok rows) →
      CompileWith load fetch kv mainPath (.ok ⟨rows, s₁.expanded⟩) w
        (some ⟨main.version, main.required, evalScope sc sheet own e own', ⟨rows, s₁.expanded⟩, main.source, false, false⟩)

section
variable {C : Type} (parse : C → Except LoadError Parsed) (version : Nat) (disk : Disk C) (cwd : List Text)

/-- src/module/mod.rs:184-204 `write_object_file`: where the module is written, and what. -/
def writtenAt (s : Stored C) : List Text × Stored C := (locate cwd (objectName s.filename), s)

/-- The object files of the dependencies. -/
def writtenDep (useCache : Bool) (input : Path) (mainPath : MPath) (e : MPath × Scope) : List (List Text × Stored C) :=
  if useCache then
    match readDep parse version disk cwd useCache input mainPath e.1 with
    | .ok s => [writtenAt cwd ⟨{ s.module with scope := e.2 }, s.filename⟩]
    | .error _ => []
  else []

/-- The object file of the main module. -/
def writtenMain (useCache : Bool) (input : Path) (m : Option (Module C)) : List (List Text × Stored C) :=
  if useCache then
    match m, readMain parse version disk cwd input with
    | some m, .ok s => [writtenAt cwd ⟨m, s.filename⟩]
    | _, _ => []
  else []

/-- A run in the directory `cwd` with the file `input`, whose module path is `mainPath`: the outcome, and what is written where. -/
def CompileAt (useCache : Bool) (kv : Text → Option Ast) (input : Path) (mainPath : MPath) (o : COut) (writes : List (List Text × Stored C)) : Prop :=
  ∃ w m, CompileWith ((readMain parse version disk cwd input).map Stored.module)
      (fun p => (readDep parse version disk cwd useCache input mainPath p).map fun s => s.module.toMod) kv mainPath o w m ∧
    writes = w.flatMap (writtenDep parse version disk cwd useCache input mainPath) ++ writtenMain parse version disk cwd useCache input m

end

/-- The files after object files have been written at time `t`. -/
def Disk.writeAll {C : Type} (disk : Disk C) (t : Nat) (w : List (List Text × Stored C)) : Disk C :=
  w.foldl (fun d e => ⟨d.src, fun q => if q = e.1 then some (e.2, t) else d.obj q⟩) disk

/-! ## Specification -/

/-- The name of a module: it can be used. -/
def Plain (n : Text) : Prop := n ≠ [] ∧ '/' ∉ n ∧ '.' ∉ n

/-- The source and object files of the module `n` in the directory `d`. -/
def srcAt (d : List Text) (n : Text) : List Text := d ++ [n ++ ".csvpp".toList]
def objAt (d : List Text) (n : Text) : List Text := d ++ [n ++ ".csvpo".toList]

/-- The path `input`, given in the directory `cwd`, is the file `n.csvpp` in the directory `d`. -/
def IsFile (cwd : List Text) (input : Path) (d : List Text) (n : Text) : Prop :=
  ∃ root dirs, input = ⟨root, dirs ++ [n ++ ".csvpp".toList]⟩ ∧ locate cwd ⟨root, dirs⟩ = d

/-- The object files in the directory `d` have names of source files that are right when they are read in the directory `cwd`. -/
def NamesRight {C : Type} (disk : Disk C) (cwd d : List Text) : Prop := ∀ n s t, Plain n → disk.obj (objAt d n) = some (s, t) → IsFile cwd s.filename d n

/-- The modules of the directory `d`, as Verif.Cache.Model sees them. -/
def view {C : Type} (disk : Disk C) (d : List Text) : FS C :=
  ⟨fun p => match plainName p with
    | none => none
    | some n => disk.src (srcAt d n),
   fun p => match plainName p with
    | none => none
    | some n => (disk.obj (objAt d n)).map fun s => (s.1.module, s.2)⟩

end Verif.Cache
