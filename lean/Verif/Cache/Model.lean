import Verif.Loader.Deps
import Verif.Sheet.Model
/-
Model of compilation with object files: src/module/mod.rs:69-263, src/compiler/mod.rs:28-73 and the object
files written by src/module_loader/mod.rs:269-272.

Files are named by module paths (a module `a` has the source `a.csvpp` and the object file `a.csvpo`); an
object file that cannot be deserialized is like none.  A compilation reads the files at one time and writes
its object files at one later time.  The parser is the parameter `parse`: any function from the contents of a
source file.  The versions are numbers, in the order of semver.  Not modelled: compiling with a different
working directory than the one an object file was written in, errors writing object files, and aliasing
of names (a main file with an extension other than csvpp).
-/
namespace Verif.Cache
open Verif.Ast Verif.Loader Verif.Sheet

/-- What parsing a source file gives (src/module/mod.rs:125-133). -/
structure Parsed where
  required : List MPath
  scope : Scope
  sheet : Sheet

/-- src/module/mod.rs:23-32 `Module`.  `C` is the type of the contents of source files. -/
structure Module (C : Type) where
  version : Nat
  required : List MPath
  scope : Scope
  sheet : Sheet
  source : C
  dirty : Bool
  needsEval : Bool

/-- The part of a module that the loader looks at. -/
def Module.toMod {C : Type} (m : Module C) : Mod := ⟨m.required, m.scope, m.dirty, m.needsEval⟩

/-- The files: sources and object files with their modification times. -/
structure FS (C : Type) where
  src : MPath → Option (C × Nat)
  obj : MPath → Option (Module C × Nat)

section
variable {C : Type} (parse : C → Except LoadError Parsed) (version : Nat)

/-- src/module/mod.rs:119-145 `load_from_source_from_filename`. -/
def loadSource (fs : FS C) (p : MPath) : Except LoadError (Module C) :=
  match fs.src p with
  | none => .error []
  | some (c, _) =>
    match parse c with
    | .error e => .error e
    | .ok m => .ok ⟨version, m.required, m.scope, m.sheet, c, false, true⟩

/-- src/module/mod.rs:214-263 `check_if_is_dirty` for the module of an object file written at time `t`. -/
def checkDirty (fs : FS C) (p : MPath) (m : Module C) (t : Nat) : Except LoadError (Module C) :=
  match fs.src p with
  | none => .error []
  | some (_, t') =>
    if t' > t then .ok { m with dirty := true, needsEval := true }
    else .ok { m with dirty := decide (version < m.version) }

/-- src/module/mod.rs:147-163 `load_from_cache_from_filename`: the main module. -/
def loadMainModule (fs : FS C) (p : MPath) : Except LoadError (Module C) :=
  match fs.obj p with
  | none => loadSource parse version fs p
  | some (m, t) =>
    match checkDirty version fs p m t with
    | .error e => .error e
    | .ok m' => if m'.dirty then loadSource parse version fs p else .ok m'

/-- src/module/mod.rs:165-182 `load_from_cache`: a dependency. -/
def loadCached (fs : FS C) (p : MPath) : Except LoadError (Module C) :=
  match fs.obj p with
  | none => loadSource parse version fs p
  | some (m, t) => checkDirty version fs p m t

/-- src/module_loader/mod.rs:313-317: how a dependency is read. -/
def loadDep (useCache : Bool) (fs : FS C) (p : MPath) : Except LoadError (Module C) :=
  if useCache then loadCached parse version fs p else loadSource parse version fs p

/-- What the loader sees of a dependency. -/
def fetchOf (useCache : Bool) (fs : FS C) (p : MPath) : Except LoadError Mod :=
  (loadDep parse version useCache fs p).map Module.toMod

/-- src/module_loader/mod.rs:246-275: `EvalDeps` with the modules written to object files, in order, with
their scopes. -/
inductive EvalDepsW : List MPath → List (MPath × Mod) → List (MPath × Scope) → List (MPath × Scope) → DepsOut → Prop
  | nil {loaded scopes} : EvalDepsW [] loaded scopes [] (.ok loaded)
  | skip {p ps loaded scopes w o} : loaded.lookup p = none → EvalDepsW ps loaded scopes w o →
      EvalDepsW (p :: ps) loaded scopes w o
  | evaled {p ps loaded scopes w o m} : loaded.lookup p = some m → m.needsEval = false → EvalDepsW ps loaded scopes w o →
      EvalDepsW (p :: ps) loaded scopes w o
  | missing {p ps loaded scopes m} : loaded.lookup p = some m → m.needsEval = true →
      mergeReqs scopes m.scope m.required.reverse = none → EvalDepsW (p :: ps) loaded scopes [] .missing
  | err {p ps loaded scopes m sc e} : loaded.lookup p = some m → m.needsEval = true →
      mergeReqs scopes m.scope m.required.reverse = some sc → EvalScope sc (.err e) →
      EvalDepsW (p :: ps) loaded scopes [] (.err e)
  | panic {p ps loaded scopes m sc} : loaded.lookup p = some m → m.needsEval = true →
      mergeReqs scopes m.scope m.required.reverse = some sc → EvalScope sc .panic →
      EvalDepsW (p :: ps) loaded scopes [] .panic
  | eval {p ps loaded scopes m sc sc' w o} : loaded.lookup p = some m → m.needsEval = true →
      mergeReqs scopes m.scope m.required.reverse = some sc → EvalScope sc (.ok sc') →
      EvalDepsW ps (setScope loaded p sc') ((p, sc') :: scopes) w o →
      EvalDepsW (p :: ps) loaded scopes ((p, sc') :: w) o

/-- src/module_loader/mod.rs:86-90: what follows the evaluation of the dependencies. -/
inductive Finish (main : Mod) (failed : List (MPath × LoadError)) : DepsOut → LOut → Prop
  | err {e} : Finish main failed (.err e) (.err e)
  | panic : Finish main failed .panic .panic
  | missing : Finish main failed .missing .panic
  | failures {l} : failed ≠ [] → Finish main failed (.ok l) (.loadErrors failed)
  | unwrapNone {l} : failed = [] → mergeDirect main.scope l main.required = none → Finish main failed (.ok l) .panic
  | ok {l sc} : failed = [] → mergeDirect main.scope l main.required = some sc → Finish main failed (.ok l) (.ok sc)

/-- src/module_loader/mod.rs:56-91 `load_main`, with what is written to object files when it uses them (see
`loadMainW_iff`). -/
inductive LoadMainW (fetch : MPath → Except LoadError Mod) (mainPath : MPath) (main : Mod) : List (MPath × Scope) → LOut → Prop
  | stuck {n s it p} : Steps fetch (init main) n s → Finished s → it.Perm s.loaded →
      Marked (dependencyGraph mainPath main.required it) it p → LoadMainW fetch mainPath main [] .stuck
  | eval {n s it order w d o} : Steps fetch (init main) n s → Finished s → it.Perm s.loaded →
      (∀ p, ¬ Marked (dependencyGraph mainPath main.required it) it p) →
      Tarjan (dependencyGraph mainPath main.required it) order →
      EvalDepsW (order.filterMap ((dependencyGraph mainPath main.required it).nodes[·]?)) it (it.map fun e => (e.1, e.2.scope)) w d →
      Finish main s.failed d o → LoadMainW fetch mainPath main w o

/-- What a compilation can end with: the sheet that is output, an error, a panic, or nothing. -/
inductive COut where
  | ok (sheet : Sheet)
  | error
  | panic
  | stuck

/-- src/module_loader/mod.rs:270-272: the module that is written for a dependency whose evaluated scope is
`sc`. -/
def written (useCache : Bool) (fs : FS C) (e : MPath × Scope) : List (MPath × Module C) :=
  if useCache then
    match loadDep parse version useCache fs e.1 with
    | .ok m => [(e.1, { m with scope := e.2 })]
    | .error _ => []
  else []

/-- The outcome of the loader when it does not succeed. -/
def LOut.failure : LOut → Option COut
  | .ok _ => none
  | .loadErrors _ => some .error
  | .err _ => some .error
  | .panic => some .panic
  | .stuck => some .stuck

/-- src/compiler/mod.rs:47-73 `compile` with the values `kv` given with `-k`; the list is what is written to
object files, in order. -/
inductive Compile (useCache : Bool) (kv : Text → Option Ast) (fs : FS C) (mainPath : MPath) : COut → List (MPath × Module C) → Prop
  /-- line 48: the main module cannot be loaded -/
  | main {e} : loadMainModule parse version fs mainPath = .error e → Compile useCache kv fs mainPath .error []
  /-- line 52: its dependencies cannot be -/
  | deps {main w lo o} : loadMainModule parse version fs mainPath = .ok main →
      LoadMainW (fetchOf parse version useCache fs) mainPath main.toMod w lo → LOut.failure lo = some o →
      Compile useCache kv fs mainPath o (w.flatMap (written parse version useCache fs))
  /-- line 67: the object file is used -/
  | cached {main w sc} : loadMainModule parse version fs mainPath = .ok main →
      LoadMainW (fetchOf parse version useCache fs) mainPath main.toMod w (.ok sc) → main.needsEval = false →
      Compile useCache kv fs mainPath (.ok main.sheet) (w.flatMap (written parse version useCache fs))
  /-- line 96: the fills are rejected -/
  | fills {main w sc} : loadMainModule parse version fs mainPath = .ok main →
      LoadMainW (fetchOf parse version useCache fs) mainPath main.toMod w (.ok sc) → main.needsEval = true →
      evalFills main.sheet = none →
      Compile useCache kv fs mainPath .error (w.flatMap (written parse version useCache fs))
  /-- line 97: a cell cannot be evaluated -/
  | cell {main w sc pos e} : loadMainModule parse version fs mainPath = .ok main →
      LoadMainW (fetchOf parse version useCache fs) mainPath main.toMod w (.ok sc) → main.needsEval = true →
      EvalSheet sc kv main.sheet (.err pos e) →
      Compile useCache kv fs mainPath .error (w.flatMap (written parse version useCache fs))
  /-- lines 56-65: the sheet is evaluated (the definition of `EvalSheet`), and the object file written -/
  | eval {main w sc s₁ sheet own e own' rows} : loadMainModule parse version fs mainPath = .ok main →
      LoadMainW (fetchOf parse version useCache fs) mainPath main.toMod w (.ok sc) → main.needsEval = true →
      evalFills main.sheet = some s₁ → IsEnum sheet (sheetVars s₁) → IsEnum own sc.variables → IsEnum e kv →
      IsEnum own' (mergeVariables sc sheet own).variables → EvalRows (evalScope sc sheet own e own') s₁.rows (.ok rows) →
      Compile useCache kv fs mainPath (.ok ⟨rows, s₁.expanded⟩) (w.flatMap (written parse version useCache fs) ++
        if useCache then [(mainPath,
          ⟨main.version, main.required, evalScope sc sheet own e own', ⟨rows, s₁.expanded⟩, main.source, false, false⟩)] else [])

end

/-- src/module/mod.rs:184-204 `write_object_file`, at time `t`. -/
def FS.writeObj {C : Type} (fs : FS C) (t : Nat) (e : MPath × Module C) : FS C :=
  ⟨fs.src, fun p => if p = e.1 then some (e.2, t) else fs.obj p⟩

/-- The object files written by a compilation, at time `t`. -/
def FS.writeAll {C : Type} (fs : FS C) (t : Nat) (w : List (MPath × Module C)) : FS C := w.foldl (fun fs e => fs.writeObj t e) fs

/-- The author saves a source file at time `t`. -/
def FS.edit {C : Type} (fs : FS C) (t : Nat) (p : MPath) (c : C) : FS C :=
  ⟨fun q => if q = p then some (c, t) else fs.src q, fs.obj⟩

end Verif.Cache
