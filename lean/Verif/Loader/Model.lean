import Verif.Ast.Model
/-
Model of the multithreaded loading of modules: src/module_loader/mod.rs:284-332.

The threads run interleaved, one atomic step of one thread at a time; every critical section of the code
(holding one of the three locks) is one step.  Reading a module (from its source or its object file) is
the function `fetch`: the files do not change while modules are loaded, and the file name of a module does
not depend on the module that requires it (see Verif/Paths: a `use` names one component).  A thread that
cannot be created and a poisoned lock are not modelled.
-/
namespace Verif.Loader
open Verif.Ast

/-- src/module_path/mod.rs:11 `ModulePath`. -/
abbrev MPath := List Text

/-- src/module/mod.rs:22-32 `Module`, without the sheet and the source, which loading does not look at. -/
structure Mod where
  required : List MPath
  scope : Scope
  dirty : Bool
  needsEval : Bool

/-- The error of a module that cannot be loaded. -/
abbrev LoadError := Text

/-- Where a thread running `load_module` (src/module_loader/mod.rs:312-332) is. -/
inductive Phase where
  /-- line 313: created, the module not yet read -/
  | start
  /-- line 319: the module read -/
  | fetched (r : Except LoadError Mod)
  /-- line 303-307: waiting in `thread::scope` for the `count` threads from `first` on -/
  | joining (m : Mod) (first count : Nat)
  /-- line 331 -/
  | done

/-- src/module_loader/mod.rs:24-33: the shared state, and the threads.  `reads` is a ghost variable: the
modules read so far. -/
structure St where
  attempted : List MPath
  loaded : List (MPath × Mod)
  failed : List (MPath × LoadError)
  reads : List MPath
  threads : List (MPath × Phase)

/-- src/module_loader/mod.rs:288-299: reserve the modules that nobody has reserved; the set `attempted`
after it and the set `to_attempt`. -/
def reserve (attempted : List MPath) : List MPath → List MPath × List MPath
  | [] => (attempted, [])
  | p :: ps =>
    if p ∈ attempted then reserve attempted ps
    else ((reserve (p :: attempted) ps).1, p :: (reserve (p :: attempted) ps).2)

/-- src/module_loader/mod.rs:76, 284-309: the state when the main thread has reserved the dependencies of
the main module and waits for their threads. -/
def init (main : Mod) : St :=
  ⟨(reserve [] main.required).1, [], [], [], (reserve [] main.required).2.map fun p => (p, .start)⟩

/-- One step of one thread. -/
inductive Step (fetch : MPath → Except LoadError Mod) : St → St → Prop
  /-- lines 313-317: read the module -/
  | read {s : St} {i p} : s.threads[i]? = some (p, .start) →
      Step fetch s { s with reads := p :: s.reads, threads := s.threads.set i (p, .fetched (fetch p)) }
  /-- line 327: record the failure -/
  | fail {s : St} {i p e} : s.threads[i]? = some (p, .fetched (.error e)) →
      Step fetch s { s with failed := (p, e) :: s.failed, threads := s.threads.set i (p, .done) }
  /-- lines 323, 285-306: reserve the dependencies of the module and create their threads -/
  | spawn {s : St} {i p m} : s.threads[i]? = some (p, .fetched (.ok m)) →
      Step fetch s { s with
        attempted := (reserve s.attempted m.required).1
        threads := s.threads.set i (p, .joining m s.threads.length (reserve s.attempted m.required).2.length) ++
          (reserve s.attempted m.required).2.map fun q => (q, .start) }
  /-- lines 307, 324: when they have ended, record the module -/
  | insert {s : St} {i p m first count} : s.threads[i]? = some (p, .joining m first count) →
      (∀ j, first ≤ j → j < first + count → ∃ q, s.threads[j]? = some (q, .done)) →
      Step fetch s { s with loaded := (p, m) :: s.loaded, threads := s.threads.set i (p, .done) }

/-- `n` steps. -/
inductive Steps (fetch : MPath → Except LoadError Mod) : St → Nat → St → Prop
  | refl {s} : Steps fetch s 0 s
  | tail {s t u n} : Steps fetch s n t → Step fetch t u → Steps fetch s (n + 1) u

/-- src/module_loader/mod.rs:303-307: the main thread continues when its threads, and so all threads, have
ended. -/
def Finished (s : St) : Prop := ∀ t ∈ s.threads, t.2 = .done

end Verif.Loader
