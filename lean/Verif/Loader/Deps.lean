import Verif.Loader.Model
/-
Model of what the loader does when the modules are loaded: src/module_loader/mod.rs:75-282.

The external crate `petgraph` (version 0.6.5 in Cargo.lock) is modelled by what it is documented to give:
`all_simple_paths` by the set of its results, `tarjan_scc` by the order of its results.
-/
namespace Verif.Loader
open Verif.Ast

/-- A `petgraph::graph::Graph` (src/module_loader/mod.rs:121): the weights of the nodes by index, and the
edges. -/
structure Graph where
  nodes : List MPath
  edges : List (Nat × Nat)

/-- src/module_loader/mod.rs:121-126: the graph under construction and `loaded_nodes`. -/
structure Build where
  graph : Graph
  index : List (MPath × Nat)

/-- src/module_loader/mod.rs:130-131: add a node for the module, even if it has one. -/
def Build.fresh (b : Build) (p : MPath) : Build :=
  ⟨⟨b.graph.nodes ++ [p], b.graph.edges⟩, (p, b.graph.nodes.length) :: b.index⟩

/-- src/module_loader/mod.rs:138-142, 145-149: the node of the module, which is added if it has none. -/
def Build.node (b : Build) (p : MPath) : Build × Nat :=
  match b.index.lookup p with
  | some i => (⟨b.graph, (p, i) :: b.index⟩, i)
  | none => (b.fresh p, b.graph.nodes.length)

/-- src/module_loader/mod.rs:132, 151. -/
def Build.edge (b : Build) (i j : Nat) : Build := ⟨⟨b.graph.nodes, b.graph.edges ++ [(i, j)]⟩, b.index⟩

/-- src/module_loader/mod.rs:129-133: the direct dependencies. -/
def addDirect (b : Build) (p : MPath) : Build := (b.fresh p).edge 0 b.graph.nodes.length

/-- src/module_loader/mod.rs:144-152: one requirement of the module with node `i`. -/
def addRequired (i : Nat) (b : Build) (p : MPath) : Build := (b.node p).1.edge i (b.node p).2

/-- src/module_loader/mod.rs:135-153: one loaded module. -/
def addLoaded (b : Build) (e : MPath × Mod) : Build :=
  e.2.required.foldl (addRequired (b.node e.1).2) (b.node e.1).1

/-- src/module_loader/mod.rs:117-158 `load_dependency_graph`, for an iteration order of the loaded
modules. -/
def dependencyGraph (mainPath : MPath) (required : List MPath) (loaded : List (MPath × Mod)) : Graph :=
  (loaded.foldl addLoaded (required.foldl addDirect ⟨⟨[mainPath], []⟩, [(mainPath, 0)]⟩)).graph

/-- The nodes of `visited` follow each other along edges. -/
def Chain (g : Graph) : List Nat → Prop
  | i :: j :: l => (i, j) ∈ g.edges ∧ Chain g (j :: l)
  | _ => True

/-- The results of petgraph's `all_simple_paths` from node 0 with at least one intermediate node
(src/module_loader/mod.rs:171-178): the nodes visited on the way, which are different, then the target,
which is not among the intermediate ones; the length is at most the number of nodes (which excludes only
some paths from node 0 to itself). -/
def SimplePath (g : Graph) (target : Nat) (path : List Nat) : Prop :=
  ∃ between, between ≠ [] ∧ path = 0 :: (between ++ [target]) ∧ (0 :: between).Nodup ∧ target ∉ between ∧
    path.length ≤ g.nodes.length ∧ Chain g path

/-- src/module_loader/mod.rs:160-187 `dirty_nodes`: the module is in the set. -/
def Marked (g : Graph) (loaded : List (MPath × Mod)) (p : MPath) : Prop :=
  ∃ target q m path i, g.nodes[target]? = some q ∧ loaded.lookup q = some m ∧ m.dirty = true ∧
    SimplePath g target path ∧ i ∈ path ∧ g.nodes[i]? = some p

/-- What petgraph's `tarjan_scc` (src/module_loader/mod.rs:233-236) is documented to give: all nodes, and
a node after those it has an edge to, unless both are on a cycle. -/
structure Tarjan (g : Graph) (order : List Nat) : Prop where
  all : order.Perm (List.range g.nodes.length)
  before : ∀ i j, (i, j) ∈ g.edges → (¬ ∃ l, Chain g (j :: (l ++ [i]))) → i ≠ j → order.idxOf j < order.idxOf i

/-- src/module_loader/mod.rs:256-264: merge the scopes of the required modules; `none` is the compiler
error (a panic) about a module that has not been loaded.  The exports are visited in the order of the list
(any order gives the same, see `merge_order`). -/
def mergeReqs (scopes : List (MPath × Scope)) (sc : Scope) : List MPath → Option Scope
  | [] => some sc
  | p :: ps =>
    match scopes.lookup p with
    | none => none
    | some d => mergeReqs scopes (sc.merge d d.exports) ps

/-- What evaluating the definitions of a module can end with. -/
inductive DOut where
  | ok (sc : Scope)
  | err (e : EvalError)
  | panic

/-- src/module_loader/mod.rs:36-46 `eval_ast!` for the variables, in the order of the list: each is
evaluated in the scope with the values so far. -/
inductive EvalVars : List (Text × Ast) → Scope → DOut → Prop
  | nil {sc} : EvalVars [] sc (.ok sc)
  | cons {n a b l sc o} : Eval sc none a (.ok b) →
      EvalVars l ⟨sc.functions, fun k => if k = n then some b else sc.variables k, sc.exports⟩ o →
      EvalVars ((n, a) :: l) sc o
  | err {n a e l sc} : Eval sc none a (.err e) → EvalVars ((n, a) :: l) sc (.err e)
  | panic {n a l sc} : Eval sc none a .panic → EvalVars ((n, a) :: l) sc .panic

/-- src/module_loader/mod.rs:36-46 `eval_ast!` for the functions. -/
inductive EvalFns : List (Text × Ast) → Scope → DOut → Prop
  | nil {sc} : EvalFns [] sc (.ok sc)
  | cons {n a b l sc o} : Eval sc none a (.ok b) →
      EvalFns l ⟨fun k => if k = n then some b else sc.functions k, sc.variables, sc.exports⟩ o →
      EvalFns ((n, a) :: l) sc o
  | err {n a e l sc} : Eval sc none a (.err e) → EvalFns ((n, a) :: l) sc (.err e)
  | panic {n a l sc} : Eval sc none a .panic → EvalFns ((n, a) :: l) sc .panic

/-- src/module_loader/mod.rs:266-267: the variables and then the functions, in the iteration orders of
the hash maps. -/
inductive EvalScope (sc : Scope) : DOut → Prop
  | ok {l l' sc' o} : IsEnum l sc.variables → EvalVars l sc (.ok sc') → IsEnum l' sc'.functions → EvalFns l' sc' o →
      EvalScope sc o
  | err {l e} : IsEnum l sc.variables → EvalVars l sc (.err e) → EvalScope sc (.err e)
  | panic {l} : IsEnum l sc.variables → EvalVars l sc .panic → EvalScope sc .panic

/-- What evaluating the dependencies can end with: the loaded modules, an evaluation error, a panic of the
evaluation, or the compiler error (a panic) of line 258. -/
inductive DepsOut where
  | ok (loaded : List (MPath × Mod))
  | err (e : EvalError)
  | panic
  | missing

/-- src/module_loader/mod.rs:247, 266-267: the loaded modules with the scope of one of them changed. -/
def setScope (loaded : List (MPath × Mod)) (p : MPath) (sc : Scope) : List (MPath × Mod) :=
  loaded.map fun e => if e.1 = p then (e.1, { e.2 with scope := sc }) else e

/-- src/module_loader/mod.rs:246-275: the loop of `eval_dependencies` with the loaded modules and the copy
`scopes`.  Writing object files (line 270-272) is modelled in Verif/Cache. -/
inductive EvalDeps : List MPath → List (MPath × Mod) → List (MPath × Scope) → DepsOut → Prop
  | nil {loaded scopes} : EvalDeps [] loaded scopes (.ok loaded)
  | skip {p ps loaded scopes o} : loaded.lookup p = none → EvalDeps ps loaded scopes o →
      EvalDeps (p :: ps) loaded scopes o
  | evaled {p ps loaded scopes o m} : loaded.lookup p = some m → m.needsEval = false → EvalDeps ps loaded scopes o →
      EvalDeps (p :: ps) loaded scopes o
  | missing {p ps loaded scopes m} : loaded.lookup p = some m → m.needsEval = true →
      mergeReqs scopes m.scope m.required.reverse = none → EvalDeps (p :: ps) loaded scopes .missing
  | err {p ps loaded scopes m sc e} : loaded.lookup p = some m → m.needsEval = true →
      mergeReqs scopes m.scope m.required.reverse = some sc → EvalScope sc (.err e) →
      EvalDeps (p :: ps) loaded scopes (.err e)
  | panic {p ps loaded scopes m sc} : loaded.lookup p = some m → m.needsEval = true →
      mergeReqs scopes m.scope m.required.reverse = some sc → EvalScope sc .panic →
      EvalDeps (p :: ps) loaded scopes .panic
  | eval {p ps loaded scopes m sc sc' o} : loaded.lookup p = some m → m.needsEval = true →
      mergeReqs scopes m.scope m.required.reverse = some sc → EvalScope sc (.ok sc') →
      EvalDeps ps (setScope loaded p sc') ((p, sc') :: scopes) o → EvalDeps (p :: ps) loaded scopes o

/-- src/module_loader/mod.rs:104-113: merge the scopes of the direct dependencies, removing them from
`loaded`; `none` is the panic of `unwrap` in line 110. -/
def mergeDirect (sc : Scope) (loaded : List (MPath × Mod)) : List MPath → Option Scope
  | [] => some sc
  | p :: ps =>
    match loaded.lookup p with
    | none => none
    | some m => mergeDirect (sc.merge m.scope m.scope.exports) (loaded.filter fun e => decide (e.1 ≠ p)) ps

/-- What `load_main` (src/module_loader/mod.rs:56-91) can end with. -/
inductive LOut where
  /-- the scope of the main module -/
  | ok (sc : Scope)
  /-- lines 97-102: the report of the modules that failed -/
  | loadErrors (failed : List (MPath × LoadError))
  /-- an evaluation error -/
  | err (e : EvalError)
  /-- a panic: the evaluation, line 258 or line 110 -/
  | panic
  /-- lines 211-214: the thread waits for the write lock while it holds the read lock -/
  | stuck

/-- src/module_loader/mod.rs:78-88: what follows the loading that ended in `s`.  `it` is the iteration
order of the hash map of the loaded modules. -/
inductive AfterLoad (mainPath : MPath) (main : Mod) (s : St) : LOut → Prop
  /-- lines 78-80, 210-221: `reload_dirty_modules` takes the write lock under the read lock, as soon as a
  module is dirty, and one is -/
  | stuck {it p} : it.Perm s.loaded → Marked (dependencyGraph mainPath main.required it) it p →
      AfterLoad mainPath main s .stuck
  | evalError {it order e} : it.Perm s.loaded → (∀ p, ¬ Marked (dependencyGraph mainPath main.required it) it p) →
      Tarjan (dependencyGraph mainPath main.required it) order →
      EvalDeps (order.filterMap ((dependencyGraph mainPath main.required it).nodes[·]?)) it (it.map fun e => (e.1, e.2.scope)) (.err e) →
      AfterLoad mainPath main s (.err e)
  | evalPanic {it order o} : it.Perm s.loaded → (∀ p, ¬ Marked (dependencyGraph mainPath main.required it) it p) →
      Tarjan (dependencyGraph mainPath main.required it) order →
      EvalDeps (order.filterMap ((dependencyGraph mainPath main.required it).nodes[·]?)) it (it.map fun e => (e.1, e.2.scope)) o →
      o = .panic ∨ o = .missing → AfterLoad mainPath main s .panic
  | failures {it order loaded} : it.Perm s.loaded → (∀ p, ¬ Marked (dependencyGraph mainPath main.required it) it p) →
      Tarjan (dependencyGraph mainPath main.required it) order →
      EvalDeps (order.filterMap ((dependencyGraph mainPath main.required it).nodes[·]?)) it (it.map fun e => (e.1, e.2.scope)) (.ok loaded) →
      s.failed ≠ [] → AfterLoad mainPath main s (.loadErrors s.failed)
  | unwrapNone {it order loaded} : it.Perm s.loaded → (∀ p, ¬ Marked (dependencyGraph mainPath main.required it) it p) →
      Tarjan (dependencyGraph mainPath main.required it) order →
      EvalDeps (order.filterMap ((dependencyGraph mainPath main.required it).nodes[·]?)) it (it.map fun e => (e.1, e.2.scope)) (.ok loaded) →
      s.failed = [] → mergeDirect main.scope loaded main.required = none → AfterLoad mainPath main s .panic
  | ok {it order loaded sc} : it.Perm s.loaded → (∀ p, ¬ Marked (dependencyGraph mainPath main.required it) it p) →
      Tarjan (dependencyGraph mainPath main.required it) order →
      EvalDeps (order.filterMap ((dependencyGraph mainPath main.required it).nodes[·]?)) it (it.map fun e => (e.1, e.2.scope)) (.ok loaded) →
      s.failed = [] → mergeDirect main.scope loaded main.required = some sc → AfterLoad mainPath main s (.ok sc)

/-- src/module_loader/mod.rs:56-91 `load_main`. -/
def LoadMain (fetch : MPath → Except LoadError Mod) (mainPath : MPath) (main : Mod) (o : LOut) : Prop :=
  ∃ n s, Steps fetch (init main) n s ∧ Finished s ∧ AfterLoad mainPath main s o

end Verif.Loader
