import Verif.Text
/-
Model of the abstract syntax tree and its evaluation:
  src/ast/node.rs, src/ast/eval.rs, src/ast/references.rs, src/ast/variable_value.rs,
  src/ast/from.rs, src/cell_options/fill/, src/scope/mod.rs.

Hash collections: a `HashMap`/`HashSet` is modelled by its contents (a lookup function or the set of
members of a list); whenever the code *iterates* over one, the model takes the iteration order as an
arbitrary enumeration, so a theorem about the model holds for every hash seed.
-/
namespace Verif.Ast

/-- src/cell_options/fill/mod.rs:9 `ROW_MAX` (file line 9 of mod.rs). -/
def rowMax : Nat := 1000

/-- src/cell_options/fill/mod.rs:12-15 `Fill`. -/
structure Fill where
  amount : Option Nat
  startRow : Nat
deriving DecidableEq, Repr

/-- src/cell_options/fill/mod.rs:19-24 `Fill::clone_to_row`. -/
def Fill.cloneToRow (f : Fill) (row : Nat) : Fill := ⟨f.amount, row⟩

/-- src/cell_options/fill/mod.rs:27-33 `Fill::end_row` (exclusive). -/
def Fill.endRow (f : Fill) : Nat :=
  match f.amount with
  | some a => min (f.startRow + a) rowMax
  | none => rowMax

/-- `a1::Address` (external crate): zero-based column `x` and row `y`. -/
structure Addr where
  x : Nat
  y : Nat
deriving DecidableEq, Repr

/-- The part of `a1::A1` (external crate) used by the evaluator: a cell, a range of whole rows, or a
range of rows restricted to one column. -/
inductive A1 where
  | cell (a : Addr)
  | rows (first last : Nat)
  | colRows (x first last : Nat)
deriving DecidableEq, Repr

/-- src/cell_options/fill/into.rs:5-9 `Into<A1> for Fill`: `row_range(start, end.shift_up(1))`.
`shift_up` of the external crate is modelled as truncated subtraction. -/
def Fill.toA1 (f : Fill) : A1 := .rows f.startRow (f.endRow - 1)

/-- `a1::A1::contains` (external crate) for a cell argument. -/
def A1.contains : A1 → Addr → Bool
  | .cell b, a => a == b
  | .rows s e, a => decide (s ≤ a.y) && decide (a.y ≤ e)
  | .colRows x s e, a => a.x == x && decide (s ≤ a.y) && decide (a.y ≤ e)

/-- `a1::A1::with_x` (external crate). -/
def A1.withX (x : Nat) : A1 → A1
  | .cell a => .cell ⟨x, a.y⟩
  | .rows s e => .colRows x s e
  | .colRows _ s e => .colRows x s e

/-- Decimal digits of a number, as printed by Rust's `Display` for unsigned integers. -/
def natText (n : Nat) : Text := Nat.toDigits 10 n

/-- Column letters of a zero-based column index, as printed by the external a1 crate
(0 ↦ A, 25 ↦ Z, 26 ↦ AA, ...). -/
def colText (n : Nat) : Text :=
  if _h : n < 26 then [Char.ofNat (65 + n)]
  else colText (n / 26 - 1) ++ [Char.ofNat (65 + n % 26)]
decreasing_by omega

/-- `Display for a1::Address` (external crate): column letters and the 1-based row. -/
def Addr.text (a : Addr) : Text := colText a.x ++ natText (a.y + 1)

/-- `Display for a1::A1` (external crate); the expected strings are those of the tests in
src/ast/variable_value.rs:162-236. -/
def A1.text : A1 → Text
  | .cell a => a.text
  | .rows s e => natText (s + 1) ++ ':' :: natText (e + 1)
  | .colRows x s e => (Addr.mk x s).text ++ ':' :: (Addr.mk x e).text

/-- src/ast/node.rs:5-9 `NumberSign`. -/
inductive Sign where | negative | positive
deriving DecidableEq, Repr

/-- The variants of src/ast/variable_value.rs:7-48 `VariableValue` other than `Ast`: variables
defined by a cell or row of the spreadsheet. -/
inductive CellVal where
  | absolute (a : Addr)
  | columnRelative (column : Nat) (fill : Fill)
  | row (r : Nat)
  | rowRelative (row : Nat) (fill : Fill)
deriving DecidableEq, Repr

/-- src/ast/node.rs:14-76 `Node` (and its box src/ast/mod.rs:31 `Ast`).  `Node::Variable` is split in
two: `var` for `VariableValue::Ast`, `cellVar` for the other variants.  An `f64` is represented by its
(shortest) decimal text and a `DateTime` by its text; evaluation never looks inside either. -/
inductive Ast where
  | bool (b : Bool)
  | date (t : Text)
  | float (pct : Bool) (sign : Option Sign) (value : Text)
  | fn (name : Text) (params : List Text) (body : Ast)
  | call (name : Text) (args : List Ast)
  | infix (left : Ast) (op : Text) (right : Ast)
  | int (pct : Bool) (sign : Option Sign) (value : Int)
  | ref (r : Text)
  | text (t : Text)
  | var (name : Text) (value : Ast)
  | cellVar (name : Text) (value : CellVal)
deriving Repr

/-- src/scope/mod.rs:7-11 `Scope`: the contents of the two hash maps and of the export set. -/
structure Scope where
  functions : Text → Option Ast
  variables : Text → Option Ast
  exports : List Text

/-- src/scope/mod.rs:6 `Scope::default`. -/
def Scope.empty : Scope := ⟨fun _ => none, fun _ => none, []⟩

mutual
/-- src/ast/eval.rs:181-225 `replace_variable`: replace every reference to `x` by `r`. -/
def replaceVar (x : Text) (r : Ast) : Ast → Ast
  | .call n args => .call n (replaceVars x r args)
  | .fn n ps body => .fn n ps (replaceVar x r body)
  | .infix l op rr => .infix (replaceVar x r l) op (replaceVar x r rr)
  | .ref y => if x = y then r else .ref y
  | .var n a => .var n (replaceVar x r a)
  | .bool b => .bool b
  | .date t => .date t
  | .float p s v => .float p s v
  | .int p s v => .int p s v
  | .text t => .text t
  | .cellVar n v => .cellVar n v
/-- src/ast/eval.rs:187-190: `replace_variable` on each argument. -/
def replaceVars (x : Text) (r : Ast) : List Ast → List Ast
  | [] => []
  | a :: as => replaceVar x r a :: replaceVars x r as
end

/-- src/ast/eval.rs:79-86 `eval_variables` and 124-128 (arguments of a call): replace variables one
after the other, in the order of the list. -/
def replaceSeq (σ : List (Text × Ast)) (a : Ast) : Ast :=
  σ.foldl (fun a p => replaceVar p.1 p.2 a) a

/-- `EvalError` as raised at src/ast/eval.rs:113-121: the definition and the two numbers, in the order
in which they are put into the message "Expected {} arguments but received {}". -/
structure EvalError where
  source : Ast
  expected : Nat
  received : Nat

mutual
/-- src/ast/eval.rs:91-178 `call_function`: replace the calls to `f` by its instantiated body.
Matched calls are replaced without visiting their arguments; bodies of function definitions are not
visited. -/
def callFn (f : Text) (fd : Ast) : Ast → Except EvalError Ast
  | .call n args =>
    if n = f then
      match fd with
      | .fn _ ps body =>
        if args.length ≠ ps.length then .error ⟨fd, args.length, ps.length⟩
        else .ok (replaceSeq (ps.zip args) body)
      | d => .ok d
    else
      match callFns f fd args with
      | .error e => .error e
      | .ok args' => .ok (.call n args')
  | .infix l op r =>
    match callFn f fd l with
    | .error e => .error e
    | .ok l' =>
      match callFn f fd r with
      | .error e => .error e
      | .ok r' => .ok (.infix l' op r')
  | .var n a =>
    match callFn f fd a with
    | .error e => .error e
    | .ok a' => .ok (.var n a')
  | .fn n ps b => .ok (.fn n ps b)
  | .ref y => .ok (.ref y)
  | .bool b => .ok (.bool b)
  | .date t => .ok (.date t)
  | .float p s v => .ok (.float p s v)
  | .int p s v => .ok (.int p s v)
  | .text t => .ok (.text t)
  | .cellVar n v => .ok (.cellVar n v)
/-- src/ast/eval.rs:142-145: `call_function` on each argument. -/
def callFns (f : Text) (fd : Ast) : List Ast → Except EvalError (List Ast)
  | [] => .ok []
  | a :: as =>
    match callFn f fd a with
    | .error e => .error e
    | .ok a' =>
      match callFns f fd as with
      | .error e => .error e
      | .ok as' => .ok (a' :: as')
end

mutual
/-- src/ast/references.rs:19-56 `extract_dfs`: the defined variables referenced (with repetitions; the
code collects them into a `HashSet`). -/
def varRefs (sc : Scope) : Ast → List Text
  | .call _ args => varRefsL sc args
  | .fn _ _ body => varRefs sc body
  | .infix l _ r => varRefs sc l ++ varRefs sc r
  | .ref r => if (sc.variables r).isSome then [r] else []
  | .var _ a => varRefs sc a
  | _ => []
/-- src/ast/references.rs:27-29: the arguments of a call. -/
def varRefsL (sc : Scope) : List Ast → List Text
  | [] => []
  | a :: as => varRefs sc a ++ varRefsL sc as
end

mutual
/-- src/ast/references.rs:19-56 `extract_dfs`: the defined functions called. -/
def fnRefs (sc : Scope) : Ast → List Text
  | .call n args => (if (sc.functions n).isSome then [n] else []) ++ fnRefsL sc args
  | .fn _ _ body => fnRefs sc body
  | .infix l _ r => fnRefs sc l ++ fnRefs sc r
  | .var _ a => fnRefs sc a
  | _ => []
/-- src/ast/references.rs:27-29: the arguments of a call. -/
def fnRefsL (sc : Scope) : List Ast → List Text
  | [] => []
  | a :: as => fnRefs sc a ++ fnRefsL sc as
end

/-- src/ast/references.rs:8-12 `AstReferences`; the lists stand for the sets of their members. -/
structure Refs where
  functions : List Text
  variables : List Text

/-- src/ast/references.rs:62-66 `extract_references`. -/
def refsOf (sc : Scope) (a : Ast) : Refs := ⟨fnRefs sc a, varRefs sc a⟩

/-- src/ast/references.rs:15-17 `is_empty`. -/
def Refs.Empty (r : Refs) : Prop := r.functions = [] ∧ r.variables = []

/-- `PartialEq` of `AstReferences` (src/ast/references.rs:8): equality of the two sets. -/
def Refs.Same (r s : Refs) : Prop :=
  (∀ n, n ∈ r.functions ↔ n ∈ s.functions) ∧ (∀ n, n ∈ r.variables ↔ n ∈ s.variables)

/-- src/ast/variable_value.rs:51-107 `into_ast` (for the variants other than `Ast`); `none` is the
`compiler_error` panic at line 102. -/
def CellVal.intoAst (v : CellVal) (position : Option Addr) : Option Ast :=
  match position with
  | some pos =>
    match v with
    | .absolute a => some (.ref a.text)
    | .columnRelative column fill =>
      if fill.toA1.contains pos then some (.ref (Addr.mk column pos.y).text)
      else some (.ref (fill.toA1.withX column).text)
    | .row r => some (.ref (A1.rows r r).text)
    | .rowRelative _ fill =>
      if fill.toA1.contains pos then some (.ref (A1.rows pos.y pos.y).text)
      else some (.ref fill.toA1.text)
  | none =>
    match v with
    | .absolute a => some (.ref a.text)
    | .row r => some (.ref (A1.rows r r).text)
    | _ => none

/-- src/ast/eval.rs:47-50: the replacement for one variable whose definition is `value`. -/
def resolve (position : Option Addr) (value : Ast) : Option Ast :=
  match value with
  | .var _ a => some a
  | .cellVar _ v => v.intoAst position
  | n => some n

/-- src/ast/eval.rs:39-57 `resolve_variables` for the names in the given order; `none` is a panic. -/
def resolveVars (sc : Scope) (position : Option Addr) : List Text → Option (List (Text × Ast))
  | [] => some []
  | v :: vs =>
    match sc.variables v with
    | none => resolveVars sc position vs
    | some value =>
      match resolve position value, resolveVars sc position vs with
      | some a, some rest => some ((v, a) :: rest)
      | _, _ => none

/-- src/ast/eval.rs:62-75 `eval_functions` for the names in the given order. -/
def evalFns (sc : Scope) : List Text → Ast → Except EvalError Ast
  | [], a => .ok a
  | f :: fs, a =>
    match sc.functions f with
    | none => evalFns sc fs a
    | some fd =>
      match callFn f fd a with
      | .error e => .error e
      | .ok a' => evalFns sc fs a'

/-- What an evaluation can end with: a value, an `EvalError`, or a panic. -/
inductive Outcome where
  | ok (a : Ast)
  | err (e : EvalError)
  | panic

/-- One round of the loop, src/ast/eval.rs:25-31, when the variables are replaced in the order `vs`
and the functions called in the order `fs`. -/
def round (sc : Scope) (position : Option Addr) (vs fs : List Text) (a : Ast) : Outcome :=
  match resolveVars sc position vs with
  | none => .panic
  | some σ =>
    match evalFns sc fs (replaceSeq σ a) with
    | .error e => .err e
    | .ok a' => .ok a'

/-- `o` is an iteration order of the hash set with the members of `l`. -/
def IsOrder (o l : List Text) : Prop := o.Nodup ∧ ∀ x, x ∈ o ↔ x ∈ l

/-- src/ast/eval.rs:20: the loop breaks. -/
def Stops (sc : Scope) (last : Refs) (a : Ast) : Prop :=
  (refsOf sc a).Empty ∨ (refsOf sc a).Same last

/-- One round with hash iteration orders chosen by the runtime. -/
def Round (sc : Scope) (position : Option Addr) (a : Ast) (o : Outcome) : Prop :=
  ∃ vs fs, IsOrder vs (varRefs sc a) ∧ IsOrder fs (fnRefs sc a) ∧ o = round sc position vs fs a

/-- src/ast/eval.rs:14-35 `eval`, the loop with `last_round_refs = last` and `evaled_ast = a`, as a
relation because the hash iteration orders are not determined. -/
inductive Loop (sc : Scope) (position : Option Addr) : Refs → Ast → Outcome → Prop
  | stop {last a} : Stops sc last a → Loop sc position last a (.ok a)
  | again {last a a' o} : ¬ Stops sc last a → Round sc position a (.ok a') →
      Loop sc position (refsOf sc a) a' o → Loop sc position last a o
  | err {last a e} : ¬ Stops sc last a → Round sc position a (.err e) → Loop sc position last a (.err e)
  | panic {last a} : ¬ Stops sc last a → Round sc position a .panic → Loop sc position last a .panic

/-- src/ast/eval.rs:14-17: the loop starts with no references recorded. -/
def Eval (sc : Scope) (position : Option Addr) (a : Ast) (o : Outcome) : Prop :=
  Loop sc position ⟨[], []⟩ a o

/-- One iteration of the loop as a transition, for talking about termination. -/
def Step (sc : Scope) (position : Option Addr) (s t : Refs × Ast) : Prop :=
  ¬ Stops sc s.1 s.2 ∧ Round sc position s.2 (.ok t.2) ∧ t.1 = refsOf sc s.2

/-- src/scope/mod.rs:16 `collect` into a `HashMap`: later pairs win. -/
def collect (l : List (Text × Ast)) : Text → Option Ast :=
  l.foldl (fun m p k => if k = p.1 then some p.2 else m k) (fun _ => none)

/-- `l` is an iteration order of the hash map `m`. -/
def IsEnum (l : List (Text × Ast)) (m : Text → Option Ast) : Prop :=
  (l.map (·.1)).Nodup ∧ ∀ k v, (k, v) ∈ l ↔ m k = some v

/-- src/scope/mod.rs:14-19 `merge_variables`, where `vars` and `self.variables` are iterated in the
orders given. -/
def mergeVariables (sc : Scope) (vars own : List (Text × Ast)) : Scope :=
  { sc with variables := collect (vars ++ own) }

/-- src/module/mod.rs:47-50: the scope in which the cells are evaluated, the code section's scope with
the spreadsheet's variables and then the external ones (`-k`) merged in.  The lists are the iteration
orders of the hash maps involved. -/
def evalScope (sc : Scope) (sheet own ext own' : List (Text × Ast)) : Scope :=
  mergeVariables (mergeVariables sc sheet own) ext own'

/-- src/scope/mod.rs:21-29 `define_function`. -/
def Scope.defineFunction (sc : Scope) (name : Text) (a : Ast) : Scope :=
  { sc with exports := name :: sc.exports
            functions := fun k => if k = name then some a else sc.functions k }

/-- src/scope/mod.rs:31-39 `define_variable`. -/
def Scope.defineVariable (sc : Scope) (name : Text) (a : Ast) : Scope :=
  { sc with exports := name :: sc.exports
            variables := fun k => if k = name then some a else sc.variables k }

/-- src/scope/mod.rs:45-54: the body of the loop of `merge` for one export. -/
def Scope.mergeOne (other : Scope) (sc : Scope) (e : Text) : Scope :=
  let sc := match other.functions e with
    | some f => if (sc.functions e).isSome then sc
      else { sc with functions := fun k => if k = e then some f else sc.functions k }
    | none => sc
  match other.variables e with
  | some v => if (sc.variables e).isSome then sc
    else { sc with variables := fun k => if k = e then some v else sc.variables k }
  | none => sc

/-- src/scope/mod.rs:43-56 `merge`, visiting the exports of `other` in the order given. -/
def Scope.merge (sc other : Scope) (order : List Text) : Scope :=
  order.foldl (Scope.mergeOne other) sc

end Verif.Ast
