import Verif.Ast.Model
/-
Specification vocabulary for evaluation, written without reference to the model's helper functions
(only to the syntax `Ast`, the lookup tables of a `Scope` and `resolve`, the meaning of one variable
at a position).
-/
namespace Verif.Ast

mutual
/-- All names referenced in a formula. -/
def refNames : Ast → List Text
  | .call _ args => refNamesL args
  | .fn _ _ body => refNames body
  | .infix l _ r => refNames l ++ refNames r
  | .ref r => [r]
  | .var _ a => refNames a
  | _ => []
/-- All names referenced in a list of formulas. -/
def refNamesL : List Ast → List Text
  | [] => []
  | a :: as => refNames a ++ refNamesL as
end

mutual
/-- All functions called in a formula. -/
def callNames : Ast → List Text
  | .call n args => n :: callNamesL args
  | .fn _ _ body => callNames body
  | .infix l _ r => callNames l ++ callNames r
  | .var _ a => callNames a
  | _ => []
/-- All functions called in a list of formulas. -/
def callNamesL : List Ast → List Text
  | [] => []
  | a :: as => callNames a ++ callNamesL as
end

mutual
/-- Simultaneous substitution of formulas for names. -/
def subst (σ : Text → Option Ast) : Ast → Ast
  | .call n args => .call n (substL σ args)
  | .fn n ps body => .fn n ps (subst σ body)
  | .infix l op r => .infix (subst σ l) op (subst σ r)
  | .ref y => (σ y).getD (.ref y)
  | .var n a => .var n (subst σ a)
  | .bool b => .bool b
  | .date t => .date t
  | .float p s v => .float p s v
  | .int p s v => .int p s v
  | .text t => .text t
  | .cellVar n v => .cellVar n v
/-- Simultaneous substitution in a list of formulas. -/
def substL (σ : Text → Option Ast) : List Ast → List Ast
  | [] => []
  | a :: as => subst σ a :: substL σ as
end

/-- The substitution that maps each parameter to its argument (the first one if a parameter is
repeated). -/
def bind (ps : List Text) (args : List Ast) : Text → Option Ast := fun x => (ps.zip args).lookup x

/-- No argument refers to the name of a later parameter. -/
def NoCapture (ps : List Text) (args : List Ast) : Prop :=
  ∀ (i j : Nat) (p : Text) (e : Ast), i < j → ps[j]? = some p → args[i]? = some e → p ∉ refNames e

mutual
/-- The formula contains no function definition (the parser puts none inside formulas). -/
def plain : Ast → Bool
  | .call _ args => plainL args
  | .fn _ _ _ => false
  | .infix l _ r => plain l && plain r
  | .var _ a => plain a
  | _ => true
/-- No function definition in a list of formulas. -/
def plainL : List Ast → Bool
  | [] => true
  | a :: as => plain a && plainL as
end

/-- A name that can be defined: a variable or a function. -/
inductive Name where
  | v (x : Text)
  | f (g : Text)
deriving DecidableEq

/-- The formula uses the name. -/
def Uses (a : Ast) : Name → Prop
  | .v x => x ∈ refNames a
  | .f g => g ∈ callNames a

/-- The name is defined in the scope. -/
def Defined (sc : Scope) : Name → Prop
  | .v x => (sc.variables x).isSome
  | .f g => (sc.functions g).isSome

/-- The definition of name `n` uses name `m`.  Parameters of a function are not uses of a variable of
the same name. -/
def Mentions (sc : Scope) (pos : Option Addr) (n m : Name) : Prop :=
  match n with
  | .v x => ∃ d a, sc.variables x = some d ∧ resolve pos d = some a ∧ Uses a m
  | .f g => ∃ nm ps body, sc.functions g = some (.fn nm ps body) ∧ Uses body m ∧ ∀ p ∈ ps, m ≠ .v p

/-- The definitions are not recursive: they can be listed so that each uses only earlier ones. -/
def Acyclic (sc : Scope) (pos : Option Addr) (order : List Name) : Prop :=
  (∀ n, Defined sc n → n ∈ order) ∧
  ∀ n m, Defined sc n → Defined sc m → Mentions sc pos n m → order.idxOf m < order.idxOf n

/-- Sanity conditions that hold for every scope built from source code: functions are function
definitions, variables have a value at this position, no function definition is nested in another. -/
structure Wf (sc : Scope) (pos : Option Addr) : Prop where
  fns : ∀ g d, sc.functions g = some d → ∃ nm ps body, d = .fn nm ps body ∧ plain body
  vars : ∀ x d, sc.variables x = some d → ∃ a, resolve pos d = some a ∧ plain a

/-- Parameter names are used for nothing else: they are not referenced in the formula `a`, nor in the
value of a variable, nor in the body of another function. -/
structure Hygienic (sc : Scope) (pos : Option Addr) (isParam : Text → Prop) : Prop where
  params : ∀ g nm ps body, sc.functions g = some (.fn nm ps body) → ∀ p ∈ ps, isParam p
  vars : ∀ x d a, sc.variables x = some d → resolve pos d = some a → ∀ r ∈ refNames a, ¬ isParam r
  bodies : ∀ g nm ps body, sc.functions g = some (.fn nm ps body) →
    ∀ r ∈ refNames body, r ∉ ps → ¬ isParam r

mutual
/-- Calls to defined functions have arguments that use no defined name (except those in `ps`). -/
def Flat (sc : Scope) (ps : List Text) : Ast → Prop
  | .call n args => FlatL sc ps args ∧ ((sc.functions n).isSome →
      ∀ a ∈ args, ∀ m, Uses a m → Defined sc m → ∃ p ∈ ps, m = .v p)
  | .fn _ _ body => Flat sc ps body
  | .infix l _ r => Flat sc ps l ∧ Flat sc ps r
  | .var _ a => Flat sc ps a
  | _ => True
/-- `Flat` for a list of formulas. -/
def FlatL (sc : Scope) (ps : List Text) : List Ast → Prop
  | [] => True
  | a :: as => Flat sc ps a ∧ FlatL sc ps as
end

/-- All definitions of the scope are flat. -/
structure FlatScope (sc : Scope) (pos : Option Addr) : Prop where
  vars : ∀ x d a, sc.variables x = some d → resolve pos d = some a → Flat sc [] a
  fns : ∀ g nm ps body, sc.functions g = some (.fn nm ps body) → Flat sc ps body

/-- `b` is `a` except that references to defined variables and calls of defined functions may have been
replaced by something else. -/
inductive Alters (sc : Scope) : Ast → Ast → Prop
  | bool {b} : Alters sc (.bool b) (.bool b)
  | date {t} : Alters sc (.date t) (.date t)
  | float {p s v} : Alters sc (.float p s v) (.float p s v)
  | int {p s v} : Alters sc (.int p s v) (.int p s v)
  | text {t} : Alters sc (.text t) (.text t)
  | cellVar {n v} : Alters sc (.cellVar n v) (.cellVar n v)
  | undefRef {r} : Alters sc (.ref r) (.ref r)
  | defRef {r b} : (sc.variables r).isSome → Alters sc (.ref r) b
  | undefCall {n as bs} : as.length = bs.length → (∀ p ∈ as.zip bs, Alters sc p.1 p.2) →
      Alters sc (.call n as) (.call n bs)
  | defCall {n as b} : (sc.functions n).isSome → Alters sc (.call n as) b
  | infix {l op r l' r'} : Alters sc l l' → Alters sc r r' → Alters sc (.infix l op r) (.infix l' op r')
  | fn {n ps b b'} : Alters sc b b' → Alters sc (.fn n ps b) (.fn n ps b')
  | var {n a a'} : Alters sc a a' → Alters sc (.var n a) (.var n a')

/-- `c` occurs in the formula, not inside an argument of a call of a defined function. -/
inductive Exposed (sc : Scope) (c : Ast) : Ast → Prop
  | here : Exposed sc c c
  | arg {n args a} : (sc.functions n) = none → a ∈ args → Exposed sc c a → Exposed sc c (.call n args)
  | left {l op r} : Exposed sc c l → Exposed sc c (.infix l op r)
  | right {l op r} : Exposed sc c r → Exposed sc c (.infix l op r)
  | var {n a} : Exposed sc c a → Exposed sc c (.var n a)

mutual
/-- Every call of a defined function has as many arguments as the definition has parameters. -/
def arityOk (sc : Scope) : Ast → Prop
  | .call n args => arityOkL sc args ∧
      ∀ nm ps body, sc.functions n = some (.fn nm ps body) → args.length = ps.length
  | .fn _ _ body => arityOk sc body
  | .infix l _ r => arityOk sc l ∧ arityOk sc r
  | .var _ a => arityOk sc a
  | _ => True
/-- `arityOk` for a list of formulas. -/
def arityOkL (sc : Scope) : List Ast → Prop
  | [] => True
  | a :: as => arityOk sc a ∧ arityOkL sc as
end

/-- Every evaluation of `a` ends: there is no infinite run of the loop, whatever the hash orders. -/
def Terminates (sc : Scope) (pos : Option Addr) (a : Ast) : Prop :=
  ¬ ∃ run : Nat → Refs × Ast, run 0 = (⟨[], []⟩, a) ∧ ∀ i, Step sc pos (run i) (run (i + 1))

end Verif.Ast
