import Verif.Parser.Model
/-
Specification vocabulary for C12-C15: which formulas have a faithful printed form, how a chain of
operators should group, and how a string literal is written.
-/
namespace Verif.Parser
open Verif.Ast

/-- `r` reads as one reference: characters of the reference class and at most a final dot, not
beginning with a digit or one of the words the lexer splits off, and not the word `fn`. -/
def RefName (u : Uni) (r : Text) : Prop :=
  (∃ m, m ≠ [] ∧ (∀ c ∈ m, u.isRef c = true) ∧ (r = m ∨ r = m ++ ['.'])) ∧
  (∀ c, r.head? = some c → u.isD c = false) ∧
  ¬ "true".toList <+: r ∧ ¬ "false".toList <+: r ∧ ¬ "use".toList <+: r

/-- Decimal text with a point: `digits.digits`. -/
def FloatText (v : Text) : Prop :=
  ∃ ds es, ds ≠ [] ∧ (∀ c ∈ ds, c.isDigit = true) ∧ (∀ c ∈ es, c.isDigit = true) ∧ v = ds ++ '.' :: es

/-- The infix operators of the formula language. -/
def infixOps : List Text :=
  ["^", "*", "/", "+", "-", "&", "=", "<", ">", "<=", ">=", "<>"].map String.toList

/-- Formulas whose printed form is meant to be read back: numbers, references other than `fn`, texts
without quotes, calls and infix operators. Floats must have a printed form with a point (`2.5`, not `2`)
that reads as the same number. -/
inductive Printable (u : Uni) (F : F64) : Ast → Prop
  | int {pct s} {v : Nat} : v < 2 ^ 63 → Printable u F (.int pct s v)
  | float {pct s v} : FloatText v → F v = some v → Printable u F (.float pct s v)
  | ref {r} : RefName u r → r ≠ "fn".toList → Printable u F (.ref r)
  | text {t} : '"' ∉ t → Printable u F (.text t)
  | call {n args} : RefName u n → n ≠ "fn".toList → (∀ a ∈ args, Printable u F a) →
      Printable u F (.call n args)
  | infix {l op r} : op ∈ infixOps → Printable u F l → Printable u F r → Printable u F (.infix l op r)

mutual
/-- What excludes a parsed formula from having a faithful printed form: a boolean, a text with a
quote, a float that prints without a point (or whose text is read as another number), or the name `fn`. -/
def Unfaithful (F : F64) : Ast → Prop
  | .bool _ => True
  | .text t => '"' ∈ t
  | .float _ _ v => ¬ (FloatText v ∧ F v = some v)
  | .ref r => r = "fn".toList
  | .call n args => n = "fn".toList ∨ UnfaithfulL F args
  | .infix l _ r => Unfaithful F l ∨ Unfaithful F r
  | _ => False
def UnfaithfulL (F : F64) : List Ast → Prop
  | [] => False
  | a :: as => Unfaithful F a ∨ UnfaithfulL F as
end

/-! ### chains of operators -/

/-- A way to group a chain of operands and infix operators. -/
inductive Tree where
  | leaf (a : Ast)
  | node (l : Tree) (op : Text) (r : Tree)

/-- The formula a grouping denotes. -/
def Tree.toAst : Tree → Ast
  | .leaf a => a
  | .node l op r => .infix l.toAst op r.toAst

/-- The first operand of the chain of a grouping. -/
def Tree.first : Tree → Ast
  | .leaf a => a
  | .node l _ _ => l.first

/-- The rest of the chain of a grouping: operators with the operand following each. -/
def Tree.rest : Tree → List (Text × Ast)
  | .leaf _ => []
  | .node l op r => l.rest ++ (op, r.first) :: r.rest

/-- The documented precedence of the infix operators. -/
def prec (op : Text) : Nat :=
  if op = "^".toList then 5
  else if op = "*".toList ∨ op = "/".toList then 4
  else if op = "+".toList ∨ op = "-".toList then 3
  else if op = "&".toList then 2
  else 1

/-- The outermost operator of a grouping, if any, satisfies `p`. -/
def Tree.rootOp (p : Text → Prop) : Tree → Prop
  | .leaf _ => True
  | .node _ op _ => p op

/-- Grouping by precedence, equal precedence to the right: `a - b - c` is `a - (b - c)`. -/
def GroupedRight : Tree → Prop
  | .leaf _ => True
  | .node l op r => GroupedRight l ∧ GroupedRight r ∧ l.rootOp (fun o => prec op < prec o) ∧
      r.rootOp (fun o => prec op ≤ prec o)

/-- Grouping by precedence, equal precedence to the left, as spreadsheets do: `a - b - c` is
`(a - b) - c`. -/
def GroupedLeft : Tree → Prop
  | .leaf _ => True
  | .node l op r => GroupedLeft l ∧ GroupedLeft r ∧ l.rootOp (fun o => prec op ≤ prec o) ∧
      r.rootOp (fun o => prec op < prec o)

/-- Nowhere is a group the left operand of an operator of its own precedence, as in `(a - b) - c`. -/
def NoLeftRun : Tree → Prop
  | .leaf _ => True
  | .node l op r => NoLeftRun l ∧ NoLeftRun r ∧ l.rootOp (fun o => prec o ≠ prec op)

/-- All operands of a grouping are printable and its operators are infix operators. -/
def Tree.Ok (u : Uni) (F : F64) : Tree → Prop
  | .leaf a => Printable u F a
  | .node l op r => Tree.Ok u F l ∧ op ∈ infixOps ∧ Tree.Ok u F r

/-- The text of a chain `a op₁ a₁ op₂ a₂ …`, each operand printed, single spaces in between. -/
def chainText (a : Ast) (rest : List (Text × Ast)) : Text :=
  display a ++ rest.flatMap fun p => ' ' :: p.1 ++ ' ' :: display p.2

/-! ### string literals -/

/-- A string literal: quotes doubled, in quotes. -/
def quoteText (t : Text) : Text := '"' :: (t.flatMap fun c => if c = '"' then ['"', '"'] else [c]) ++ ['"']

/-! ### operands -/

mutual
/-- The operands of a formula from left to right: names and literals, without signs and percents. -/
def operands : Ast → List Ast
  | .int _ _ v => [.int false none v]
  | .float _ _ v => [.float false none v]
  | .call n args => .ref n :: operandsL args
  | .infix l _ r => operands l ++ operands r
  | a => [a]
def operandsL : List Ast → List Ast
  | [] => []
  | a :: as => operands a ++ operandsL as
end

/-- The operands written in a list of tokens. -/
def tokenOperands (F : F64) (ts : List Tok) : List Ast :=
  ts.filterMap (terminal F)

end Verif.Parser
