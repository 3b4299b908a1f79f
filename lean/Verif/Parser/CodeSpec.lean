import Verif.Parser.Spec
/-
Specification vocabulary for C48 and C49: code sections as users write them, and what they define.
-/
namespace Verif.Parser
open Verif.Ast

/-- A statement of a code section. -/
inductive Stmt where
  | use (m : Text)
  | fn (name : Text) (params : List Text) (body : Ast)
  | var (name : Text) (value : Ast)

/-- How a statement is written: `use m`, `fn f(a, b) body`, `x := value`. -/
def Stmt.text : Stmt → Text
  | .use m => "use ".toList ++ m
  | .fn n ps b => "fn ".toList ++ n ++ ['('] ++ joinText ", ".toList ps ++ ") ".toList ++ display b
  | .var n v => n ++ " := ".toList ++ display v

/-- A line of a code section: indentation, perhaps a statement, perhaps a comment. -/
structure Line where
  indent : Text
  stmt : Option Stmt
  comment : Option Text

/-- The statement part of a line. -/
def stmtText : Option Stmt → Text
  | some s => s.text
  | none => []

/-- The comment part of a line: a space, `#` and the comment. -/
def commentText : Option Text → Text
  | some t => " #".toList ++ t
  | none => []

/-- How a line is written. -/
def Line.text (l : Line) : Text := l.indent ++ stmtText l.stmt ++ commentText l.comment

/-- The code section with these lines. -/
def codeText (ls : List Line) : Text := joinText ['\n'] (ls.map Line.text)

/-- The statements of a code section, in order. -/
def stmts (ls : List Line) : List Stmt := ls.filterMap Line.stmt

/-- A name usable for a variable, a function, a parameter or a module. -/
def Name (u : Uni) (n : Text) : Prop := RefName u n ∧ n ≠ "fn".toList

/-- All names are usable and the expressions are printable. -/
def Stmt.Ok (u : Uni) (F : F64) : Stmt → Prop
  | .use m => Name u m
  | .fn n ps b => Name u n ∧ (∀ p ∈ ps, Name u p) ∧ Printable u F b
  | .var n v => Name u n ∧ Printable u F v

/-- Indentation is blanks and a comment does not reach into the next line. -/
def Line.Ok (u : Uni) (F : F64) (l : Line) : Prop :=
  (∀ c ∈ l.indent, isBlank c = true) ∧ (∀ s, l.stmt = some s → s.Ok u F) ∧
    (∀ t, l.comment = some t → '\n' ∉ t)

/-- The module a statement requires. -/
def Stmt.module? : Stmt → Option (List Text)
  | .use m => some [m]
  | _ => none

/-- The function named `n` a statement defines. -/
def Stmt.function? (n : Text) : Stmt → Option Ast
  | .fn m ps b => if m = n then some (.fn m ps b) else none
  | _ => none

/-- The variable named `n` a statement defines. -/
def Stmt.variable? (n : Text) : Stmt → Option Ast
  | .var m v => if m = n then some (.var m v) else none
  | _ => none

/-- The name a statement defines. -/
def Stmt.name? : Stmt → Option Text
  | .use _ => none
  | .fn n _ _ => some n
  | .var n _ => some n

/-- No `use` statement follows a definition. -/
def UsesFirst : List Stmt → Prop
  | [] => True
  | .use _ :: ss => UsesFirst ss
  | _ :: ss => (∀ m, .use m ∉ ss) ∧ UsesFirst ss

end Verif.Parser
