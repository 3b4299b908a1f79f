import Verif.Csvp.Model
import Mathlib.Data.List.Forall2
/-
Specification vocabulary for the CSV properties.  Nothing here refers to how the parser works:
it talks about texts, their lines and columns, ways of writing a grid down, and the values and
addresses found in a result.
-/
namespace Verif.Csvp.Spec
open Verif Verif.Csvp

/-- The observable grid of a parse: address and value of every field; `none` for any error. -/
def grid : Except Err (List (List Field)) → Option (List (List (Addr × Text)))
  | .ok rs => some (rs.map fun r => r.map fun f => (f.addr, f.value))
  | .error _ => none

/-- Only the values. -/
def values : Except Err (List (List Field)) → Option (List (List Text))
  | .ok rs => some (rs.map fun r => r.map fun f => f.value)
  | .error _ => none

/-- 0-based line of the character at index `i` of `t`: the number of newlines before it. -/
def lineOf (t : Text) (i : Nat) : Nat := (t.take i).count '\n'

/-- 0-based column of the character at index `i` of `t`: how many characters precede it on its own
line. -/
def colOf (t : Text) (i : Nat) : Nat := ((t.take i).reverse.takeWhile (· ≠ '\n')).length

/-- The position a user expects for the character at index `i` of the csv section `t` that starts
`above` lines into the file. -/
def truePos (above : Nat) (t : Text) (i : Nat) : SrcPos := ⟨above + lineOf t i, colOf t i⟩

/-- The characters of `t` at the indices `is`. -/
def charsAt (t : Text) (is : List Nat) : Text := is.filterMap fun i => t[i]?

/-- `f` was read from the characters of `t` at the increasing indices `is`: its value is that text
without surrounding white space and it has one position per character, related to the index by `R`. -/
structure ReadFrom (R : SrcPos → Nat → Prop) (t : Text) (f : Field) (is : List Nat) : Prop where
  inside : ∀ i ∈ is, i < t.length
  value : f.value = trim (charsAt t is)
  positions : List.Forall₂ R f.positions is

/-- All fields of the result were read from the text, in reading order and without sharing a
character, with positions related to indices by `R`. -/
def ReadAll (R : SrcPos → Nat → Prop) (t : Text) (rs : List (List Field)) : Prop :=
  ∃ idx : List (List (List Nat)),
    List.Forall₂ (List.Forall₂ (ReadFrom R t)) rs idx ∧ idx.flatten.flatten.Pairwise (· < ·)

/-- A value that can be written without quotes. -/
def PlainValue (sep : Char) (v : Text) : Prop :=
  trim v = v ∧ sep ∉ v ∧ '\n' ∉ v ∧ v.head? ≠ some '"'

instance (sep : Char) (v : Text) : Decidable (PlainValue sep v) := by
  unfold PlainValue; infer_instance

/-- A grid as plain CSV text: values separated by `sep`, every row ended by a newline. -/
def csvText (sep : Char) (rows : List (List Text)) : Text :=
  rows.flatMap fun r => List.intercalate [sep] r ++ ['\n']

/-- RFC 4180 quoting. -/
def doubled : Text → Text
  | [] => []
  | c :: cs => if c = '"' then '"' :: '"' :: doubled cs else c :: doubled cs

def quote (v : Text) : Text := '"' :: (doubled v ++ ['"'])

/-! ### Ways to write a grid as text -/

/-- A piece of an unquoted field as written: a character, or a line continuation `\⏎`. -/
inductive Piece where
  | ch (c : Char)
  | cont
deriving DecidableEq, Repr

/-- A field as written.  A quoted field may be surrounded by blanks. -/
inductive FieldSrc where
  | plain (ps : List Piece)
  | quoted (before : Text) (content : Text) (after : Text)
deriving DecidableEq, Repr

/-- A line of the file as written: a comment (without its `#`) or a record. -/
inductive Item where
  | comment (text : Text)
  | record (first : FieldSrc) (more : List FieldSrc)
deriving DecidableEq, Repr

def Piece.text : Piece → Text
  | .ch c => [c]
  | .cont => ['\\', '\n']

def Piece.chars : Piece → Text
  | .ch c => [c]
  | .cont => []

def FieldSrc.text : FieldSrc → Text
  | .plain ps => ps.flatMap Piece.text
  | .quoted b c a => b ++ '"' :: (doubled c ++ '"' :: a)

/-- What the field means: continuations and surrounding blanks vanish, quotes are undone. -/
def FieldSrc.value : FieldSrc → Text
  | .plain ps => trim (ps.flatMap Piece.chars)
  | .quoted _ c _ => trim c

/-- The fields of a record separated by `sep`. -/
def fieldsText (sep : Char) (f : FieldSrc) : List FieldSrc → Text
  | [] => f.text
  | g :: gs => f.text ++ sep :: fieldsText sep g gs

/-- Each item occupies a line, terminated by a newline. -/
def Item.text (sep : Char) : Item → Text
  | .comment t => '#' :: (t ++ ['\n'])
  | .record f fs => fieldsText sep f fs ++ ['\n']

def Item.values : Item → List (List Text)
  | .comment _ => []
  | .record f fs => [f.value :: fs.map FieldSrc.value]

/-- A separator that is not white space and is not one of the parser's own special characters. -/
def SepOk (sep : Char) : Prop := isWs sep = false ∧ sep ≠ '\\' ∧ sep ≠ '#' ∧ sep ≠ '"'

instance (sep : Char) : Decidable (SepOk sep) := by unfold SepOk; infer_instance

/-- Pieces that form an unquoted field: no separator, no raw newline, and the first non-blank
character is not a quote. -/
def PlainOk (sep : Char) (ps : List Piece) : Prop :=
  sep ∉ ps.flatMap Piece.chars ∧ '\n' ∉ ps.flatMap Piece.chars ∧
  (trimStart (ps.flatMap Piece.chars)).head? ≠ some '"'

instance (sep : Char) (ps : List Piece) : Decidable (PlainOk sep ps) := by
  unfold PlainOk; infer_instance

/-- A field that may be followed by a separator. -/
def FieldSrc.Ok (sep : Char) : FieldSrc → Prop
  | .plain ps => PlainOk sep ps
  | .quoted b _ a => b.all (fun c => isWs c && c != '\n') = true ∧ a.all isWs = true

/-- A field that may end a line: unquoted, and not ending in a bare backslash. -/
def FieldSrc.EndOk : FieldSrc → Prop
  | .plain ps => ps.getLast? ≠ some (.ch '\\')
  | .quoted .. => False

instance (sep : Char) (f : FieldSrc) : Decidable (f.Ok sep) := by
  cases f <;> unfold FieldSrc.Ok <;> infer_instance
instance (f : FieldSrc) : Decidable f.EndOk := by
  cases f <;> unfold FieldSrc.EndOk <;> infer_instance

/-- A line that stands for what it is meant to: comments contain no newline; a record does not
begin with `#`, its fields are well written and its last field may end a line. -/
def Item.Ok (sep : Char) : Item → Prop
  | .comment t => '\n' ∉ t
  | .record f fs =>
    f.text.head? ≠ some '#' ∧ f.Ok sep ∧ (∀ g ∈ fs, g.Ok sep) ∧ ((f :: fs).getLast (by simp)).EndOk

instance (sep : Char) (i : Item) : Decidable (i.Ok sep) := by
  cases i <;> unfold Item.Ok <;> infer_instance

/-- Attach grid coordinates to a list of rows of values, starting at row `r`. -/
def addressed (r : Nat) (rows : List (List Text)) : List (List (Addr × Text)) :=
  rows.mapIdx fun y row => row.mapIdx fun x v => (⟨x, r + y⟩, v)

/-- A field with every continuation removed. -/
def eraseField : FieldSrc → FieldSrc
  | .plain ps => .plain (ps.filter (· ≠ .cont))
  | f => f

/-- A line with every continuation removed. -/
def eraseItem : Item → Item
  | .comment t => .comment t
  | .record f fs => .record (eraseField f) (fs.map eraseField)

/-! ### The obvious reading of a text without quotes and backslashes -/

/-- Split at every `c`; always at least one part. -/
def splitAt (c : Char) : Text → List Text
  | [] => [[]]
  | d :: ds =>
    if d = c then [] :: splitAt c ds
    else match splitAt c ds with
      | [] => [[d]]
      | p :: ps => (d :: p) :: ps

/-- A line that is ended by a newline: nothing if it is a comment, else its trimmed fields. -/
def naiveLine (sep : Char) (l : Text) : List (List Text) :=
  if l.head? = some '#' then [] else [(splitAt sep l).map trim]

/-- The part after the last newline: like a line, but a blank field at the very end does not count
(nor does a record made of nothing else). -/
def naiveLast (sep : Char) (l : Text) : List (List Text) :=
  if l.head? = some '#' then []
  else
    let fs := (splitAt sep l).map trim
    let fs := if fs.getLast? = some [] then fs.dropLast else fs
    if fs = [] then [] else [fs]

/-- Split into lines, drop comments, split lines at separators, trim. -/
def naive (sep : Char) (t : Text) : List (List Text) :=
  let ls := splitAt '\n' (t.dropWhile (· = '\n'))
  ls.dropLast.flatMap (naiveLine sep) ++ naiveLast sep (ls.getLast?.getD [])

end Verif.Csvp.Spec
