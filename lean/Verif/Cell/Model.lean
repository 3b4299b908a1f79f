import Verif.Csvp.Model
import Verif.Parser.Model
/-
Model of the cell parser: src/parser/cell_lexer/, src/parser/cell_parser/, src/rgb/, src/cell/,
src/cell_options/, src/row/mod.rs (parse).

Byte offsets are modelled as byte offsets: a slice of a `str` that is not at a character boundary, and a
source position looked up outside the field, are the outcome `panic`.
-/
namespace Verif.Cell
open Verif.Ast Verif.Parser

/-- What the code takes from outside, as parameters: the Unicode tables behind `char::is_alphanumeric`
and `str::to_lowercase` (only their ASCII part is fixed, and that white space is not alphanumeric), the
tables of the regex crate, and the parsers of dates (chrono, src/date_time/try_from.rs:31-57), A1
references (the a1 crate) and floats. -/
structure Env where
  uni : Uni
  alnum : Char → Bool
  alnum_ascii : ∀ c, c.toNat < 128 → alnum c = c.isAlphanum
  alnum_ws : ∀ c, alnum c = true → isWs c = false
  lower : Text → Text
  lower_ascii : ∀ t : Text, (∀ c ∈ t, c.toNat < 128) → lower t = t.map Char.toLower
  date : Text → Option Text
  a1 : Text → Option Text
  f64 : F64

/-- src/rgb/mod.rs:11-16 `Rgb`; each component is a `u8`. -/
structure Rgb where
  r : UInt8
  g : UInt8
  b : UInt8
deriving DecidableEq, Repr

/-- src/cell_options/border_side.rs:9-15 `BorderSide`. -/
inductive BorderSide where | all | top | bottom | left | right
deriving DecidableEq, Repr
/-- src/cell_options/border_style.rs:7-15 `BorderStyle`. -/
inductive BorderStyle where | dashed | dotted | double | solid | solidMedium | solidThick
deriving DecidableEq, Repr
/-- src/cell_options/horizontal_align.rs:6-11 `HorizontalAlign`. -/
inductive HAlign where | center | left | right
deriving DecidableEq, Repr
/-- src/cell_options/vertical_align.rs:7-12 `VerticalAlign`. -/
inductive VAlign where | bottom | center | top
deriving DecidableEq, Repr
/-- src/cell_options/number_format.rs:6-16 `NumberFormat`. -/
inductive NumFmt where | currency | date | datetime | number | percent | text | time | scientific
deriving DecidableEq, Repr
/-- src/cell_options/text_format.rs:6-11 `TextFormat`. -/
inductive TextFmt where | bold | italic | strikethrough | underline
deriving DecidableEq, Repr
/-- src/cell_options/text_wrap.rs:6-11 `TextWrap`. -/
inductive Wrap where | wrap | overflow | clip
deriving DecidableEq, Repr

/-- src/cell_options/data_validation.rs:11-36 `DataValidation`.  Dates and A1 references are
represented by the values their parsers give (`Env`). -/
inductive Validation where
  | custom (t : Text)
  | dateAfter (d : Text) | dateBefore (d : Text) | dateBetween (d e : Text) | dateEqualTo (d : Text)
  | dateIsValid | dateNotBetween (d e : Text) | dateOnOrAfter (d : Text) | dateOnOrBefore (d : Text)
  | numberBetween (m n : Int) | numberEqualTo (n : Int) | numberGreaterThan (n : Int)
  | numberGreaterThanOrEqualTo (n : Int) | numberLessThan (n : Int) | numberLessThanOrEqualTo (n : Int)
  | numberNotBetween (m n : Int) | numberNotEqualTo (n : Int)
  | textContains (t : Text) | textDoesNotContain (t : Text) | textEqualTo (t : Text)
  | textIsValidEmail | textIsValidUrl
  | valueInList (vs : List Ast) | valueInRange (r : Text)
deriving Repr

/-- The options that src/cell/mod.rs:17-37 `Cell` and src/row/mod.rs:12-31 `Row` have in common.  The
hash sets are represented by their membership functions. -/
structure Opts where
  borderColor : Option Rgb := none
  borderStyle : BorderStyle := .solid
  borders : BorderSide → Bool := fun _ => false
  color : Option Rgb := none
  validation : Option Validation := none
  fontColor : Option Rgb := none
  fontFamily : Option Text := none
  fontSize : Option UInt8 := none
  halign : HAlign := .center
  lock : Bool := false
  note : Option Text := none
  numFmt : NumFmt := .text
  textFmts : TextFmt → Bool := fun _ => false
  wrap : Wrap := .wrap
  var : Option Text := none
  valign : VAlign := .center

/-- The part of src/row/mod.rs:12-31 `Row` that parsing a cell reads and writes. -/
structure RowS where
  opts : Opts := {}
  fill : Option Fill := none

/-- src/cell/mod.rs:17-37 `Cell`. -/
structure Cell where
  ast : Option Ast
  field : Csvp.Field
  value : Text
  opts : Opts

/-- src/row/mod.rs:12-31 `Row`. -/
structure Row where
  opts : Opts
  fill : Option Fill
  cells : List Cell

/-! ### the lexer -/

/-- src/parser/cell_lexer/mod.rs:22-28 `CellLexer`: the remaining input and the offset (in bytes). -/
structure Lx where
  input : Text
  off : Nat
deriving DecidableEq, Repr

/-- src/parser/cell_lexer/token_match.rs:12-18 `TokenMatch`: the text and the recorded offset. -/
structure CTok where
  s : Text
  off : Nat
deriving DecidableEq, Repr

/-- The outcome of a lexer or parser step: a value and the new state of the lexer, an error pointing at
an offset, or a panic. -/
inductive R (α : Type) where
  | ok (a : α) (l : Lx)
  | err (off : Nat)
  | panic
deriving Repr

/-- A step of the cell parser. -/
abbrev P (α : Type) := Lx → R α

/-- Rust's `?` between steps. -/
instance : Monad P where
  pure a := fun l => .ok a l
  bind m f := fun l => match m l with
    | .ok a l' => f a l'
    | .err o => .err o
    | .panic => .panic

/-- Rust `&s[n..]` for a `str`: `none` is the panic when `n` is outside or not at a character boundary. -/
def dropBytes : Nat → Text → Option Text
  | 0, s => some s
  | _ + 1, [] => none
  | n + 1, c :: s => if c.utf8Size ≤ n + 1 then dropBytes (n + 1 - c.utf8Size) s else none

/-- Rust `&s[..n]` for a `str`. -/
def takeBytes : Nat → Text → Option Text
  | 0, _ => some []
  | _ + 1, [] => none
  | n + 1, c :: s =>
    if c.utf8Size ≤ n + 1 then (takeBytes (n + 1 - c.utf8Size) s).map (c :: ·) else none

/-- src/parser/cell_lexer/mod.rs:342-345 `move_input`. -/
def moveInput (n : Nat) : P Unit := fun l =>
  match dropBytes n l.input with
  | some r => .ok () ⟨r, l.off + n⟩
  | none => .panic

/-- src/parser/cell_lexer/mod.rs:347-350 `replace_input`. -/
def replaceInput (r : Text) (n : Nat) : P Unit := fun l => .ok () ⟨r, l.off + n⟩

/-- src/parser/cell_lexer/mod.rs:338-340 `current_cell_offset`. -/
def Lx.current (l : Lx) : Nat := l.off - 1

/-- Building a parse error at an offset (src/parser/cell_lexer/token_match.rs:41-56 and
src/parser/cell_lexer/unknown_token.rs:23-38): a panic when the field has no position at the offset
(csvp/src/field.rs:22-28); `npos` is the number of positions of the field. -/
def failAt (npos : Nat) (off : Nat) : R α := if off < npos then .err off else .panic

/-- src/parser/cell_lexer/mod.rs:176-184 `unknown_string`. -/
def unknown (npos : Nat) : P α := fun l => failAt npos l.current

/-- `TokenMatch::into_parse_error` (src/parser/cell_lexer/token_match.rs:41-44). -/
def tokErr (npos : Nat) (t : CTok) : P α := fun _ => failAt npos t.off

/-- src/parser/cell_lexer/mod.rs:166-174 `match_token`. -/
def matchToken (s : Text) : P CTok := fun l => .ok ⟨s, l.current⟩ l

/-- src/parser/cell_lexer/mod.rs:161-164 `take_whitespace`. -/
def takeWhitespace : P Unit := fun l =>
  moveInput (byteLen l.input - byteLen (trimStart l.input)) l

/-- src/parser/cell_lexer/mod.rs:186-196 `maybe_take`. -/
def maybeTake (sub : Text) : P (Option CTok) := do
  takeWhitespace
  fun l =>
    if sub.isPrefixOf l.input then
      (do let t ← matchToken sub
          replaceInput (l.input.drop sub.length) (byteLen sub)
          pure (some t) : P (Option CTok)) l
    else .ok none l

/-- src/parser/cell_lexer/mod.rs:210-220 `take`. -/
def take (npos : Nat) (sub : Text) : P CTok := do
  takeWhitespace
  fun l =>
    if sub.isPrefixOf l.input then
      (do let t ← matchToken sub
          replaceInput (l.input.drop sub.length) (byteLen sub)
          pure t : P CTok) l
    else unknown npos l

/-- src/parser/cell_lexer/mod.rs:313-335 `take_while`. -/
def takeWhile (npos : Nat) (f : Char → Bool) : P CTok := do
  takeWhitespace
  fun l =>
    let m := l.input.takeWhile f
    if m = [] then unknown npos l
    else (do moveInput (byteLen m); matchToken m : P CTok) l

/-- src/parser/cell_lexer/mod.rs:198-208 `maybe_take_regex` (with src/parser/token_matcher.rs:33-45). -/
def maybeTakeRegex (m : Text → Match) : P (Option CTok) := fun l =>
  match tryMatch m l.input with
  | none => .ok none l
  | some (blanks, full, _) =>
    (do moveInput blanks
        let t ← matchToken (trim full)
        moveInput (byteLen (trim full))
        pure (some t) : P (Option CTok)) l

/-- Up to `n` digits. -/
def mDigits (u : Uni) (lo hi : Nat) (p : Text) : Match :=
  let m := (p.take hi).takeWhile u.isD
  if lo ≤ m.length then some (m, p.drop m.length) else none

/-- One match after another. -/
def mSeq (a b : Text → Match) (p : Text) : Match :=
  match a p with
  | none => none
  | some (s, r) => (b r).map fun (t, r') => (s ++ t, r')

/-- src/parser/cell_lexer/token_library.rs:29-32 `date`:
`(?:(?:\d\d\d\d\-\d\d\-\d\d)|(?:\d{1,2}\/\d{1,2}\/\d{2,4}))`.  A digit given back cannot be followed by
`-` or `/`, so there is no backtracking. -/
def mDate (u : Uni) (p : Text) : Match :=
  match mSeq (mDigits u 4 4) (mSeq (mLit "-".toList) (mSeq (mDigits u 2 2) (mSeq (mLit "-".toList)
      (mDigits u 2 2)))) p with
  | some m => some m
  | none => mSeq (mDigits u 1 2) (mSeq (mLit "/".toList) (mSeq (mDigits u 1 2) (mSeq (mLit "/".toList)
      (mDigits u 2 4)))) p

/-- The optional sign of a number (src/parser/cell_lexer/token_library.rs:34): `-?`. -/
def mSign : Text → Text × Text
  | '-' :: r => (['-'], r)
  | p => ([], p)

/-- src/parser/cell_lexer/token_library.rs:34 `number`: `-?\d+(\.\d+)?`. -/
def mNumber (u : Uni) (p : Text) : Match :=
  let sign := (mSign p).1
  match mPlus u.isD (mSign p).2 with
  | none => none
  | some (m, '.' :: r) =>
    match mPlus u.isD r with
    | some (m', r') => some (sign ++ m ++ '.' :: m', r')
    | none => some (sign ++ m, '.' :: r)
  | some (m, r) => some (sign ++ m, r)

/-- src/parser/cell_lexer/token_library.rs:35 `single_quoted_string`: `'(?:''|[^'])*'`, of which only
whether it matches is used: there must be a second quote. -/
def mSingleQuoted (p : Text) : Match :=
  match p with
  | [] => none
  | c :: r => if c = '\'' ∧ '\'' ∈ r then some ([c], r) else none

/-- src/parser/cell_lexer/mod.rs:280-302, the loop of `take_single_quoted_string` after the opening
quote: the text and the number of characters consumed, or `none` when the end is reached. -/
def quotedLoop : Bool → Text → Nat → Text → Option (Text × Nat)
  | _, _, _, [] => none
  | true, acc, n, c :: r => quotedLoop false (acc ++ [c]) (n + 1) r
  | false, acc, n, c :: r =>
    if c = '\\' then quotedLoop true acc (n + 1) r
    else if c = '\'' then some (acc, n + 1)
    else quotedLoop false (acc ++ [c]) (n + 1) r

/-- src/parser/cell_lexer/mod.rs:269-311 `take_single_quoted_string`. -/
def takeSingleQuoted (npos : Nat) : P CTok := do
  takeWhitespace
  fun l =>
    match l.input with
    | [] => unknown npos l
    | c :: r =>
      if c = '\'' then
        match quotedLoop false [] 1 r with
        | some (t, n) => (do let tok ← matchToken t; moveInput n; pure tok : P CTok) l
        | none => unknown npos l
      else unknown npos l

/-- src/parser/cell_lexer/mod.rs:259-267 `take_string`. -/
def takeString (E : Env) (npos : Nat) : P CTok := do
  takeWhitespace
  fun l =>
    match l.input with
    | '\'' :: _ => takeSingleQuoted npos l
    | _ => takeWhile npos E.alnum l

/-- src/parser/cell_lexer/mod.rs:229-252, the loop of `take_color`: the matched text or an error. -/
def colorLoop (alnum : Char → Bool) : Nat → Bool → Text → Text → Option Text
  | _, _, acc, [] => some acc
  | n, hash, acc, c :: r =>
    if c = '#' ∧ hash = false then colorLoop alnum n true (acc ++ [c]) r
    else if alnum c then
      if n > 6 then none else colorLoop alnum (n + 1) hash (acc ++ [c]) r
    else if n = 3 ∨ n = 6 then some acc
    else none

/-- src/parser/cell_lexer/mod.rs:222-257 `take_color`. -/
def takeColor (E : Env) (npos : Nat) : P CTok := do
  takeWhitespace
  fun l =>
    match colorLoop E.alnum 0 false [] l.input with
    | none => unknown npos l
    | some m => (do let t ← matchToken m; moveInput (byteLen m); pure t : P CTok) l

/-- src/parser/cell_lexer/mod.rs:145-159 `take_date`. -/
def takeDate (E : Env) (npos : Nat) : P CTok := do
  takeWhitespace
  let m ← maybeTakeRegex (mDate E.uni)
  match m with
  | some t => pure t
  | none => unknown npos

/-- src/parser/cell_lexer/mod.rs:122-124: the characters of an A1 reference. -/
def isA1 (E : Env) (c : Char) : Bool := E.alnum c || c == '!' || c == '\'' || c == ':' || c == '$'

/-- src/parser/cell_lexer/mod.rs:131: the characters of an identifier. -/
def isIdent (E : Env) (c : Char) : Bool := E.alnum c || c == '_'

/-- src/parser/cell_lexer/mod.rs:134: the characters of a number. -/
def isNum (c : Char) : Bool := c.isDigit || c == '-' || c == '.'

/-- src/parser/cell_lexer/mod.rs:64-67 `take_option_right_side`. -/
def takeRight (E : Env) (npos : Nat) : P CTok := do
  let _ ← take npos "=".toList
  takeWhile npos (isIdent E)

/-! ### converting tokens -/

/-- The value of a hexadecimal digit. -/
def hexVal (c : Char) : Option Nat :=
  if '0' ≤ c ∧ c ≤ '9' then some (c.toNat - '0'.toNat)
  else if 'a' ≤ c ∧ c ≤ 'f' then some (c.toNat - 'a'.toNat + 10)
  else if 'A' ≤ c ∧ c ≤ 'F' then some (c.toNat - 'A'.toNat + 10)
  else none

/-- Rust `u8::from_str_radix(s, 16)` (a leading `+`, which it also accepts, cannot occur in a colour
token). -/
def hexByte (s : Text) : Option UInt8 :=
  match s.foldl (fun (a : Option Nat) c => a.bind fun n => (hexVal c).map fun d => n * 16 + d) (some 0) with
  | none => none
  | some n => if s ≠ [] ∧ n < 256 then some (UInt8.ofNat n) else none

/-- src/rgb/try_from.rs:5-16 `string_to_hex`. -/
def stringToHex (s : Text) (double : Bool) : Option UInt8 := hexByte (if double then s ++ s else s)

/-- Outcome of a conversion: a value, an error or a panic. -/
inductive Conv (α : Type) where | ok (a : α) | err | panic
deriving Repr

/-- Slice `[i..i+k]` of a `str`, then the digits. -/
def hexAt (s : Text) (i k : Nat) (double : Bool) : Conv UInt8 :=
  match (dropBytes i s).bind (takeBytes k) with
  | none => .panic
  | some t => match stringToHex t double with
    | some v => .ok v
    | none => .err

/-- src/rgb/try_from.rs:18-32 `parse_str`. -/
def rgbParse (s : Text) : Conv Rgb :=
  let (k, d) : Nat × Bool := if byteLen s = 6 then (2, false) else (1, true)
  match hexAt s 0 k d with
  | .err => .err
  | .panic => .panic
  | .ok r => match hexAt s k k d with
    | .err => .err
    | .panic => .panic
    | .ok g => match hexAt s (2 * k) k d with
      | .err => .err
      | .panic => .panic
      | .ok b => .ok ⟨r, g, b⟩

/-- src/rgb/try_from.rs:37-51 `Rgb::try_from`. -/
def rgbTryFrom (s : Text) : Conv Rgb :=
  let t := match s with | '#' :: r => r | _ => s
  if byteLen t = 3 ∨ byteLen t = 6 then rgbParse t else .err

/-- An upper-case hexadecimal digit. -/
def hexDigit (n : Nat) : Char := if n < 10 then Char.ofNat ('0'.toNat + n) else Char.ofNat ('A'.toNat + (n - 10))

/-- Rust `{:02X}` of a `u8`. -/
def hex2 (v : UInt8) : Text := [hexDigit (v.toNat / 16), hexDigit (v.toNat % 16)]

/-- src/rgb/display.rs:4-8 `Display for Rgb`. -/
def Rgb.display (c : Rgb) : Text := '#' :: (hex2 c.r ++ hex2 c.g ++ hex2 c.b)

/-- src/rgb/mod.rs:23-25 `to_rgba`. -/
def Rgb.toRgba (c : Rgb) : Text := hex2 c.r ++ hex2 c.g ++ hex2 c.b ++ "FF".toList

/-- Rust `str::parse::<i64>`. -/
def parseInt (t : Text) : Option Int :=
  let digits (d : Text) : Option Nat := if d ≠ [] ∧ d.all Char.isDigit then some (Nat.ofDigitChars 10 d 0) else none
  match t with
  | '-' :: d => (digits d).bind fun n => if n ≤ 2 ^ 63 then some (-(n : Int)) else none
  | '+' :: d => (digits d).bind fun n => if n < 2 ^ 63 then some (n : Int) else none
  | _ => (digits t).bind fun n => if n < 2 ^ 63 then some (n : Int) else none

/-- Rust `str::parse` of the digits of a token to an unsigned number below `bound`. -/
def parseUInt (bound : Nat) (t : Text) : Option Nat :=
  if t ≠ [] ∧ t.all Char.isDigit ∧ Nat.ofDigitChars 10 t 0 < bound then some (Nat.ofDigitChars 10 t 0) else none

/-- src/cell_options/border_side.rs:21-26. -/
def borderSides : List (Text × BorderSide) :=
  [("a".toList, .all), ("all".toList, .all), ("t".toList, .top), ("top".toList, .top),
   ("b".toList, .bottom), ("bottom".toList, .bottom), ("l".toList, .left), ("left".toList, .left),
   ("r".toList, .right), ("right".toList, .right)]
/-- src/cell_options/border_style.rs:21-27. -/
def borderStyles : List (Text × BorderStyle) :=
  [("dash".toList, .dashed), ("dashed".toList, .dashed), ("dot".toList, .dotted), ("dotted".toList, .dotted),
   ("dbl".toList, .double), ("double".toList, .double), ("1".toList, .solid), ("solid".toList, .solid),
   ("2".toList, .solidMedium), ("solid_medium".toList, .solidMedium),
   ("3".toList, .solidThick), ("solid_thick".toList, .solidThick)]
/-- src/cell_options/horizontal_align.rs:17-20. -/
def hAligns : List (Text × HAlign) :=
  [("c".toList, .center), ("center".toList, .center), ("l".toList, .left), ("left".toList, .left),
   ("r".toList, .right), ("right".toList, .right)]
/-- src/cell_options/vertical_align.rs:18-21. -/
def vAligns : List (Text × VAlign) :=
  [("b".toList, .bottom), ("bottom".toList, .bottom), ("c".toList, .center), ("center".toList, .center),
   ("t".toList, .top), ("top".toList, .top)]
/-- src/cell_options/number_format.rs:22-30. -/
def numFmts : List (Text × NumFmt) :=
  [("c".toList, .currency), ("currency".toList, .currency), ("d".toList, .date), ("date".toList, .date),
   ("dt".toList, .datetime), ("datetime".toList, .datetime), ("n".toList, .number), ("number".toList, .number),
   ("p".toList, .percent), ("percent".toList, .percent), ("text".toList, .text),
   ("t".toList, .time), ("time".toList, .time), ("s".toList, .scientific), ("scientific".toList, .scientific)]
/-- src/cell_options/text_format.rs:17-21. -/
def textFmts : List (Text × TextFmt) :=
  [("b".toList, .bold), ("bold".toList, .bold), ("i".toList, .italic), ("italic".toList, .italic),
   ("s".toList, .strikethrough), ("strikethrough".toList, .strikethrough),
   ("u".toList, .underline), ("underline".toList, .underline)]
/-- src/cell_options/text_wrap.rs:17-20. -/
def wraps : List (Text × Wrap) :=
  [("c".toList, .clip), ("clip".toList, .clip), ("o".toList, .overflow), ("overflow".toList, .overflow),
   ("w".toList, .wrap), ("wrap".toList, .wrap)]

/-- `X::try_from(self.lexer.take_option_right_side()?)?` for the option types above: the lower-cased
text is looked up; an unknown value is an error at the token (src/error/cell_parse_error.rs:33-60). -/
def takeEnum (E : Env) (npos : Nat) (table : List (Text × α)) : P α := do
  let t ← takeRight E npos
  match table.lookup (E.lower t.s) with
  | some v => pure v
  | none => tokErr npos t

/-- `Rgb::try_from(self.lexer.take_token(Token::Color)?)?` after the `=`. -/
def takeRgb (E : Env) (npos : Nat) : P Rgb := do
  let _ ← take npos "=".toList
  let t ← takeColor E npos
  match rgbTryFrom t.s with
  | .ok c => pure c
  | .err => tokErr npos t
  | .panic => fun _ => .panic

/-- `=` and then a string (src/parser/cell_parser/mod.rs:171-174, 205-208). -/
def takeEqString (E : Env) (npos : Nat) : P Text := do
  let _ ← take npos "=".toList
  let t ← takeString E npos
  pure t.s

/-! ### data validation -/

/-- src/parser/cell_parser/validate.rs:299-303 `one_string_in_parens`. -/
def oneString (E : Env) (npos : Nat) : P Text := do
  let _ ← take npos "(".toList
  let t ← takeString E npos
  let _ ← take npos ")".toList
  pure t.s

/-- `TokenMatch::into_number` (src/parser/cell_lexer/token_match.rs:22-26). -/
def intoNumber (npos : Nat) (t : CTok) : P Int :=
  match parseInt t.s with
  | some n => pure n
  | none => tokErr npos t

/-- `DateTime::try_from` a token (src/date_time/try_from.rs:31-57). -/
def intoDate (E : Env) (npos : Nat) (t : CTok) : P Text :=
  match E.date t.s with
  | some d => pure d
  | none => tokErr npos t

/-- The pattern of `take_parens!` (src/parser/cell_parser/validate.rs:7-14) when the value in the
parentheses is a `Result`: its error (already built) is returned after the `)` was taken. -/
def delayed (npos : Nat) (v : P α) : P α := fun l =>
  match v l with
  | .panic => .panic
  | .ok a l' => (do let _ ← take npos ")".toList; pure a : P α) l'
  | .err o => match take npos ")".toList l with
    | .ok _ _ => .err o
    | .err o' => .err o'
    | .panic => .panic

/-- src/parser/cell_parser/validate.rs:284-288 `one_number_in_parens`. -/
def oneNumber (npos : Nat) : P Int := do
  let _ ← take npos "(".toList
  let t ← takeWhile npos isNum
  delayed npos (intoNumber npos t)

/-- src/parser/cell_parser/validate.rs:290-297 `two_numbers_in_parens`. -/
def twoNumbers (npos : Nat) : P (Int × Int) := do
  let _ ← take npos "(".toList
  let s ← takeWhile npos isNum
  let m ← intoNumber npos s
  let t ← takeWhile npos isNum
  let n ← intoNumber npos t
  let _ ← take npos ")".toList
  pure (m, n)

/-- src/parser/cell_parser/validate.rs:269-273 `one_date_in_parens`. -/
def oneDate (E : Env) (npos : Nat) : P Text := do
  let _ ← take npos "(".toList
  let t ← takeDate E npos
  delayed npos (intoDate E npos t)

/-- src/parser/cell_parser/validate.rs:275-282 `two_dates_in_parens`. -/
def twoDates (E : Env) (npos : Nat) : P (Text × Text) := do
  let _ ← take npos "(".toList
  let s ← takeDate E npos
  let m ← intoDate E npos s
  let t ← takeDate E npos
  let n ← intoDate E npos t
  let _ ← take npos ")".toList
  pure (m, n)

/-- src/parser/cell_parser/validate.rs:258-267 `validate_value_in_range`. -/
def inRange (E : Env) (npos : Nat) : P Text := do
  let _ ← take npos "(".toList
  let t ← takeWhile npos (isA1 E)
  match E.a1 t.s with
  | some r => do
    let _ ← take npos ")".toList
    pure r
  | none => tokErr npos t

/-- src/parser/cell_lexer/mod.rs:85-98 `maybe_take_single_quoted_string`, with the `.unwrap_or(None)` of
src/parser/cell_parser/validate.rs:238: an error is ignored, but the white space skipped before it stays
skipped. -/
def maybeSingleQuoted (npos : Nat) : P (Option CTok) := fun l =>
  match tryMatch mSingleQuoted l.input with
  | none => .ok none l
  | some _ => match takeSingleQuoted npos l with
    | .ok t l' => .ok (some t) l'
    | .panic => .panic
    | .err _ => (do takeWhitespace; pure none : P (Option CTok)) l

/-- src/parser/cell_parser/validate.rs:234-247 with src/parser/cell_lexer/token_match.rs:67-88
`TryFrom<TokenMatch> for Ast`: one value of a list. -/
def listValue (E : Env) (npos : Nat) : P Ast := do
  match ← maybeTakeRegex (mDate E.uni) with
  | some t => do
    let d ← intoDate E npos t
    pure (.date d)
  | none =>
    match ← maybeTakeRegex (mNumber E.uni) with
    | some t =>
      if '.' ∈ t.s then
        match E.f64 t.s with
        | some f => pure (.float false none f)
        | none => tokErr npos t
      else do
        let n ← intoNumber npos t
        pure (.int false none n)
    | none =>
      match ← maybeSingleQuoted npos with
      | some t =>
        match textUnquote t.s with
        | some s => pure (.text s)
        | none => tokErr npos t
      | none =>
        match ← maybeTakeRegex (mPlus E.uni.isW) with
        | some t => pure (.ref t.s)
        | none => unknown npos

/-- src/parser/cell_parser/validate.rs:224-252, the loop over the values; `fuel` bounds the number of
values. -/
def listLoop (E : Env) (npos : Nat) : Nat → P (List Ast)
  | 0 => fun _ => .panic
  | n + 1 => do
    let v ← listValue E npos
    fun l =>
      -- src/parser/cell_lexer/mod.rs:109-114 `peek_close_parenthesis`
      match tryMatch (mLit ")".toList) l.input with
      | some _ => .ok [v] l
      | none => (do let vs ← listLoop E npos n; pure (v :: vs) : P (List Ast)) l

/-- src/parser/cell_parser/validate.rs:221-256 `validate_value_in_list`. -/
def inList (E : Env) (npos : Nat) : P (List Ast) := do
  let _ ← take npos "(".toList
  let vs ← fun l => listLoop E npos (l.input.length + 1) l
  let _ ← take npos ")".toList
  pure vs

/-- The alternatives of src/parser/cell_parser/validate.rs:34-62. -/
inductive VKind where
  | custom | dateAfter | dateBefore | dateBetween | dateEqualTo | inList | inRange | dateIsValid
  | email | url | dateNotBetween | dateOnOrAfter | dateOnOrBefore | numBetween | numEq | numGt | numGte
  | numLt | numLte | numNotBetween | numNeq | textContains | textDoesNotContain | textEq
deriving DecidableEq, Repr

/-- src/parser/cell_parser/validate.rs:34-62: the names. -/
def validators : List (Text × VKind) :=
  [("c".toList, .custom), ("custom".toList, .custom),
   ("date_gt".toList, .dateAfter), ("date_after".toList, .dateAfter),
   ("date_lt".toList, .dateBefore), ("date_before".toList, .dateBefore),
   ("date_btwn".toList, .dateBetween), ("date_between".toList, .dateBetween),
   ("date_eq".toList, .dateEqualTo), ("date_equal_to".toList, .dateEqualTo),
   ("in_list".toList, .inList), ("in_range".toList, .inRange),
   ("is_date".toList, .dateIsValid), ("date_is_valid".toList, .dateIsValid),
   ("is_email".toList, .email), ("is_valid_email".toList, .email),
   ("is_url".toList, .url), ("is_valid_url".toList, .url),
   ("date_nbtwn".toList, .dateNotBetween), ("date_not_between".toList, .dateNotBetween),
   ("date_gte".toList, .dateOnOrAfter), ("date_on_or_after".toList, .dateOnOrAfter),
   ("date_lte".toList, .dateOnOrBefore), ("date_on_or_before".toList, .dateOnOrBefore),
   ("num_btwn".toList, .numBetween), ("number_between".toList, .numBetween),
   ("num_eq".toList, .numEq), ("number_equal_to".toList, .numEq),
   ("num_gt".toList, .numGt), ("number_greater_than".toList, .numGt),
   ("num_gte".toList, .numGte), ("number_greater_than_or_equal_to".toList, .numGte),
   ("num_lt".toList, .numLt), ("number_less_than".toList, .numLt),
   ("num_lte".toList, .numLte), ("number_less_than_or_equal_to".toList, .numLte),
   ("num_nbtwn".toList, .numNotBetween), ("number_not_between".toList, .numNotBetween),
   ("num_neq".toList, .numNeq), ("number_not_equal_to".toList, .numNeq),
   ("text_contains".toList, .textContains), ("text_does_not_contain".toList, .textDoesNotContain),
   ("text_eq".toList, .textEq), ("text_equal_to".toList, .textEq)]

/-- src/parser/cell_parser/validate.rs:97-267: the argument of each validator. -/
def validator (E : Env) (npos : Nat) : VKind → P Validation
  | .custom => do let t ← oneString E npos; pure (.custom t)
  | .dateAfter => do let d ← oneDate E npos; pure (.dateAfter d)
  | .dateBefore => do let d ← oneDate E npos; pure (.dateBefore d)
  | .dateBetween => do let (a, b) ← twoDates E npos; pure (.dateBetween a b)
  | .dateEqualTo => do let d ← oneDate E npos; pure (.dateEqualTo d)
  | .inList => do let vs ← inList E npos; pure (.valueInList vs)
  | .inRange => do let r ← inRange E npos; pure (.valueInRange r)
  | .dateIsValid => pure .dateIsValid
  | .email => pure .textIsValidEmail
  | .url => pure .textIsValidUrl
  | .dateNotBetween => do let (a, b) ← twoDates E npos; pure (.dateNotBetween a b)
  | .dateOnOrAfter => do let d ← oneDate E npos; pure (.dateOnOrAfter d)
  | .dateOnOrBefore => do let d ← oneDate E npos; pure (.dateOnOrBefore d)
  | .numBetween => do let (a, b) ← twoNumbers npos; pure (.numberBetween a b)
  | .numEq => do let n ← oneNumber npos; pure (.numberEqualTo n)
  | .numGt => do let n ← oneNumber npos; pure (.numberGreaterThan n)
  | .numGte => do let n ← oneNumber npos; pure (.numberGreaterThanOrEqualTo n)
  | .numLt => do let n ← oneNumber npos; pure (.numberLessThan n)
  | .numLte => do let n ← oneNumber npos; pure (.numberLessThanOrEqualTo n)
  | .numNotBetween => do let (a, b) ← twoNumbers npos; pure (.numberNotBetween a b)
  | .numNeq => do let n ← oneNumber npos; pure (.numberNotEqualTo n)
  | .textContains => do let t ← oneString E npos; pure (.textContains t)
  | .textDoesNotContain => do let t ← oneString E npos; pure (.textDoesNotContain t)
  | .textEq => do let t ← oneString E npos; pure (.textEqualTo t)

/-- src/parser/cell_parser/validate.rs:31-95 `validate`. -/
def takeValidation (E : Env) (npos : Nat) : P Validation := do
  let name ← takeRight E npos
  match validators.lookup (E.lower name.s) with
  | some k => validator E npos k
  | none => tokErr npos name

/-! ### options -/

/-- The alternatives of src/parser/cell_parser/mod.rs:247-264. -/
inductive OKind where
  | border | borderColor | borderStyle | color | validate | fill | fontColor | fontFamily | fontSize
  | halign | lock | note | numFmt | text | var | valign | wrap
deriving DecidableEq, Repr

/-- src/parser/cell_parser/mod.rs:247-264: the option names. -/
def optionNames : List (Text × OKind) :=
  [("b".toList, .border), ("border".toList, .border), ("bc".toList, .borderColor), ("bordercolor".toList, .borderColor),
   ("bs".toList, .borderStyle), ("borderstyle".toList, .borderStyle), ("c".toList, .color), ("color".toList, .color),
   ("dv".toList, .validate), ("validate".toList, .validate), ("f".toList, .fill), ("fill".toList, .fill),
   ("fc".toList, .fontColor), ("fontcolor".toList, .fontColor), ("ff".toList, .fontFamily), ("fontfamily".toList, .fontFamily),
   ("fs".toList, .fontSize), ("fontsize".toList, .fontSize), ("ha".toList, .halign), ("halign".toList, .halign),
   ("l".toList, .lock), ("lock".toList, .lock), ("n".toList, .note), ("note".toList, .note),
   ("nf".toList, .numFmt), ("numberformat".toList, .numFmt), ("t".toList, .text), ("text".toList, .text),
   ("v".toList, .var), ("var".toList, .var), ("va".toList, .valign), ("valign".toList, .valign),
   ("w".toList, .wrap), ("wrap".toList, .wrap)]

/-- What an option list works on: the row and the cell (src/parser/cell_parser/mod.rs:14-23). -/
structure Target where
  row : RowS
  cell : Opts

/-- `assign_option!`, `assign_some_option!` and `insert_option!` (src/parser/cell_parser/mod.rs:25-56):
the update goes to the row or to the cell. -/
def Target.assign (t : Target) (isRow : Bool) (f : Opts → Opts) : Target :=
  if isRow then { t with row := { t.row with opts := f t.row.opts } } else { t with cell := f t.cell }

/-- The update of each option but `fill` (src/parser/cell_parser/mod.rs:118-243, validate.rs:16-28). -/
def optionUpdate (E : Env) (npos : Nat) : OKind → P (Opts → Opts)
  | .border => do
    let s ← takeEnum E npos borderSides
    pure fun o => { o with borders := fun x => x == s || o.borders x }
  | .borderColor => do let c ← takeRgb E npos; pure fun o => { o with borderColor := some c }
  | .borderStyle => do let v ← takeEnum E npos borderStyles; pure fun o => { o with borderStyle := v }
  | .color => do let c ← takeRgb E npos; pure fun o => { o with color := some c }
  | .validate => do let v ← takeValidation E npos; pure fun o => { o with validation := some v }
  | .fontColor => do let c ← takeRgb E npos; pure fun o => { o with fontColor := some c }
  | .fontFamily => do let s ← takeEqString E npos; pure fun o => { o with fontFamily := some s }
  | .fontSize => do
    let _ ← take npos "=".toList
    let t ← takeWhile npos Char.isDigit
    match parseUInt 256 t.s with
    | some n => pure fun o => { o with fontSize := some (UInt8.ofNat n) }
    | none => tokErr npos t
  | .halign => do let v ← takeEnum E npos hAligns; pure fun o => { o with halign := v }
  | .lock => pure fun o => { o with lock := true }
  | .note => do let s ← takeEqString E npos; pure fun o => { o with note := some s }
  | .numFmt => do let v ← takeEnum E npos numFmts; pure fun o => { o with numFmt := v }
  | .text => do
    let f ← takeEnum E npos textFmts
    pure fun o => { o with textFmts := fun x => x == f || o.textFmts x }
  | .var => do let t ← takeRight E npos; pure fun o => { o with var := some t.s }
  | .valign => do let v ← takeEnum E npos vAligns; pure fun o => { o with valign := v }
  | .wrap => do let v ← takeEnum E npos wraps; pure fun o => { o with wrap := v }
  | .fill => pure id

/-- src/parser/cell_parser/mod.rs:144-161 `fill_option` (a `usize` has 64 bits). -/
def fillOption (npos : Nat) (isRow : Bool) (y : Nat) (name : CTok) (t : Target) : P Target :=
  if isRow then do
    match ← maybeTake "=".toList with
    | none => pure { t with row := { t.row with fill := some ⟨none, y⟩ } }
    | some _ => do
      let a ← takeWhile npos Char.isDigit
      match parseUInt (2 ^ 64) a.s with
      | some n => pure { t with row := { t.row with fill := some ⟨some n, y⟩ } }
      | none => tokErr npos a
  else tokErr npos name

/-- src/parser/cell_parser/mod.rs:245-267 `option`. -/
def option (E : Env) (npos : Nat) (isRow : Bool) (y : Nat) (t : Target) : P Target := do
  let name ← takeWhile npos E.alnum
  match optionNames.lookup name.s with
  | none => tokErr npos name
  | some .fill => fillOption npos isRow y name t
  | some k => do
    let f ← optionUpdate E npos k
    pure (t.assign isRow f)

/-- src/parser/cell_parser/mod.rs:269-283 `parse_cell_options`; `fuel` bounds the number of options. -/
def optionsLoop (E : Env) (npos : Nat) (isRow : Bool) (y : Nat) : Nat → Target → P Target
  | 0, _ => fun _ => .panic
  | n + 1, t => do
    let t ← option E npos isRow y t
    match ← maybeTake "/".toList with
    | some _ => optionsLoop E npos isRow y n t
    | none =>
      match ← maybeTake "]]".toList with
      | some _ => pure t
      | none => optionsLoop E npos isRow y n t

/-- src/parser/cell_lexer/mod.rs:46-60 `maybe_take_start_options`: whether the list is for the row, and
the token. -/
def maybeStart : P (Option (Bool × CTok)) := do
  match ← maybeTake "[[".toList with
  | some t => pure (some (false, t))
  | none =>
    match ← maybeTake "![[".toList with
    | some t => pure (some (true, t))
    | none => pure none

/-- The options a cell takes over from its row: src/cell/mod.rs:84-106 `default_from`. -/
def Opts.inherited (o : Opts) : Opts := { o with var := none }

/-- src/parser/cell_parser/mod.rs:82-115, the loop over the option lists of a cell and its result: the
row, the options of the cell and the rest of the text; `fuel` bounds the number of lists. -/
def listsLoop (E : Env) (npos x y : Nat) : Nat → RowS → Option Opts → P (RowS × Opts × Text)
  | 0, _, _ => fun _ => .panic
  | n + 1, row, parsed => do
    match ← maybeStart with
    | none => fun l => .ok (row, parsed.getD row.opts.inherited, trim l.input) l
    | some (isRow, tok) =>
      if isRow = true ∧ x ≠ 0 then tokErr npos tok
      else if isRow = false ∧ parsed.isSome = true then tokErr npos tok
      else do
        let t ← fun l => optionsLoop E npos isRow y (l.input.length + 1) ⟨row, row.opts.inherited⟩ l
        listsLoop E npos x y n t.row (if isRow then parsed else some t.cell)

/-- src/parser/cell_parser/mod.rs:74-116 `parse_cell`. -/
def parseCell (E : Env) (f : Csvp.Field) (row : RowS) : R (RowS × Opts × Text) :=
  listsLoop E f.positions.length f.addr.x f.addr.y (f.value.length + 1) row none ⟨f.value, 0⟩

/-- The outcome of parsing a cell or row: an error in the options, an error in the formula, a panic. -/
inductive CErr where | options (off : Nat) | formula (e : PErr) | panic
deriving Repr

/-- src/cell/mod.rs:39-48 `parse_ast`. -/
def parseAst (E : Env) (value : Text) : Except PErr (Option Ast) :=
  match value with
  | '=' :: _ =>
    match Parser.parse E.uni E.f64 value with
    | .ok a => .ok (some a)
    | .error e => .error e
  | _ => .ok none

/-- src/cell/mod.rs:76-81 `Cell::parse`. -/
def cellParse (E : Env) (f : Csvp.Field) (row : RowS) : Except CErr (RowS × Cell) :=
  match parseCell E f row with
  | .panic => .error .panic
  | .err o => .error (.options o)
  | .ok (row', opts, value) _ =>
    match parseAst E value with
    | .error e => .error (.formula e)
    | .ok a => .ok (row', ⟨a, f, value, opts⟩)

/-- src/row/mod.rs:59-63: the cells of a row from left to right. -/
def cellsLoop (E : Env) : RowS → List Csvp.Field → Except CErr (RowS × List Cell)
  | row, [] => .ok (row, [])
  | row, f :: fs =>
    match cellParse E f row with
    | .error e => .error e
    | .ok (row', c) =>
      match cellsLoop E row' fs with
      | .error e => .error e
      | .ok (row'', cs) => .ok (row'', c :: cs)

/-- src/row/mod.rs:57-66 `Row::parse`. -/
def rowParse (E : Env) (fs : List Csvp.Field) : Except CErr Row :=
  match cellsLoop E {} fs with
  | .error e => .error e
  | .ok (row, cs) => .ok ⟨row.opts, row.fill, cs⟩

/-- src/cell/display.rs:4-14 `Display for Cell`. -/
def Cell.display (c : Cell) : Text :=
  match c.ast with
  | some a => displayFormula a
  | none => c.value

/-- src/cell/mod.rs:108-110 `side_has_border`. -/
def Cell.sideHasBorder (c : Cell) (s : BorderSide) : Bool := c.opts.borders .all || c.opts.borders s

end Verif.Cell
