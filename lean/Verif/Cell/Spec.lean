import Verif.Cell.Model
/-
What a cell's option lists mean, independently of the parser.
-/
namespace Verif.Cell
open Verif.Ast Verif.Parser

/-- One option: which attribute it sets and to what. -/
inductive Setting where
  | border (s : BorderSide) | borderColor (c : Rgb) | borderStyle (v : BorderStyle) | color (c : Rgb)
  | validation (v : Validation) | fontColor (c : Rgb) | fontFamily (t : Text) | fontSize (n : UInt8)
  | halign (v : HAlign) | lock | note (t : Text) | numFmt (v : NumFmt) | textFmt (f : TextFmt)
  | var (t : Text) | valign (v : VAlign) | wrap (v : Wrap)

/-- The last value given for an attribute, or else the default. -/
def lastOr (f : Setting → Option α) (d : α) (ss : List Setting) : α := ss.foldl (fun a s => (f s).getD a) d

/-- Some setting of the list satisfies the predicate. -/
def given (f : Setting → Bool) (ss : List Setting) : Bool := ss.any f

/-- The options after a list of settings: for each attribute the last value given, otherwise the value
before; borders and text formats accumulate. -/
def settled (ss : List Setting) (o : Opts) : Opts where
  borderColor := lastOr (fun | .borderColor c => some (some c) | _ => none) o.borderColor ss
  borderStyle := lastOr (fun | .borderStyle v => some v | _ => none) o.borderStyle ss
  borders := fun x => given (fun | .border s => x == s | _ => false) ss || o.borders x
  color := lastOr (fun | .color c => some (some c) | _ => none) o.color ss
  validation := lastOr (fun | .validation c => some (some c) | _ => none) o.validation ss
  fontColor := lastOr (fun | .fontColor c => some (some c) | _ => none) o.fontColor ss
  fontFamily := lastOr (fun | .fontFamily c => some (some c) | _ => none) o.fontFamily ss
  fontSize := lastOr (fun | .fontSize c => some (some c) | _ => none) o.fontSize ss
  halign := lastOr (fun | .halign c => some c | _ => none) o.halign ss
  lock := given (fun | .lock => true | _ => false) ss || o.lock
  note := lastOr (fun | .note c => some (some c) | _ => none) o.note ss
  numFmt := lastOr (fun | .numFmt c => some c | _ => none) o.numFmt ss
  textFmts := fun x => given (fun | .textFmt s => x == s | _ => false) ss || o.textFmts x
  wrap := lastOr (fun | .wrap c => some c | _ => none) o.wrap ss
  var := lastOr (fun | .var c => some (some c) | _ => none) o.var ss
  valign := lastOr (fun | .valign c => some c | _ => none) o.valign ss

/-- The options of a row as its cells see them: everything but the variable name. -/
def withoutVar (o : Opts) : Opts := { o with var := none }

/-! ### how options are written -/

/-- White space. -/
def W (w : Text) : Prop := ∀ c ∈ w, isWs c = true

/-- The text is empty or starts with something other than white space. -/
def Solid (t : Text) : Prop := ∀ c ∈ t.head?, isWs c = false

/-- All characters are ASCII. -/
def Ascii (t : Text) : Prop := ∀ c ∈ t, c.toNat < 128

/-- `=` with optional white space around it. -/
def EqSign (t : Text) : Prop := ∃ a b, W a ∧ W b ∧ t = a ++ '=' :: b

/-- One of some names. -/
def OneOf (names : List String) (t : Text) : Prop := ∃ n ∈ names, t = n.toList

/-- One of some names in any case, written with letters, digits and underscores. -/
def OneOfCI (E : Env) (names : List String) (t : Text) : Prop :=
  (∀ c ∈ t, isIdent E c = true) ∧ ∃ n ∈ names, E.lower t = n.toList

def sideNames : BorderSide → List String
  | .all => ["a", "all"] | .top => ["t", "top"] | .bottom => ["b", "bottom"]
  | .left => ["l", "left"] | .right => ["r", "right"]
def styleNames : BorderStyle → List String
  | .dashed => ["dash", "dashed"] | .dotted => ["dot", "dotted"] | .double => ["dbl", "double"]
  | .solid => ["1", "solid"] | .solidMedium => ["2", "solid_medium"] | .solidThick => ["3", "solid_thick"]
def halignNames : HAlign → List String
  | .center => ["c", "center"] | .left => ["l", "left"] | .right => ["r", "right"]
def valignNames : VAlign → List String
  | .bottom => ["b", "bottom"] | .center => ["c", "center"] | .top => ["t", "top"]
def numFmtNames : NumFmt → List String
  | .currency => ["c", "currency"] | .date => ["d", "date"] | .datetime => ["dt", "datetime"]
  | .number => ["n", "number"] | .percent => ["p", "percent"] | .text => ["text"]
  | .time => ["t", "time"] | .scientific => ["s", "scientific"]
def textFmtNames : TextFmt → List String
  | .bold => ["b", "bold"] | .italic => ["i", "italic"]
  | .strikethrough => ["s", "strikethrough"] | .underline => ["u", "underline"]
def wrapNames : Wrap → List String
  | .clip => ["c", "clip"] | .overflow => ["o", "overflow"] | .wrap => ["w", "wrap"]

/-- A hexadecimal digit, in upper or lower case, with its value. -/
def HexDigit (c : Char) (n : Nat) : Prop :=
  ['0', '1', '2', '3', '4', '5', '6', '7', '8', '9', 'A', 'B', 'C', 'D', 'E', 'F'][n]? = some c ∨
  ['0', '1', '2', '3', '4', '5', '6', '7', '8', '9', 'a', 'b', 'c', 'd', 'e', 'f'][n]? = some c

/-- A colour: `#RRGGBB` or `RRGGBB` or, with every digit standing for itself twice, `#RGB` or `RGB`. -/
inductive ColorText : Text → Rgb → Prop
  | long {h a b c d e f x : _} {n1 n2 n3 n4 n5 n6 : Nat} (hh : h = [] ∨ h = ['#'])
      (ha : HexDigit a n1) (hb : HexDigit b n2) (hc : HexDigit c n3) (hd : HexDigit d n4)
      (he : HexDigit e n5) (hf : HexDigit f n6)
      (hx : x = ⟨UInt8.ofNat (n1 * 16 + n2), UInt8.ofNat (n3 * 16 + n4), UInt8.ofNat (n5 * 16 + n6)⟩) :
      ColorText (h ++ [a, b, c, d, e, f]) x
  | short {h a b c x : _} {n1 n2 n3 : Nat} (hh : h = [] ∨ h = ['#'])
      (ha : HexDigit a n1) (hb : HexDigit b n2) (hc : HexDigit c n3)
      (hx : x = ⟨UInt8.ofNat (n1 * 17), UInt8.ofNat (n2 * 17), UInt8.ofNat (n3 * 17)⟩) :
      ColorText (h ++ [a, b, c]) x

/-- A text in single quotes: `\` before quotes and backslashes. -/
def squote (t : Text) : Text :=
  '\'' :: (t.flatMap fun c => if c = '\'' ∨ c = '\\' then ['\\', c] else [c]) ++ ['\'']

/-- A string option: in single quotes (here ASCII, see C31), or a bare word. -/
inductive StrText (E : Env) : Text → Text → Prop
  | quoted {t} (h : Ascii t) : StrText E (squote t) t
  | bare {t} (hne : t ≠ []) (h : ∀ c ∈ t, E.alnum c = true) : StrText E t t

/-- A whole number, possibly negative, that fits into 64 bits. -/
inductive NumText : Text → Int → Prop
  | pos {d} (hne : d ≠ []) (h : ∀ c ∈ d, c.isDigit = true) (hb : Nat.ofDigitChars 10 d 0 < 2 ^ 63) :
      NumText d (Nat.ofDigitChars 10 d 0)
  | neg {d} (hne : d ≠ []) (h : ∀ c ∈ d, c.isDigit = true) (hb : Nat.ofDigitChars 10 d 0 ≤ 2 ^ 63) :
      NumText ('-' :: d) (-(Nat.ofDigitChars 10 d 0 : Int))

/-- Between `lo` and `hi` digits. -/
def Digs (lo hi : Nat) (d : Text) : Prop := lo ≤ d.length ∧ d.length ≤ hi ∧ ∀ c ∈ d, c.isDigit = true

/-- A date: `yyyy-mm-dd` or `m/d/yy` up to `mm/dd/yyyy`, that chrono accepts. -/
def DateText (E : Env) (t v : Text) : Prop :=
  E.date t = some v ∧ ∃ a b c,
    (Digs 4 4 a ∧ Digs 2 2 b ∧ Digs 2 2 c ∧ t = a ++ '-' :: (b ++ '-' :: c)) ∨
    (Digs 1 2 a ∧ Digs 1 2 b ∧ Digs 2 4 c ∧ t = a ++ '/' :: (b ++ '/' :: c))

/-- A list value: a date, a number, a string in single quotes or an identifier. -/
inductive ListItem (E : Env) : Text → Ast → Prop
  | date {t v} (h : DateText E t v) : ListItem E t (.date v)
  | num {t n} (h : NumText t n) : ListItem E t (.int false none n)
  | float {s a b f} (hs : s = [] ∨ s = ['-']) (ha : a ≠ []) (ha' : ∀ c ∈ a, c.isDigit = true)
      (hb : b ≠ []) (hb' : ∀ c ∈ b, c.isDigit = true) (hf : E.f64 (s ++ a ++ '.' :: b) = some f) :
      ListItem E (s ++ a ++ '.' :: b) (.float false none f)
  | text {t} (h : Ascii t) (hq : t.head? ≠ some '"') : ListItem E (squote t) (.text t)
  | ident {t} (hne : t ≠ []) (h : ∀ c ∈ t, E.uni.isW c = true) (hd : ∀ c ∈ t.head?, E.uni.isD c = false) :
      ListItem E t (.ref t)

/-- Blanks and tabs. -/
def AsciiBlanks (w : Text) : Prop := ∀ c ∈ w, c = ' ' ∨ c = '\t'

/-- List values separated by blanks. -/
inductive ListItems (E : Env) : Text → List Ast → Prop
  | one {w t a} (hw : AsciiBlanks w) (h : ListItem E t a) : ListItems E (w ++ t) [a]
  | cons {w t a w' s as} (hw : AsciiBlanks w) (h : ListItem E t a) (hne : w' ≠ []) (hw' : AsciiBlanks w')
      (hs : ListItems E s as) : ListItems E (w ++ t ++ w' ++ s) (a :: as)

/-- `(…)` with optional white space before the parentheses and around the argument. -/
def Parens (arg t : Text) : Prop :=
  ∃ a b c, W a ∧ W b ∧ W c ∧ t = a ++ '(' :: (b ++ arg ++ (c ++ [')']))

/-- Two arguments, separated by white space. -/
def Two (x y t : Text) : Prop := ∃ w, W w ∧ w ≠ [] ∧ t = x ++ w ++ y

/-- A validation: the name with its arguments. -/
inductive ValText (E : Env) : Text → Validation → Prop
  | custom {n p s t} (hn : OneOfCI E ["c", "custom"] n) (ht : StrText E s t) (hp : Parens s p) :
      ValText E (n ++ p) (.custom t)
  | dateAfter {n p s d} (hn : OneOfCI E ["date_gt", "date_after"] n) (hd : DateText E s d) (hp : Parens s p) :
      ValText E (n ++ p) (.dateAfter d)
  | dateBefore {n p s d} (hn : OneOfCI E ["date_lt", "date_before"] n) (hd : DateText E s d) (hp : Parens s p) :
      ValText E (n ++ p) (.dateBefore d)
  | dateBetween {n p q s s' d d'} (hn : OneOfCI E ["date_btwn", "date_between"] n) (hd : DateText E s d)
      (hd' : DateText E s' d') (hq : Two s s' q) (hp : Parens q p) : ValText E (n ++ p) (.dateBetween d d')
  | dateEqualTo {n p s d} (hn : OneOfCI E ["date_eq", "date_equal_to"] n) (hd : DateText E s d)
      (hp : Parens s p) : ValText E (n ++ p) (.dateEqualTo d)
  | dateIsValid {n} (hn : OneOfCI E ["is_date", "date_is_valid"] n) : ValText E n .dateIsValid
  | dateNotBetween {n p q s s' d d'} (hn : OneOfCI E ["date_nbtwn", "date_not_between"] n)
      (hd : DateText E s d) (hd' : DateText E s' d') (hq : Two s s' q) (hp : Parens q p) :
      ValText E (n ++ p) (.dateNotBetween d d')
  | dateOnOrAfter {n p s d} (hn : OneOfCI E ["date_gte", "date_on_or_after"] n) (hd : DateText E s d)
      (hp : Parens s p) : ValText E (n ++ p) (.dateOnOrAfter d)
  | dateOnOrBefore {n p s d} (hn : OneOfCI E ["date_lte", "date_on_or_before"] n) (hd : DateText E s d)
      (hp : Parens s p) : ValText E (n ++ p) (.dateOnOrBefore d)
  | numberBetween {n p q s s' i i'} (hn : OneOfCI E ["num_btwn", "number_between"] n) (hd : NumText s i)
      (hd' : NumText s' i') (hq : Two s s' q) (hp : Parens q p) : ValText E (n ++ p) (.numberBetween i i')
  | numberEqualTo {n p s i} (hn : OneOfCI E ["num_eq", "number_equal_to"] n) (hd : NumText s i)
      (hp : Parens s p) : ValText E (n ++ p) (.numberEqualTo i)
  | numberGreaterThan {n p s i} (hn : OneOfCI E ["num_gt", "number_greater_than"] n) (hd : NumText s i)
      (hp : Parens s p) : ValText E (n ++ p) (.numberGreaterThan i)
  | numberGreaterThanOrEqualTo {n p s i} (hn : OneOfCI E ["num_gte", "number_greater_than_or_equal_to"] n)
      (hd : NumText s i) (hp : Parens s p) : ValText E (n ++ p) (.numberGreaterThanOrEqualTo i)
  | numberLessThan {n p s i} (hn : OneOfCI E ["num_lt", "number_less_than"] n) (hd : NumText s i)
      (hp : Parens s p) : ValText E (n ++ p) (.numberLessThan i)
  | numberLessThanOrEqualTo {n p s i} (hn : OneOfCI E ["num_lte", "number_less_than_or_equal_to"] n)
      (hd : NumText s i) (hp : Parens s p) : ValText E (n ++ p) (.numberLessThanOrEqualTo i)
  | numberNotBetween {n p q s s' i i'} (hn : OneOfCI E ["num_nbtwn", "number_not_between"] n)
      (hd : NumText s i) (hd' : NumText s' i') (hq : Two s s' q) (hp : Parens q p) :
      ValText E (n ++ p) (.numberNotBetween i i')
  | numberNotEqualTo {n p s i} (hn : OneOfCI E ["num_neq", "number_not_equal_to"] n) (hd : NumText s i)
      (hp : Parens s p) : ValText E (n ++ p) (.numberNotEqualTo i)
  | textContains {n p s t} (hn : OneOfCI E ["text_contains"] n) (ht : StrText E s t) (hp : Parens s p) :
      ValText E (n ++ p) (.textContains t)
  | textDoesNotContain {n p s t} (hn : OneOfCI E ["text_does_not_contain"] n) (ht : StrText E s t)
      (hp : Parens s p) : ValText E (n ++ p) (.textDoesNotContain t)
  | textEqualTo {n p s t} (hn : OneOfCI E ["text_eq", "text_equal_to"] n) (ht : StrText E s t)
      (hp : Parens s p) : ValText E (n ++ p) (.textEqualTo t)
  | email {n} (hn : OneOfCI E ["is_email", "is_valid_email"] n) : ValText E n .textIsValidEmail
  | url {n} (hn : OneOfCI E ["is_url", "is_valid_url"] n) : ValText E n .textIsValidUrl
  | inList {n a s c vs} (hn : OneOfCI E ["in_list"] n) (ha : W a) (hs : ListItems E s vs)
      (hc : AsciiBlanks c) : ValText E (n ++ (a ++ '(' :: (s ++ (c ++ [')'])))) (.valueInList vs)
  | inRange {n p s r} (hn : OneOfCI E ["in_range"] n) (hne : s ≠ []) (hs : ∀ c ∈ s, isA1 E c = true)
      (hr : E.a1 s = some r) (hp : Parens s p) : ValText E (n ++ p) (.valueInRange r)

/-- An option as it is written: its name, `=` and the value. -/
inductive OptText (E : Env) : Text → Setting → Prop
  | border {n q v x} (hn : OneOf ["b", "border"] n) (hq : EqSign q) (hv : OneOfCI E (sideNames x) v) :
      OptText E (n ++ q ++ v) (.border x)
  | borderColor {n q v x} (hn : OneOf ["bc", "bordercolor"] n) (hq : EqSign q) (hv : ColorText v x) :
      OptText E (n ++ q ++ v) (.borderColor x)
  | borderStyle {n q v x} (hn : OneOf ["bs", "borderstyle"] n) (hq : EqSign q)
      (hv : OneOfCI E (styleNames x) v) : OptText E (n ++ q ++ v) (.borderStyle x)
  | color {n q v x} (hn : OneOf ["c", "color"] n) (hq : EqSign q) (hv : ColorText v x) :
      OptText E (n ++ q ++ v) (.color x)
  | validation {n q v x} (hn : OneOf ["dv", "validate"] n) (hq : EqSign q) (hv : ValText E v x) :
      OptText E (n ++ q ++ v) (.validation x)
  | fontColor {n q v x} (hn : OneOf ["fc", "fontcolor"] n) (hq : EqSign q) (hv : ColorText v x) :
      OptText E (n ++ q ++ v) (.fontColor x)
  | fontFamily {n q v x} (hn : OneOf ["ff", "fontfamily"] n) (hq : EqSign q) (hv : StrText E v x) :
      OptText E (n ++ q ++ v) (.fontFamily x)
  | fontSize {n q v} (hn : OneOf ["fs", "fontsize"] n) (hq : EqSign q) (hne : v ≠ [])
      (hv : ∀ c ∈ v, c.isDigit = true) (hb : Nat.ofDigitChars 10 v 0 < 256) :
      OptText E (n ++ q ++ v) (.fontSize (UInt8.ofNat (Nat.ofDigitChars 10 v 0)))
  | halign {n q v x} (hn : OneOf ["ha", "halign"] n) (hq : EqSign q) (hv : OneOfCI E (halignNames x) v) :
      OptText E (n ++ q ++ v) (.halign x)
  | lock {n} (hn : OneOf ["l", "lock"] n) : OptText E n .lock
  | note {n q v x} (hn : OneOf ["n", "note"] n) (hq : EqSign q) (hv : StrText E v x) :
      OptText E (n ++ q ++ v) (.note x)
  | numFmt {n q v x} (hn : OneOf ["nf", "numberformat"] n) (hq : EqSign q)
      (hv : OneOfCI E (numFmtNames x) v) : OptText E (n ++ q ++ v) (.numFmt x)
  | textFmt {n q v x} (hn : OneOf ["t", "text"] n) (hq : EqSign q) (hv : OneOfCI E (textFmtNames x) v) :
      OptText E (n ++ q ++ v) (.textFmt x)
  | var {n q v} (hn : OneOf ["v", "var"] n) (hq : EqSign q) (hne : v ≠ [])
      (hv : ∀ c ∈ v, isIdent E c = true) : OptText E (n ++ q ++ v) (.var v)
  | valign {n q v x} (hn : OneOf ["va", "valign"] n) (hq : EqSign q) (hv : OneOfCI E (valignNames x) v) :
      OptText E (n ++ q ++ v) (.valign x)
  | wrap {n q v x} (hn : OneOf ["w", "wrap"] n) (hq : EqSign q) (hv : OneOfCI E (wrapNames x) v) :
      OptText E (n ++ q ++ v) (.wrap x)

/-- What separates two options: white space, or a slash with optional white space. -/
def Separator (t : Text) : Prop := (W t ∧ t ≠ []) ∨ ∃ a b, W a ∧ W b ∧ t = a ++ '/' :: b

/-- An entry of a row's option list: a setting, or a fill with an optional number of rows. -/
abbrev Entry := Setting ⊕ Option Nat

/-- An entry as it is written. -/
inductive EntryText (E : Env) : Text → Entry → Prop
  | setting {t s} (h : OptText E t s) : EntryText E t (.inl s)
  | fillRest {n} (hn : OneOf ["f", "fill"] n) : EntryText E n (.inr none)
  | fill {n q v} (hn : OneOf ["f", "fill"] n) (hq : EqSign q) (hne : v ≠ [])
      (hv : ∀ c ∈ v, c.isDigit = true) (hb : Nat.ofDigitChars 10 v 0 < 2 ^ 64) :
      EntryText E (n ++ q ++ v) (.inr (some (Nat.ofDigitChars 10 v 0)))

/-- The settings among the entries. -/
def settings (es : List Entry) : List Setting := es.filterMap Sum.getLeft?

/-- The fill of a row `y` after a list of entries: the last one given, otherwise the one before. -/
def filled (y : Nat) (es : List Entry) (f : Option Fill) : Option Fill :=
  match (es.filterMap Sum.getRight?).getLast? with
  | some n => some ⟨n, y⟩
  | none => f

/-- The inside of an option list. -/
inductive Entries (E : Env) : Text → List Entry → Prop
  | one {t e} (h : EntryText E t e) : Entries E t [e]
  | cons {t e sep r es} (h : EntryText E t e) (hsep : Separator sep) (hr : Entries E r es) :
      Entries E (t ++ sep ++ r) (e :: es)

/-- The option list of a cell: `[[…]]`. -/
def CellList (E : Env) (t : Text) (ss : List Setting) : Prop :=
  ∃ a i b, W a ∧ W b ∧ Entries E i (ss.map .inl) ∧ t = "[[".toList ++ (a ++ i ++ b) ++ "]]".toList

/-- The option list of a row: `![[…]]`. -/
def RowList (E : Env) (t : Text) (es : List Entry) : Prop :=
  ∃ a i b, W a ∧ W b ∧ Entries E i es ∧ t = "![[".toList ++ (a ++ i ++ b) ++ "]]".toList

/-- The text has no option list at its start. -/
def NoList (t : Text) : Prop := ¬ "[[".toList <+: t ∧ ¬ "![[".toList <+: t

/-- A cell as it is written: optional white space, possibly an option list with the settings `ss`, and
the text, of which the value `v` is what is left without the white space around it. -/
def CellText (E : Env) (t : Text) (ss : List Setting) (v : Text) : Prop :=
  ∃ w r, W w ∧ Solid r ∧ NoList r ∧ v = trim r ∧
    ((ss = [] ∧ t = w ++ r) ∨ ∃ w0 l, W w0 ∧ CellList E l ss ∧ t = w0 ++ l ++ (w ++ r))

/-- The first cell of a row as it is written: row option lists (with all their entries in `es`) and then
a cell. -/
inductive FirstText (E : Env) : Text → List Entry → List Setting → Text → Prop
  | cell {t ss v} (h : CellText E t ss v) : FirstText E t [] ss v
  | row {w l es t es' ss v} (hw : W w) (hl : RowList E l es) (h : FirstText E t es' ss v) :
      FirstText E (w ++ l ++ t) (es ++ es') ss v

end Verif.Cell
