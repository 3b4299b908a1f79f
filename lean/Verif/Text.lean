/-
Text primitives shared by all models.  Rust `String`/`&str` values are modelled as `List Char`
(a Lean `Char` is a Unicode scalar value, exactly like a Rust `char`).
-/
namespace Verif

/-- Text: a Rust `str` as the list of its `char`s. -/
abbrev Text := List Char

/-- Rust `char::is_whitespace` (Unicode `White_Space`), used in csvp/src/parser.rs:143,223 and by
`str::trim` (csvp/src/field_builder.rs:14).  The table is the Unicode `White_Space` property list. -/
def isWs (c : Char) : Bool :=
  let n := c.toNat
  (9 ≤ n && n ≤ 13) || n == 0x20 || n == 0x85 || n == 0xA0 || n == 0x1680 ||
  (0x2000 ≤ n && n ≤ 0x200A) || n == 0x2028 || n == 0x2029 || n == 0x202F || n == 0x205F || n == 0x3000

/-- Rust `str::trim_start`. -/
def trimStart (s : Text) : Text := s.dropWhile isWs

/-- Rust `str::trim_end`. -/
def trimEnd (s : Text) : Text := (s.reverse.dropWhile isWs).reverse

/-- Rust `str::trim` (used in csvp/src/field_builder.rs:14 and many more places). -/
def trim (s : Text) : Text := trimEnd (trimStart s)

end Verif
