import Verif.Ast.Model
/-
Model of the formula and code-section parser:
  src/parser/token_matcher.rs, src/parser/ast_lexer/, src/parser/ast_parser.rs,
  src/parser/code_section_parser.rs, src/ast/display.rs, src/ast/node.rs (text_unquote).

Every regular expression is modelled by the function computing its (leftmost-first, greedy) match at
the start of the input.  The Unicode tables behind `\w` and `\d` are a parameter (`Uni`) for non-ASCII
characters, so theorems hold for every version of the tables.
-/
namespace Verif.Parser
open Verif.Ast

/-- The Unicode tables used by the external regex crate for `\w` and `\d` outside ASCII.  The only
fact about them that is used is that white space is neither. -/
structure Uni where
  word : Char → Bool
  digit : Char → Bool
  word_ws : ∀ c, word c = true → isWs c = false
  digit_ws : ∀ c, digit c = true → isWs c = false

/-- `\d` of the regex crate: `0-9` and, outside ASCII, the decimal digits of the Unicode tables. -/
def Uni.isD (u : Uni) (c : Char) : Bool := if c.toNat < 128 then c.isDigit else u.digit c

/-- `\w` of the regex crate: letters, digits, `_` and, outside ASCII, the word characters of the
Unicode tables. -/
def Uni.isW (u : Uni) (c : Char) : Bool := if c.toNat < 128 then c.isAlphanum || c == '_' else u.word c

/-- The character class `[^\S\r\n]` of src/parser/token_matcher.rs:27 (and the predicate of
`whitespace_start`, lines 15-20): whitespace other than line ends. -/
def isBlank (c : Char) : Bool := isWs c && c != '\r' && c != '\n'

/-- src/parser/ast_lexer/token.rs:1-19 `Token`. -/
inductive Kind where
  | boolean | closeParen | codeSectionEof | comma | comment | dqString | eof | float | fnDef
  | integer | newline | openParen | operator | reference | useModule | varAssign
deriving DecidableEq, Repr

/-- The token and matched text of src/parser/ast_lexer/token_match.rs:11-17 `TokenMatch`. -/
structure Tok where
  kind : Kind
  s : Text
deriving DecidableEq, Repr

/-- src/parser/ast_lexer/token_match.rs:11-17 `TokenMatch` with its position (line offset and line);
the source code and the csv field it also carries are only used for error messages. -/
structure PTok where
  tok : Tok
  offset : Nat
  line : Nat
deriving DecidableEq, Repr

/-- A match: the matched text and the rest of the input. -/
abbrev Match := Option (Text × Text)

/-- Match of a literal. -/
def mLit (l : Text) (p : Text) : Match :=
  if l.isPrefixOf p then some (l, p.drop l.length) else none

/-- Greedy match of one or more characters of a class. -/
def mPlus (f : Char → Bool) (p : Text) : Match :=
  match p.takeWhile f with
  | [] => none
  | m => some (m, p.dropWhile f)

/-- The rest of `"(?:""|[^"])*"` (src/parser/ast_lexer/token_library.rs:46-49) after the opening quote:
a doubled quote is taken as content when some later quote can close the string. -/
def mQuoteRest : Text → Match
  | [] => none
  | c :: r =>
    if c = '"' then
      match r with
      | d :: r' =>
        if d = '"' then
          match mQuoteRest r' with
          | some (m, rest) => some ('"' :: '"' :: m, rest)
          | none => some (['"'], d :: r')
        else some (['"'], d :: r')
      | [] => some (['"'], [])
    else (mQuoteRest r).map fun (m, rest) => (c :: m, rest)

/-- src/parser/ast_lexer/token_library.rs:46-49 `double_quoted_string`. -/
def mQuoted : Text → Match
  | [] => none
  | c :: r => if c = '"' then (mQuoteRest r).map fun (m, rest) => ('"' :: m, rest) else none

/-- src/parser/ast_lexer/token_library.rs:43 `comment`: `#.*` (the dot excludes only the newline). -/
def mComment : Text → Match
  | [] => none
  | c :: r => if c = '#' then some ('#' :: r.takeWhile (· != '\n'), r.dropWhile (· != '\n')) else none

/-- src/parser/ast_lexer/token_library.rs:53 `fn_def`: `fn\s+`. -/
def mFn (p : Text) : Match :=
  match mLit "fn".toList p with
  | none => none
  | some (m, r) => (mPlus isWs r).map fun (w, rest) => (m ++ w, rest)

/-- src/parser/ast_lexer/token_library.rs:50 `operator`, alternatives in order. -/
def mOperator (p : Text) : Match :=
  (["^", "+", "-", "*", "/", "&", "%", "<=", ">=", "<>", "<", ">", "="].map String.toList).findSome?
    fun l => mLit l p

/-- src/parser/ast_lexer/token_library.rs:52 `float`: `\d+\.\d*`. -/
def mFloat (u : Uni) (p : Text) : Match :=
  match mPlus u.isD p with
  | some (m, '.' :: r) => some (m ++ '.' :: r.takeWhile u.isD, r.dropWhile u.isD)
  | _ => none

/-- The class `[$!\w:]` of src/parser/ast_lexer/token_library.rs:56. -/
def Uni.isRef (u : Uni) (c : Char) : Bool := c == '$' || c == '!' || c == ':' || u.isW c

/-- src/parser/ast_lexer/token_library.rs:56 `reference`: `[$!\w:]+[$!\w:.]?`.  The first part is
greedy, so the last optional character can only be a dot. -/
def mReference (u : Uni) (p : Text) : Match :=
  match mPlus u.isRef p with
  | some (m, '.' :: r) => some (m ++ ['.'], r)
  | o => o

/-- src/parser/ast_lexer/mod.rs:32-53 `matchers_ordered`, with the expressions of
src/parser/ast_lexer/token_library.rs:39-59. -/
def matchers (u : Uni) : List (Kind × (Text → Match)) :=
  [(.newline, mLit "\n".toList),
   (.comment, mComment),
   (.dqString, mQuoted),
   (.fnDef, mFn),
   (.useModule, mLit "use".toList),
   (.varAssign, mLit ":=".toList),
   (.comma, mLit ",".toList),
   (.closeParen, mLit ")".toList),
   (.openParen, mLit "(".toList),
   (.operator, mOperator),
   (.codeSectionEof, mLit "---".toList),
   (.float, mFloat u),
   (.integer, mPlus u.isD),
   (.boolean, mLit "true".toList),
   (.boolean, mLit "false".toList),
   (.reference, mReference u)]

/-- src/parser/token_matcher.rs:22-45 `TokenMatcher`: blanks, then the expression.  No expression can
start with a blank, so the greedy blanks are never given back.  Returns the number of leading blanks,
the whole matched text and the rest. -/
def tryMatch (m : Text → Match) (p : Text) : Option (Nat × Text × Text) :=
  match m (p.dropWhile isBlank) with
  | some (s, rest) => some ((p.takeWhile isBlank).length, p.takeWhile isBlank ++ s, rest)
  | none => none

/-- src/parser/ast_lexer/mod.rs:76-108: the first matcher that matches. -/
def firstMatch (u : Uni) (p : Text) : Option (Kind × Nat × Text × Text) :=
  (matchers u).findSome? fun (k, m) => (tryMatch m p).map fun r => (k, r)

/-- Rust `str::len`: the number of bytes of the UTF-8 encoding. -/
def byteLen (s : Text) : Nat := (s.map Char.utf8Size).sum

/-- The result of src/parser/ast_lexer/mod.rs:55-135 `AstLexer::new`: the tokens and the position of the
end, or the remaining input no token matches. -/
inductive LexErr where
  | unknown (rest : Text) (offset line : Nat)
  | fuel
deriving DecidableEq, Repr

/-- src/parser/ast_lexer/mod.rs:73-124, the main loop.  `fuel` bounds the number of rounds; `lex` gives
enough (`lexLoop_fuel`). -/
def lexLoop (u : Uni) : Nat → Text → Nat → Nat → Except LexErr (List PTok × Nat × Nat)
  | 0, _, _, _ => .error .fuel
  | n + 1, p, off, line =>
    match firstMatch u p with
    | some (k, blanks, full, rest) =>
      let tok : List PTok :=
        if k = .newline ∨ k = .comment then []
        else [⟨⟨k, trim full⟩, off + blanks, line⟩]
      let line' := if k = .newline then line + 1 else line
      let off' := if k = .newline then 0 else off + byteLen full
      if trim rest = [] then .ok (tok, off', line')
      else
        match lexLoop u n rest off' line' with
        | .ok (ts, e) => .ok (tok ++ ts, e)
        | .error e => .error e
    | none => if trim p = [] then .ok ([], off, line) else .error (.unknown p off line)

/-- src/parser/ast_lexer/mod.rs:55-135 `AstLexer::new`: one leading `=` is dropped. -/
def lex (u : Uni) (input : Text) : Except LexErr (List PTok × Nat × Nat) :=
  match input with
  | '=' :: r => lexLoop u (r.length + 1) r 1 0
  | _ => lexLoop u (input.length + 1) input 0 0

/-- src/ast/node.rs:86-110, the loop of `text_unquote`: the state is whether the start quote has been
seen and whether the last character was a quote. -/
def unquoteLoop : Bool → Bool → Text → Text → Option Text
  | _, last, acc, [] => if last then some acc else none
  | seen, last, acc, c :: cs =>
    if c = '"' then
      if last then unquoteLoop seen false (acc ++ [c]) cs
      else if !seen then unquoteLoop true last acc cs
      else unquoteLoop seen true acc cs
    else if last then none
    else unquoteLoop seen last (acc ++ [c]) cs

/-- src/ast/node.rs:78-112 `text_unquote`; `none` is one of its two errors (malformed, unterminated). -/
def textUnquote (t : Text) : Option Text :=
  match t with
  | '"' :: _ => unquoteLoop false false [] t
  | _ => some t

/-- Rust `str::parse::<i64>` on the digits of an integer token (it has no sign): ASCII digits only, and
an error on overflow. -/
def parseI64 (t : Text) : Option Int :=
  if t ≠ [] ∧ t.all Char.isDigit ∧ Nat.ofDigitChars 10 t 0 < 2 ^ 63 then
    some (Nat.ofDigitChars 10 t 0 : Nat) else none

/-- The messages of src/parser/ast_parser.rs (their wording is not modelled). -/
inductive PMsg where
  | expectedClose | invalidPrefix | prefixNotNumber | expectedExpr | unexpected (k : Kind)
  | notCallable | notPercentable | unexpectedPostfix | badLiteral
deriving DecidableEq, Repr

/-- The errors of src/parser/ast_parser.rs.  `at m rest` is the error `into_parse_error` of the first token of `rest`, which is the rest of
the tokens (src/parser/ast_lexer/mod.rs:138-149: the end of the input if there are none). -/
inductive PErr where
  | lex (e : LexErr)
  | «at» (m : PMsg) (rest : List Tok)
  | fuel
deriving DecidableEq, Repr

/-- Rust `str::parse::<f64>` followed by `Display`: the text of the number, or a parse error.  A
parameter of the model. -/
abbrev F64 := Text → Option Text

/-- src/parser/ast_lexer/token_match.rs:73-113 `TryFrom<TokenMatch> for Ast`. -/
def terminal (F : F64) (t : Tok) : Option Ast :=
  match t.kind with
  | .boolean =>
    if t.s.map Char.toLower = "true".toList then some (.bool true)
    else if t.s.map Char.toLower = "false".toList then some (.bool false)
    else none
  | .float => (F t.s).map (.float false none)
  | .integer => (parseI64 t.s).map (.int false none)
  | .reference => some (.ref t.s)
  | .dqString => (textUnquote t.s).map .text
  | _ => none

/-- src/parser/ast_parser.rs:270-275 `prefix_binding_power` with 27-31 `prefix_power!`. -/
def prefixPower (op : Text) : Option Nat :=
  if op = "+".toList ∨ op = "-".toList then some (17 * 10) else none

/-- src/parser/ast_parser.rs:277-283 `postfix_binding_power` with 33-37 `postfix_power!`. -/
def postfixPower (op : Text) : Option Nat :=
  if op = "(".toList then some (21 * 10) else if op = "%".toList then some (16 * 10) else none

/-- src/parser/ast_parser.rs:285-297: the argument of `infix_power!`. -/
def infixPrec (op : Text) : Option Nat :=
  if op = ":".toList then some 20
  else if op = "!".toList then some 19
  else if op = "~".toList then some 18
  else if op = "^".toList then some 15
  else if op = "*".toList ∨ op = "/".toList then some 14
  else if op = "+".toList ∨ op = "-".toList then some 13
  else if op = "&".toList then some 12
  else if op = "=".toList ∨ op = "<".toList ∨ op = ">".toList ∨ op = "<=".toList ∨ op = ">=".toList ∨
    op = "<>".toList then some 11
  else none

/-- src/parser/ast_parser.rs:21-25 `infix_power!`: the left and right binding powers. -/
def infixPower (op : Text) : Option (Nat × Nat) := (infixPrec op).map fun p => (p * 10 + 1, p * 10)

/-- src/parser/ast_parser.rs:130-153: a prefix sign replaces the sign of a number. -/
def setSign (s : Sign) : Ast → Option Ast
  | .int pct _ v => some (.int pct (some s) v)
  | .float pct _ v => some (.float pct (some s) v)
  | _ => none

/-- src/parser/ast_parser.rs:217-237: `%` marks a number as a percentage. -/
def setPercent : Ast → Option Ast
  | .float _ s v => some (.float true s v)
  | .int _ s v => some (.int true s v)
  | _ => none

/-- src/parser/ast_parser.rs:192-197: only a reference can be called. -/
def callee : Ast → Option Text
  | .ref id => some id
  | _ => none

/-- src/parser/ast_parser.rs:123-127. -/
def signOf (op : Text) : Sign := if op = "+".toList then .positive else .negative

mutual
/-- src/parser/ast_parser.rs:95-268 `expr_bp` on the remaining tokens; returns the tokens it left.
`fuel` bounds the depth of the recursion; `parse` gives enough (`exprBp_fuel`). -/
def exprBp (F : F64) (single : Bool) : Nat → Nat → List Tok → Except PErr (Ast × List Tok)
  | 0, _, _ => .error .fuel
  | n + 1, bp, ts =>
    match prim F single n ts with
    | .error e => .error e
    | .ok (lhs, ts') => loop F single n bp lhs ts'
/-- src/parser/ast_parser.rs:96-157: the first operand. -/
def prim (F : F64) (single : Bool) : Nat → List Tok → Except PErr (Ast × List Tok)
  | 0, _ => .error .fuel
  | _ + 1, [] => .error (.at .expectedExpr [])
  | n + 1, t :: ts =>
    if t.kind = .openParen then
      match exprBp F single n 0 ts with
      | .error e => .error e
      | .ok (_, []) => .error (.at .expectedClose [])
      | .ok (a, c :: r) => if c.kind = .closeParen then .ok (a, r) else .error (.at .expectedClose (c :: r))
    else if t.kind = .operator then
      match prefixPower t.s with
      | none => .error (.at .invalidPrefix (t :: ts))
      | some rbp =>
        match exprBp F single n rbp ts with
        | .error e => .error e
        | .ok (a, r) =>
          match setSign (signOf t.s) a with
          | some a' => .ok (a', r)
          | none => .error (.at .prefixNotNumber (t :: ts))
    else if t.kind = .boolean ∨ t.kind = .dqString ∨ t.kind = .float ∨ t.kind = .integer ∨
        t.kind = .reference then
      match terminal F t with
      | some a => .ok (a, ts)
      | none => .error (.at .badLiteral (t :: ts))
    else .error (.at .expectedExpr (t :: ts))
/-- src/parser/ast_parser.rs:159-265: the loop over postfix and infix operators. -/
def loop (F : F64) (single : Bool) : Nat → Nat → Ast → List Tok → Except PErr (Ast × List Tok)
  | 0, _, _, _ => .error .fuel
  | _ + 1, _, lhs, [] => .ok (lhs, [])
  | n + 1, bp, lhs, t :: r =>
    if single ∧ (t.kind = .reference ∨ t.kind = .fnDef) then .ok (lhs, t :: r)
    else if t.kind = .comma ∨ t.kind = .closeParen ∨ t.kind = .eof then .ok (lhs, t :: r)
    else if t.kind = .operator ∨ t.kind = .openParen then
      match postfixPower t.s with
      | some lbp =>
        if lbp < bp then .ok (lhs, t :: r)
        else if t.s = "(".toList then
          match callee lhs with
          | some id =>
            match callArgs F single n r with
            | .error e => .error e
            | .ok (as, r') => loop F single n bp (.call id as) r'
          | none => .error (.at .notCallable (t :: r))
        else if t.s = "%".toList then
          match setPercent lhs with
          | some a => loop F single n bp a r
          | none => .error (.at .notPercentable (t :: r))
        else .error (.at .unexpectedPostfix (t :: r))
      | none =>
        match infixPower t.s with
        | some (lbp, rbp) =>
          if lbp < bp then .ok (lhs, t :: r)
          else
            match exprBp F single n rbp r with
            | .error e => .error e
            | .ok (rhs, r') => loop F single n bp (.infix lhs t.s rhs) r'
        | none => .ok (lhs, t :: r)
    else .error (.at (.unexpected t.kind) (t :: r))
/-- src/parser/ast_parser.rs:199-213: the arguments of a call up to the closing parenthesis. -/
def callArgs (F : F64) (single : Bool) : Nat → List Tok → Except PErr (List Ast × List Tok)
  | 0, _ => .error .fuel
  | n + 1, ts =>
    if (ts.head?.map (·.kind)) = some .closeParen then .ok ([], ts.tail)
    else if (ts.head?.map (·.kind)) = some .comma then callArgs F single n ts.tail
    else
      match exprBp F single n 0 ts with
      | .error e => .error e
      | .ok (a, r') =>
        match callArgs F single n r' with
        | .error e => .error e
        | .ok (as, r'') => .ok (a :: as, r'')
end

/-- src/parser/ast_parser.rs:56 `expr_bp(0)` on a token list, with enough fuel. -/
def parseToks (F : F64) (single : Bool) (ts : List Tok) : Except PErr (Ast × List Tok) :=
  exprBp F single (3 * ts.length + 2) 0 ts

/-- src/parser/ast_parser.rs:49-57 `AstParser::parse` with `single_expr` false, as it is used for cells
and command-line values: tokens left over are ignored. -/
def parse (u : Uni) (F : F64) (input : Text) : Except PErr Ast :=
  match lex u input with
  | .error e => .error (.lex e)
  | .ok (ts, _) =>
    match parseToks F false (ts.map (·.tok)) with
    | .error e => .error e
    | .ok (a, _) => .ok a

/-- src/ast/display.rs:4-11 `Display for NumberSign` (and none: 28-31). -/
def signText : Option Sign → Text
  | none => []
  | some .positive => ['+']
  | some .negative => ['-']

/-- Rust `Display` for `i64`. -/
def intText (v : Int) : Text := if v < 0 then '-' :: natText v.natAbs else natText v.natAbs

/-- Rust `[String]::join`. -/
def joinText (sep : Text) : List Text → Text
  | [] => []
  | [t] => t
  | t :: ts => t ++ sep ++ joinText sep ts

/-- src/ast/display.rs:87-107 `Display for VariableValue`, the variants other than `Ast`. -/
def cellValText : CellVal → Text
  | .absolute a => a.text
  | .columnRelative x f => (f.toA1.withX x).text
  | .row r => natText (r + 1)
  | .rowRelative _ f => f.toA1.text

mutual
/-- src/ast/display.rs:13-85 `Display for Node` / `Ast`. -/
def display : Ast → Text
  | .bool b => if b then "TRUE".toList else "FALSE".toList
  | .date t => t
  | .float pct s v => signText s ++ v ++ (if pct then ['%'] else [])
  | .fn n ps body => n ++ ['('] ++ joinText ", ".toList ps ++ ") ".toList ++ display body
  | .call n args => n ++ ['('] ++ joinText ", ".toList (displayL args) ++ [')']
  | .infix l op r => ['('] ++ display l ++ [' '] ++ op ++ [' '] ++ display r ++ [')']
  | .int pct s v => signText s ++ intText v ++ (if pct then ['%'] else [])
  | .ref r => r
  | .text t => ['"'] ++ t ++ ['"']
  | .var n a => n ++ " := ".toList ++ display a
  | .cellVar n v => n ++ " := ".toList ++ cellValText v
/-- src/ast/display.rs:42-45: `to_string` of each argument. -/
def displayL : List Ast → List Text
  | [] => []
  | a :: as => display a :: displayL as
end

/-- src/cell/display.rs:4-14: how a formula is written into the spreadsheet. -/
def displayFormula (a : Ast) : Text := '=' :: display a

/-- src/parser/code_section_parser.rs:122-137: the parameters of a function definition up to `)`; or the tokens from the one on that
is an error. -/
def fnParams : List Tok → Except (List Tok) (List Text × List Tok)
  | [] => .error []
  | t :: r =>
    if t.kind = .closeParen then .ok ([], r)
    else if t.kind = .comma then fnParams r
    else if t.kind = .reference then (fnParams r).map fun (ps, r') => (t.s :: ps, r')
    else .error (t :: r)

/-- The messages of src/parser/code_section_parser.rs. -/
inductive CMsg where
  | expectedDefinition | expectedAssign | expectedName | expectedOpen | expectedParams
deriving DecidableEq, Repr

/-- The errors of src/parser/code_section_parser.rs, as `PErr`. -/
inductive CErr where
  | expr (e : PErr)
  | «at» (m : CMsg) (rest : List Tok)
  | fuel
deriving DecidableEq, Repr

/-- src/module_path/try_from.rs:32-42: a module path is the token's text split at `/`. -/
def modulePath (t : Text) : List Text := (t.splitOn '/')

/-- One statement of a code section, in the order the parser meets them. -/
inductive Item where
  | use (path : List Text)
  | fn (name : Text) (params : List Text) (body : Ast)
  | var (name : Text) (value : Ast)
deriving Repr

/-- src/parser/code_section_parser.rs:45-76 `parse_scope` with 79-92 and 99-146: the statements of the
section in order.  (The code stores them at once; `runItems` below does that.)  `fuel` bounds the number
of rounds. -/
def parseItems (F : F64) : Nat → List Tok → Except CErr (List Item)
  | 0, _ => .error .fuel
  | _ + 1, [] => .ok []
  | n + 1, t :: ts =>
    match t.kind with
    | .fnDef =>
      match ts with
      | nameTok :: openTok :: r =>
        if nameTok.kind ≠ .reference then .error (.at .expectedName (nameTok :: openTok :: r))
        else if openTok.kind ≠ .openParen then .error (.at .expectedOpen (openTok :: r))
        else
          match fnParams r with
          | .error e => .error (.at .expectedParams e)
          | .ok (ps, r') =>
            match parseToks F true r' with
            | .error e => .error (.expr e)
            | .ok (body, r'') =>
              match parseItems F n r'' with
              | .error e => .error e
              | .ok is => .ok (.fn nameTok.s ps body :: is)
      | nameTok :: [] => if nameTok.kind ≠ .reference then .error (.at .expectedName [nameTok]) else .error (.at .expectedOpen [])
      | [] => .error (.at .expectedName [])
    | .useModule =>
      -- `lexer.next()` at the end of the input is the Eof token, whose text is empty
      match ts with
      | m :: r =>
        match parseItems F n r with
        | .error e => .error e
        | .ok is => .ok (.use (modulePath m.s) :: is)
      | [] => .ok [.use (modulePath [])]
    | .reference =>
      match ts with
      | a :: r =>
        if a.kind ≠ .varAssign then .error (.at .expectedAssign (a :: r))
        else
          match parseToks F true r with
          | .error e => .error (.expr e)
          | .ok (v, r') =>
            match parseItems F n r' with
            | .error e => .error e
            | .ok is => .ok (.var t.s v :: is)
      | [] => .error (.at .expectedAssign [])
    | .eof => .ok []
    | _ => .error (.at .expectedDefinition (t :: ts))

/-- src/parser/code_section_parser.rs:51-72: what each statement does to the scope and the list of
required modules. -/
def runItems : List Item → Scope × List (List Text) → Scope × List (List Text)
  | [], s => s
  | .use p :: is, (sc, ms) => runItems is (sc, ms ++ [p])
  | .fn n ps b :: is, (sc, ms) => runItems is (sc.defineFunction n (.fn n ps b), ms)
  | .var n a :: is, (sc, ms) => runItems is (sc.defineVariable n (.var n a), ms)

/-- src/parser/code_section_parser.rs:33-76 `CodeSectionParser::parse`. -/
def parseCode (u : Uni) (F : F64) (input : Text) : Except CErr (Scope × List (List Text)) :=
  match lex u input with
  | .error e => .error (.expr (.lex e))
  | .ok (ts, _) =>
    match parseItems F (ts.length + 1) (ts.map (·.tok)) with
    | .error e => .error e
    | .ok is => .ok (runItems is (Scope.empty, []))

/-- src/parser/ast_parser.rs:63-91 `parse_key_value_str`: `none` is an error; later values replace
earlier ones with the same key. -/
def parseKeyValues (u : Uni) (F : F64) : List Text → Option (List (Text × Ast))
  | [] => some []
  | kv :: rest =>
    match kv.span (· != '=') with
    | (key, '=' :: value) =>
      match parse u F value with
      | .ok a => (parseKeyValues u F rest).map fun l => (key, a) :: l
      | .error _ => none
    | _ => none

end Verif.Parser
