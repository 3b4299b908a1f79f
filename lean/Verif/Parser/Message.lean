import Verif.Parser.BlameProps
import Verif.Parser.Layout
import Verif.Source.Props
/-
C88: the printed message of a syntax error points at the offending text.
-/
namespace Verif.Parser
open Verif.Ast Verif.Source

/-! ## Model -/

/-- src/source_code/errors.rs:125: the width of the column of line numbers. -/
def gutterWidth (lineNumber : Nat) : Nat := (natText (lineNumber + contextLines)).length

/-- `format!("{: <w$}", t)`: pad with spaces on the right. -/
def padRight (w : Nat) (t : Text) : Text := t ++ List.replicate (w - t.length) ' '

/-- src/source_code/errors.rs:130-147: a line of the excerpt with its gutter.  Without terminal colours. -/
def renderEntry (w : Nat) (e : Entry) : Text :=
  match e.num with
  | some k => ' ' :: padRight w (natText k) ++ [':', ' '] ++ e.text
  | none => ' ' :: padRight w [' '] ++ [':', ' '] ++ e.text

/-- src/source_code/errors.rs:83-149 `highlight_line`. -/
def highlightLines (original : Text) (pos : Csvp.SrcPos) : List Text :=
  (highlight (rlines original) pos.line pos.off).map (renderEntry (gutterWidth pos.line))

/-- src/error/parse_error.rs:50-52: the line with the possible values. -/
def possibleText : Option (List Text) → Text
  | some pv => "Possible values: ".toList ++ List.intercalate " | ".toList pv ++ ['\n']
  | none => []

/-- src/error/parse_error.rs:34-66 `Display for ParseError`, for the error src/source_code/errors.rs:52-80 makes of a message, the
display of the bad input and its position. -/
def parseErrorText (original msg bad : Text) (possible : Option (List Text)) (pos : Csvp.SrcPos) : Text :=
  "On line ".toList ++ natText (pos.line + 1) ++ ' ' :: msg ++ " but saw ".toList ++ bad ++ ['\n'] ++
  possibleText possible ++
  (if highlightLines original pos = [] then [] else ['\n']) ++
  (highlightLines original pos).flatMap (· ++ ['\n'])

/-- src/error/display.rs:17-23: `name` is the file name in quotes. -/
def codeErrorText (name original msg bad : Text) (pos : Csvp.SrcPos) : Text :=
  "Syntax error in code section of ".toList ++ name ++ ['\n'] ++ parseErrorText original msg bad none pos ++ ['\n']

/-- src/error/display.rs:7-15, for a cell whose address displays as `addr`. -/
def cellErrorText (name addr original msg bad : Text) (possible : Option (List Text)) (pos : Csvp.SrcPos) : Text :=
  "Syntax error in cell ".toList ++ addr ++ " of ".toList ++ name ++ ['\n'] ++ parseErrorText original msg bad possible pos ++ ['\n']

/-- The tokens from the one on that an error is reported at. -/
def CErr.rest : CErr → Option (List Tok)
  | .at _ rest => some rest
  | .expr (.at _ rest) => some rest
  | _ => none

/-- src/parser/ast_lexer/token_match.rs:26-43, 54-71 for a token of a code section: how the token the remaining tokens begin with is displayed, and its
position; src/parser/ast_lexer/mod.rs:138-159: at the end of the input it is the `Eof` token. -/
def saw (pts : List PTok) (eo el : Nat) (rest : List Tok) : Text × Csvp.SrcPos :=
  match pts.drop (pts.length - rest.length) with
  | pt :: _ => ('`' :: pt.tok.s ++ ['`'], errorPosition none false pt.offset pt.line)
  | [] => ("EOF".toList, errorPosition none true eo el)

/-- What is printed when the code section of the source file `src` is rejected (src/parser/code_section_parser.rs:33-76 with the display of the error).
`none`: it is not rejected, or displaying the error panics (C77).  `wording` is the message of each error, some of which contain the debug representation of
an expression; the theorems hold whatever it is. -/
def codeError (u : Uni) (F : F64) (wording : CErr → Text) (name src : Text) : Option Text :=
  match (SourceCode.new src).code with
  | none => none
  | some code =>
    match lex u code with
    | .error (.unknown rest off line) =>
      (unknownDisplay rest).map fun bad => codeErrorText name src "Error parsing input - invalid token".toList bad (errorPosition none false off line)
    | .error .fuel => none
    | .ok (pts, eo, el) =>
      match parseCode u F code with
      | .ok _ => none
      | .error e => e.rest.map fun rest => codeErrorText name src (wording e) (saw pts eo el rest).1 (saw pts eo el rest).2

/-! ## Specification -/

/-- Line `n` (from 0) of the source is `left ++ s ++ right`; after the line `head`, the message names the number of this line (from 1), the line is printed with its
number, and on the next printed line a `^` stands under the first character of `s`. -/
def Points (head printed source : Text) (n : Nat) (left s right : Text) : Prop :=
  (rlines source)[n]? = some (left ++ s ++ right) ∧
  ∃ front gutter under back, printed = head ++ '\n' :: "On line ".toList ++ natText (n + 1) ++ ' ' :: front ++ '\n' :: (gutter ++ (left ++ s ++ right)) ++ '\n' :: (under ++ ['^']) ++ '\n' :: back ∧
    under.length = (gutter ++ left).length ∧ '\n' ∉ under ∧ (∃ sp, gutter = ' ' :: natText (n + 1) ++ List.replicate sp ' ' ++ [':', ' '])

/-- In `code` the tokens from `rest` on begin after `before`: before it stand the other tokens, in order and with gaps, and after it those of `rest`. -/
def StandsAfter (code : Text) (pts : List PTok) (rest : List Tok) (before : Text) : Prop :=
  ∃ p₁ p₂ eq b a, pts = p₁ ++ p₂ ∧ p₂.map (·.tok) = rest ∧ before = eq ++ b ∧ (eq = [] ∨ eq = ['=']) ∧ Laid eq p₁ b ∧ code = before ++ a ∧ Laid before p₂ a

/-- The first line of a message about a code section. -/
def codeHead (name : Text) : Text := "Syntax error in code section of ".toList ++ name

/-- The first line of a message about a cell. -/
def cellHead (name addr : Text) : Text := "Syntax error in cell ".toList ++ addr ++ " of ".toList ++ name

/-- What is shown for the error `e` of the code section `code`. -/
inductive Shown (u : Uni) (name src code : Text) (e : CErr) (printed : Text) : Prop
  /-- the error is at a token: the `^` is under its first character -/
  | token {pts : List PTok} {eo el : Nat} {t : Tok} {post : List Tok} {before after left right : Text} : lex u code = .ok (pts, eo, el) → e.rest = some (t :: post) →
      StandsAfter code pts (t :: post) before → code = before ++ t.s ++ after → t.s ≠ [] → left.length = colOf before →
      Points (codeHead name) printed src (lineOf before) left t.s right → Shown u name src code e printed
  /-- the error is at the end: the `^` is at a place after which only white space follows -/
  | eof {pts : List PTok} {eo el : Nat} {before after left right : Text} : lex u code = .ok (pts, eo, el) → e.rest = some [] →
      code = before ++ after → (∀ c ∈ after, isWs c = true) → left.length = colOf before →
      Points (codeHead name) printed src (lineOf before) left [] right → Shown u name src code e printed
  /-- the text from `unknown` on does not begin with a token: the `^` is where it begins -/
  | unknown {o l : Nat} {before unknown left right : Text} : lex u code = .error (.unknown unknown o l) → code = before ++ unknown → unknown ≠ [] →
      left.length = colOf before → Points (codeHead name) printed src (lineOf before) left [] right → Shown u name src code e printed

/-! ## The excerpt -/

theorem natText_le {a b : Nat} (h : a ≤ b) : (natText a).length ≤ (natText b).length := by
  unfold natText
  rw [Nat.length_toDigits_le_iff (by decide) Nat.length_toDigits_pos]
  have := (Nat.length_toDigits_le_iff (b := 10) (n := b) (k := (Nat.toDigits 10 b).length) (by decide) Nat.length_toDigits_pos).1 (Nat.le_refl _)
  omega

theorem natText_pos (n : Nat) : 0 < (natText n).length := Nat.length_toDigits_pos

/-- The two lines of the excerpt that matter. -/
theorem highlight_mid {lines : List Text} {n off : Nat} {L : Text} (h : lines[n]? = some L) :
    ∃ before after, highlight lines n off = before ++ ⟨some (n + 1), L⟩ :: ⟨none, List.replicate off '-' ++ ['^']⟩ :: after := by
  obtain ⟨hn, hL⟩ := List.getElem?_eq_some_iff.mp h
  rw [C11_excerpt lines n off hn]
  have e1 : (window lines n).filter (fun x => x.2 ≤ n) = ((lines.take n).zipIdx.filter fun x => n ≤ x.2 + 3) ++ [(L, n)] := by
    have hsplit : lines = lines.take n ++ L :: lines.drop (n + 1) := by
      rw [← hL, List.getElem_cons_drop, List.take_append_drop]
    unfold window
    rw [List.filter_filter]
    conv_lhs => rw [hsplit]
    rw [List.zipIdx_append, List.filter_append, List.zipIdx_cons, List.length_take, Nat.min_eq_left (Nat.le_of_lt hn), Nat.zero_add]
    rw [List.filter_cons_of_pos (by simp)]
    have hlow : ∀ x ∈ (lines.take n).zipIdx, x.2 < n := by
      intro x hx
      have := List.mem_zipIdx hx
      simp only [List.length_take] at this
      omega
    have hhigh : ∀ x ∈ (lines.drop (n + 1)).zipIdx (n + 1), n < x.2 := by
      intro x hx
      have := List.mem_zipIdx hx
      omega
    have h2 : ((lines.drop (n + 1)).zipIdx (n + 1)).filter (fun x => decide (x.2 ≤ n) && decide (n ≤ x.2 + 3 ∧ x.2 ≤ n + 3)) = [] := by
      rw [List.filter_eq_nil_iff]
      intro x hx
      have := hhigh x hx
      simp; omega
    rw [h2]
    congr 1
    apply List.filter_congr
    intro x hx
    have := hlow x hx
    rw [Bool.eq_iff_iff]
    simp only [Bool.and_eq_true, decide_eq_true_eq]
    omega
  rw [e1, List.map_append, List.append_assoc]
  exact ⟨_, _, rfl⟩

theorem points_excerpt {src : Text} {pos : Csvp.SrcPos} {left s right : Text} (h : (rlines src)[pos.line]? = some (left ++ s ++ right)) (hl : left.length = pos.off) :
    ∃ front gutter under back, highlightLines src pos = front ++ (gutter ++ (left ++ s ++ right)) :: (under ++ ['^']) :: back ∧
    under.length = (gutter ++ left).length ∧ '\n' ∉ under ∧ ∃ sp, gutter = ' ' :: natText (pos.line + 1) ++ List.replicate sp ' ' ++ [':', ' '] := by
  obtain ⟨b, a, hx⟩ := highlight_mid (off := pos.off) h
  unfold highlightLines
  rw [hx, List.map_append, List.map_cons, List.map_cons]
  refine ⟨b.map (renderEntry (gutterWidth pos.line)), ' ' :: padRight (gutterWidth pos.line) (natText (pos.line + 1)) ++ [':', ' '],
    ' ' :: padRight (gutterWidth pos.line) [' '] ++ [':', ' '] ++ List.replicate pos.off '-', a.map (renderEntry (gutterWidth pos.line)), ?_, ?_, ?_, _, rfl⟩
  · simp only [renderEntry, List.append_assoc]
  · have h1 := natText_le (a := pos.line + 1) (b := pos.line + 3) (by omega)
    have h2 := natText_pos (pos.line + 3)
    simp only [padRight, gutterWidth, contextLines, List.length_append, List.length_cons, List.length_replicate, List.length_nil, hl]
    omega
  · simp [padRight]

/-- Any error message with the position of `s` points at `s`. -/
theorem points_message {src head tail msg bad : Text} {possible : Option (List Text)} {pos : Csvp.SrcPos} {left s right : Text}
    (h : (rlines src)[pos.line]? = some (left ++ s ++ right)) (hl : left.length = pos.off) :
    Points head (head ++ ['\n'] ++ parseErrorText src msg bad possible pos ++ '\n' :: tail) src pos.line left s right := by
  obtain ⟨f, g, un, b, h1, h2, h3, h4⟩ := points_excerpt h hl
  refine ⟨h, ?_⟩
  unfold parseErrorText
  rw [h1, if_neg (by simp)]
  have hnl : ∀ x : Text, ∃ y, x ++ ['\n'] ++ f.flatMap (· ++ ['\n']) = y ++ ['\n'] := by
    intro x
    rcases List.eq_nil_or_concat f with rfl | ⟨f', l, rfl⟩
    · exact ⟨x, by simp⟩
    · exact ⟨x ++ ['\n'] ++ f'.flatMap (· ++ ['\n']) ++ l, by simp⟩
  obtain ⟨y, hy⟩ := hnl (msg ++ " but saw ".toList ++ bad ++ ['\n'] ++ possibleText possible)
  refine ⟨y, g, un, b.flatMap (· ++ ['\n']) ++ '\n' :: tail, ?_, h2, h3, h4⟩
  rw [List.flatMap_append, List.flatMap_cons, List.flatMap_cons]
  calc _ = (head ++ '\n' :: "On line ".toList ++ natText (pos.line + 1) ++ [' ']) ++ ((msg ++ " but saw ".toList ++ bad ++ ['\n'] ++ possibleText possible) ++ ['\n'] ++ f.flatMap (· ++ ['\n'])) ++
      (g ++ (left ++ s ++ right) ++ ['\n'] ++ (un ++ ['^'] ++ ['\n'] ++ b.flatMap (· ++ ['\n'])) ++ '\n' :: tail) := by
        simp only [List.append_assoc, List.cons_append, List.nil_append]
    _ = _ := by rw [hy]; simp only [List.append_assoc, List.cons_append, List.nil_append]

/-! ## Lines of the code section -/

theorem colOf_break (l pre : Text) : colOf (l ++ '\n' :: pre) = colOf pre := by
  unfold colOf
  congr 1
  rw [List.reverse_append, List.reverse_cons, List.append_assoc, List.cons_append, List.nil_append, List.takeWhile_append]
  split
  · rename_i h
    rw [List.takeWhile_cons_of_neg (by simp), List.append_nil]
    exact ((List.takeWhile_prefix (· != '\n')).eq_of_length h).symm
  · rfl

theorem colOf_line {pre : Text} (h : '\n' ∉ pre) : colOf pre = pre.length := by simpa [colOf] using colOf_flat (a := []) h

/-- The text after `pre` in the join of the lines `ls` stands on the line and in the column `pre` says. -/
theorem line_at : ∀ {ls : List Text}, ls ≠ [] → (∀ l ∈ ls, '\n' ∉ l) → ∀ {pre s post : Text}, joinNl ls = pre ++ s ++ post → '\n' ∉ s →
    ∃ left right, ls[lineOf pre]? = some (left ++ s ++ right) ∧ left.length = colOf pre := by
  intro ls
  induction ls with
  | nil => intro h; exact absurd rfl h
  | cons l ls ih =>
    intro _ hnl pre s post he hs
    have hl : '\n' ∉ l := hnl l (by simp)
    have inl : ∀ x, l = pre ++ s ++ x → ∃ left right, (l :: ls)[lineOf pre]? = some (left ++ s ++ right) ∧ left.length = colOf pre := by
      rintro x rfl
      have hp : '\n' ∉ pre := fun h => hl (by simp [h])
      exact ⟨pre, x, by rw [lineOf_flat hp]; rfl, (colOf_line hp).symm⟩
    cases ls with
    | nil =>
      have : l = pre ++ s ++ post := by simpa [joinNl, List.intercalate] using he
      exact inl post this
    | cons l2 ls =>
      have hj : joinNl (l :: l2 :: ls) = l ++ '\n' :: joinNl (l2 :: ls) := by simp [joinNl, List.intercalate]
      rw [hj] at he
      rcases List.append_eq_append_iff.mp he with ⟨x, h1, h2⟩ | ⟨x, h1, h2⟩
      · -- `pre ++ s` reaches over `l`
        cases x with
        | nil => exact inl [] (by simpa using h1.symm)
        | cons c x =>
          rw [List.cons_append] at h2
          injection h2 with hc h2
          subst hc
          rcases List.append_eq_append_iff.mp h1 with ⟨y, h3, h4⟩ | ⟨y, h3, h4⟩
          · exact absurd (by rw [h4]; simp) hs
          · cases y with
            | nil => exact absurd (by rw [List.nil_append] at h4; rw [← h4]; simp) hs
            | cons c' y =>
              rw [List.cons_append] at h4
              injection h4 with hc' h4
              subst hc'
              obtain ⟨left, right, h5, h6⟩ := ih (by simp) (fun l hl => hnl l (by simp [hl])) (pre := y) (s := s) (post := post) (by rw [h2, h4]) hs
              refine ⟨left, right, ?_, ?_⟩
              · rw [h3, lineOf_append]
                have : lineOf l + lineOf ('\n' :: y) = lineOf y + 1 := by rw [lineOf_flat hl]; simp [lineOf]
                rw [this, List.getElem?_cons_succ]; exact h5
              · rw [h3, colOf_break, h6]
      · exact inl x h1

/-- The same for the code section of a source file. -/
theorem code_line {src code : Text} (h : (SourceCode.new src).code = some code) (hne : code ≠ []) {pre s post : Text} (he : code = pre ++ s ++ post) (hs : '\n' ∉ s) :
    ∃ left right, (rlines src)[lineOf pre]? = some (left ++ s ++ right) ∧ left.length = colOf pre := by
  by_cases hsep : ∃ l ∈ rlines src, trim l = ['-', '-', '-']
  · obtain ⟨p, l, h1, -, -, h2, -⟩ := C10_split src hsep
    rw [h] at h2
    cases h2
    have hls : (rlines src).take p ≠ [] := fun h0 => hne (by rw [h0]; rfl)
    obtain ⟨left, right, h3, h4⟩ := line_at hls (fun l hl => rlines_nl src l (List.mem_of_mem_take hl)) he hs
    refine ⟨left, right, ?_, h4⟩
    rw [List.getElem?_take] at h3
    split at h3
    · exact h3
    · cases h3
  · rw [(C10_no_separator src fun l hl hh => hsep ⟨l, hl, hh⟩).1] at h
    cases h

/-! ## C88 -/

theorem CErr.rest_of {F : F64} {ts : List Tok} {e : CErr} (h : statements F ts = .error e) : ∃ good rest, e.rest = some rest ∧ ts = good ++ rest := by
  rcases C87_code_place h with ⟨rest, hr⟩ | ⟨good, rest, rfl, hg, -⟩
  · obtain ⟨good, hg, -⟩ := C87_code h hr
    refine ⟨good, rest, ?_, hg⟩
    cases e with
    | «at» m r => exact hr
    | fuel => cases hr
    | expr e =>
      cases e with
      | lex e => cases hr
      | fuel => cases hr
      | «at» m r =>
        simp only [CErr.place] at hr
        split at hr
        · cases hr
        · exact hr
  · exact ⟨good, rest, rfl, hg⟩

/-- C88, code sections.  If the code section of a source file is rejected, a message is printed, and it points at the token the error is at (or at the end of the
input, or at the text that is not a token).  For ASCII code sections of one line or without string literals and line breaks after `fn` (C75). -/
theorem C88_code_partial (u : Uni) (F : F64) (wording : CErr → Text) (name src : Text) {code : Text} (hc : (SourceCode.new src).code = some code) (hs : Simple code)
    {e : CErr} (h : parseCode u F code = .error e) : ∃ printed, codeError u F wording name src = some printed ∧ Shown u name src code e printed := by
  have pr : ∀ {msg bad : Text} {pos : Csvp.SrcPos} {before s after : Text}, code ≠ [] → code = before ++ s ++ after → '\n' ∉ s → pos = ⟨lineOf before, colOf before⟩ →
      ∃ left right, left.length = colOf before ∧ Points (codeHead name) (codeErrorText name src msg bad pos) src (lineOf before) left s right := by
    rintro msg bad _ before s after hne he hn rfl
    obtain ⟨left, right, h1, h2⟩ := code_line hc hne he hn
    refine ⟨left, right, h2, ?_⟩
    exact points_message (head := codeHead name) (tail := []) h1 h2
  have hne : code ≠ [] := by
    rintro rfl
    rw [parseCode] at h
    have : lex u [] = .ok ([], 0, 0) := by rfl
    rw [this] at h
    cases h
  unfold codeError
  rw [hc]
  simp only
  cases hl : lex u code with
  | error x =>
    cases x with
    | fuel =>
      exfalso
      unfold lex at hl
      split at hl
      · exact lexLoop_fuel u _ _ _ _ (Nat.lt_succ_self _) hl
      · exact lexLoop_fuel u _ _ _ _ (Nat.lt_succ_self _) hl
    | unknown rest off line =>
      obtain ⟨before, h1, h2, rfl, rfl⟩ := C75_unknown_partial u code hs rest off line hl
      have ha : Ascii rest := fun c hc => hs.1 c (by rw [h1]; simp [hc])
      simp only
      obtain ⟨left, right, h3, h4⟩ := pr (msg := "Error parsing input - invalid token".toList) (bad := rest.take 50)
        (pos := errorPosition none false (colOf before) (lineOf before)) (before := before) (s := []) (after := rest) hne (by simpa using h1) (by simp) rfl
      rw [C77_display_partial rest ha]
      exact ⟨_, rfl, .unknown hl h1 h2 h3 h4⟩
  | ok x =>
    obtain ⟨pts, eo, el⟩ := x
    have hst := parseCode_statements u code hl h
    obtain ⟨good, rest, hr, hg⟩ := CErr.rest_of hst
    obtain ⟨-, hend⟩ := C75_token_partial u code hs pts eo el hl
    obtain ⟨⟨eq, body, hcode, heq, hlaid⟩, hflat⟩ := C75_layout_partial u code hs pts eo el hl
    rw [h]
    simp only [hr, Option.map_some]
    have hlen : pts.length = good.length + rest.length := by
      have := congrArg List.length hg
      simpa using this
    have hdrop : (pts.drop (pts.length - rest.length)).map (·.tok) = rest := by
      rw [List.map_drop, hg, hlen, Nat.add_sub_cancel, List.drop_left]
    refine ⟨_, rfl, ?_⟩
    unfold saw
    cases hd : pts.drop (pts.length - rest.length) with
    | nil =>
      rw [hd] at hdrop
      obtain rfl : rest = [] := hdrop.symm
      obtain ⟨before, after, h1, h2, rfl, rfl⟩ := hend
      obtain ⟨left, right, h3, h4⟩ := pr (msg := wording e) (bad := "EOF".toList) (pos := errorPosition none true (colOf before) (lineOf before))
        (before := before) (s := []) (after := after) hne (by simpa using h1) (by simp) rfl
      exact .eof hl hr h1 h2 h3 h4
    | cons pt pts' =>
      rw [hd] at hdrop
      have hp : pts = pts.take (pts.length - rest.length) ++ pt :: pts' := by rw [← hd, List.take_append_drop]
      generalize pts.take (pts.length - rest.length) = p₁ at hp
      rw [hp] at hlaid
      obtain ⟨b, a, rfl, h1, h2, h5, h6, h7⟩ := hlaid.split
      have hn := hflat pt (by rw [hp]; simp)
      have he : code = (eq ++ b) ++ pt.tok.s ++ a := by rw [hcode]; simp
      obtain ⟨left, right, h3, h4⟩ := pr (msg := wording e) (bad := '`' :: pt.tok.s ++ ['`']) (pos := errorPosition none false pt.offset pt.line)
        (before := eq ++ b) (s := pt.tok.s) (after := a) hne he hn (by rw [h6, h7]; rfl)
      rw [List.map_cons] at hdrop
      refine .token hl (by rw [hr, ← hdrop]) ⟨p₁, pt :: pts', eq, b, _, hp, by simp, rfl, heq, h1, by rw [he]; simp, h2⟩ he h5 h3 h4

/-! ## Cells -/

theorem trim_same {t : Text} (h : (trim t).length = t.length) : trim t = t := by
  have h1 : (trimStart t).length ≤ t.length := (List.dropWhile_suffix isWs).length_le
  have h2 : ∀ s : Text, (trimEnd s).length ≤ s.length := fun s => by
    unfold trimEnd
    rw [List.length_reverse]
    exact (List.length_reverse (as := s)) ▸ (List.dropWhile_suffix isWs).length_le
  have h3 := h2 (trimStart t)
  unfold trim at h ⊢
  have e1 : trimStart t = t := (List.dropWhile_suffix isWs).eq_of_length (by unfold trimStart at *; omega)
  rw [e1] at h ⊢
  unfold trimEnd at h ⊢
  have e2 : t.reverse.dropWhile isWs = t.reverse := (List.dropWhile_suffix isWs).eq_of_length (by simpa using h)
  rw [e2, List.reverse_reverse]

/-- The reported line and column of each character of a field without surrounding white space. -/
theorem field_char {src : Text} {sep : Char} {rs : List (List Csvp.Field)} (h : Csvp.parse ⟨sep, (SourceCode.new src).lenCode⟩ (SourceCode.new src).csv = .ok rs)
    {row : List Csvp.Field} (hrow : row ∈ rs) {f : Csvp.Field} (hf : f ∈ row) (hp : f.positions.length = f.value.length) {k : Nat} {c : Char} {p : Csvp.SrcPos}
    (hc : f.value[k]? = some c) (hpk : f.positions[k]? = some p) (hn : c ≠ '\n') (hr : c ≠ '\r') :
    ∃ l, (rlines src)[p.line]? = some l ∧ l[p.off - (if p.line = (SourceCode.new src).lenCode then 0 else 1)]? = some c := by
  obtain ⟨idx, h1, -⟩ := C10_reported_line src sep rs h
  obtain ⟨i, hi⟩ := List.mem_iff_getElem.mp hrow
  obtain ⟨hi1, hi2⟩ := hi
  have hrow2 := (List.forall₂_iff_get.mp h1).2 i hi1 (by rw [← h1.length_eq]; exact hi1)
  simp only [List.get_eq_getElem, hi2] at hrow2
  obtain ⟨j, hj1, hj2⟩ := List.mem_iff_getElem.mp hf
  have hf2 := (List.forall₂_iff_get.mp hrow2).2 j hj1 (by rw [← hrow2.length_eq]; exact hj1)
  simp only [List.get_eq_getElem, hj2] at hf2
  generalize (idx[i]'(by rw [← h1.length_eq]; exact hi1))[j]'(by rw [← hrow2.length_eq]; exact hj1) = is at hf2
  obtain ⟨hin, hval, hpos⟩ := hf2
  have hch : ∀ is : List Nat, (∀ i ∈ is, i < (SourceCode.new src).csv.length) → ∀ k : Nat, (Csvp.Spec.charsAt (SourceCode.new src).csv is)[k]? = (is[k]?).bind ((SourceCode.new src).csv[·]?) := by
    intro is
    induction is with
    | nil => intro _ k; rfl
    | cons i is ih =>
      intro hin k
      have hi := List.getElem?_eq_getElem (hin i (by simp))
      have : Csvp.Spec.charsAt (SourceCode.new src).csv (i :: is) = (SourceCode.new src).csv[i]'(hin i (by simp)) :: Csvp.Spec.charsAt (SourceCode.new src).csv is := by
        simp [Csvp.Spec.charsAt, List.filterMap_cons, hi]
      rw [this]
      cases k with
      | zero => simp [hi]
      | succ k => simpa using ih (fun i hi => hin i (by simp [hi])) k
  have hlen : (Csvp.Spec.charsAt (SourceCode.new src).csv is).length = is.length := by
    unfold Csvp.Spec.charsAt
    have : is.filterMap (fun i => (SourceCode.new src).csv[i]?) = is.filterMap (fun i => some ((SourceCode.new src).csv.getD i ' ')) := by
      apply List.filterMap_congr
      intro i hi
      rw [List.getElem?_eq_getElem (hin i hi)]
      simp [List.getD, List.getElem?_eq_getElem (hin i hi)]
    rw [this, List.filterMap_eq_map']
    simp
  have hv : f.value = Csvp.Spec.charsAt (SourceCode.new src).csv is := by
    rw [hval]
    apply trim_same
    rw [← hval, ← hp, hlen, hpos.length_eq]
  rw [hv, hch is hin k] at hc
  obtain ⟨ik, hik, hck⟩ := Option.bind_eq_some_iff.mp hc
  obtain ⟨hk1, hk2⟩ := List.getElem?_eq_some_iff.mp hpk
  obtain ⟨hk3, hk4⟩ := List.getElem?_eq_some_iff.mp hik
  have := (List.forall₂_iff_get.mp hpos).2 k hk1 hk3
  simp only [List.get_eq_getElem, hk2, hk4] at this
  exact this c hck hn hr

/-- C88, cells (part).  A syntax error at a token of the formula of a cell without options and surrounding white space: if the cell is on the first line of the csv
section, the `^` of the printed message is under the first character of the token. -/
theorem C88_cell_partial (u : Uni) (name addr msg bad : Text) (possible : Option (List Text)) {src : Text} {sep : Char} {rs : List (List Csvp.Field)}
    (h : Csvp.parse ⟨sep, (SourceCode.new src).lenCode⟩ (SourceCode.new src).csv = .ok rs)
    {row : List Csvp.Field} (hrow : row ∈ rs) {f : Csvp.Field} (hf : f ∈ row) (hp : f.positions.length = f.value.length)
    (ha : Ascii f.value) (hn : '\n' ∉ f.value) (hr : '\r' ∉ f.value) {pts : List PTok} {eo el : Nat} (hl : lex u f.value = .ok (pts, eo, el)) {pt : PTok} (hpt : pt ∈ pts)
    (pos : Csvp.SrcPos) (hpos : pos = errorPosition (some f) false pt.offset pt.line) :
    ∃ c s left right, pt.tok.s = c :: s ∧ (rlines src)[pos.line]? = some (left ++ c :: right) ∧
      (pos.line = (SourceCode.new src).lenCode → Points (cellHead name addr) (cellErrorText name addr src msg bad possible pos) src pos.line left [c] right) := by
  obtain ⟨pre, post, hv, hpk⟩ := (C76_position_partial u f hp ha hn).1 pts eo el hl pt hpt
  have hne : pt.tok.s ≠ [] := by
    obtain ⟨_, _, _, h, _⟩ := (C75_token_partial u f.value ⟨ha, .inl hn⟩ pts eo el hl).1 pt hpt
    exact h
  obtain ⟨c, s, hcs⟩ := List.exists_cons_of_ne_nil hne
  rw [← hpos] at hpk
  have hck : f.value[pre.length]? = some c := by rw [hv, hcs]; simp
  have hin : c ∈ f.value := List.mem_of_getElem? hck
  obtain ⟨l, h1, h2⟩ := field_char h hrow hf hp hck hpk (fun e => hn (e ▸ hin)) (fun e => hr (e ▸ hin))
  obtain ⟨h3, h4⟩ := List.getElem?_eq_some_iff.mp h2
  generalize hq : pos.off - (if pos.line = (SourceCode.new src).lenCode then 0 else 1) = q at h2 h3 h4
  have hsplit : l = l.take q ++ c :: l.drop (q + 1) := by rw [← h4, List.getElem_cons_drop, List.take_append_drop]
  refine ⟨c, s, l.take q, l.drop (q + 1), hcs, by rw [← hsplit]; exact h1, fun hline => ?_⟩
  have : (rlines src)[pos.line]? = some (l.take q ++ [c] ++ l.drop (q + 1)) := by rw [h1]; simp [← hsplit]
  refine points_message (head := cellHead name addr) (tail := []) this ?_
  rw [if_pos hline] at hq
  rw [List.length_take]; omega

/-- C88, the end of a cell (part).  A syntax error at the end of the formula of a cell without surrounding white space: if the cell is on the first line of the csv
section, the `^` of the printed message is directly after the last character of the cell. -/
theorem C88_cell_end_partial (name addr msg bad : Text) (possible : Option (List Text)) {src : Text} {sep : Char} {rs : List (List Csvp.Field)}
    (h : Csvp.parse ⟨sep, (SourceCode.new src).lenCode⟩ (SourceCode.new src).csv = .ok rs)
    {row : List Csvp.Field} (hrow : row ∈ rs) {f : Csvp.Field} (hf : f ∈ row) (hp : f.positions.length = f.value.length)
    (hn : '\n' ∉ f.value) (hr : '\r' ∉ f.value) {init : Text} {c : Char} (hv : f.value = init ++ [c]) (eo el : Nat)
    (pos : Csvp.SrcPos) (hpos : pos = errorPosition (some f) true eo el) (hline : pos.line = (SourceCode.new src).lenCode) :
    ∃ left right, f.positions[init.length]? = some ⟨pos.line, left.length⟩ ∧
      Points (cellHead name addr) (cellErrorText name addr src msg bad possible pos) src pos.line (left ++ [c]) [] right := by
  have hlen : init.length < f.positions.length := by rw [hp, hv]; simp
  have hlast : f.positions.getLast? = some f.positions[init.length] := by
    rw [List.getLast?_eq_getElem?, List.getElem?_eq_getElem (by omega)]
    congr 1
    congr 1
    rw [hp, hv]; simp
  have hpk := List.getElem?_eq_getElem hlen
  generalize f.positions[init.length] = q at hpk hlast
  have hpos' : pos = ⟨q.line, q.off + 1⟩ := by
    rw [hpos]; simp [errorPosition, Csvp.Field.eofPosition, hlast]
  subst hpos'
  have hck : f.value[init.length]? = some c := by rw [hv]; simp
  have hin : c ∈ f.value := List.mem_of_getElem? hck
  obtain ⟨l, h1, h2⟩ := field_char h hrow hf hp hck hpk (fun e => hn (e ▸ hin)) (fun e => hr (e ▸ hin))
  rw [if_pos hline, Nat.sub_zero] at h2
  obtain ⟨h3, h4⟩ := List.getElem?_eq_some_iff.mp h2
  have hsplit : l = l.take q.off ++ c :: l.drop (q.off + 1) := by rw [← h4, List.getElem_cons_drop, List.take_append_drop]
  have hl : (l.take q.off).length = q.off := by rw [List.length_take]; omega
  refine ⟨l.take q.off, l.drop (q.off + 1), by rw [hpk, hl], ?_⟩
  have : (rlines src)[q.line]? = some ((l.take q.off ++ [c]) ++ [] ++ l.drop (q.off + 1)) := by rw [h1]; simp [← hsplit]
  exact points_message (head := cellHead name addr) (tail := []) this (by rw [List.length_append, hl]; rfl)

/-- Why C88 is partial: on every other line of the csv section the `^` is one column too far to the right. -/
theorem C88_violated_cell (u : Uni) (name addr msg bad : Text) (possible : Option (List Text)) {src : Text} {sep : Char} {rs : List (List Csvp.Field)}
    (h : Csvp.parse ⟨sep, (SourceCode.new src).lenCode⟩ (SourceCode.new src).csv = .ok rs)
    {row : List Csvp.Field} (hrow : row ∈ rs) {f : Csvp.Field} (hf : f ∈ row) (hp : f.positions.length = f.value.length)
    (ha : Ascii f.value) (hn : '\n' ∉ f.value) (hr : '\r' ∉ f.value) {pts : List PTok} {eo el : Nat} (hl : lex u f.value = .ok (pts, eo, el)) {pt : PTok} (hpt : pt ∈ pts)
    (pos : Csvp.SrcPos) (hpos : pos = errorPosition (some f) false pt.offset pt.line) (hline : pos.line ≠ (SourceCode.new src).lenCode) (hoff : pos.off ≠ 0) :
    ∃ c s left right, pt.tok.s = c :: s ∧ Points (cellHead name addr) (cellErrorText name addr src msg bad possible pos) src pos.line (left ++ [c]) [] right := by
  obtain ⟨pre, post, hv, hpk⟩ := (C76_position_partial u f hp ha hn).1 pts eo el hl pt hpt
  have hne : pt.tok.s ≠ [] := by
    obtain ⟨_, _, _, h, _⟩ := (C75_token_partial u f.value ⟨ha, .inl hn⟩ pts eo el hl).1 pt hpt
    exact h
  obtain ⟨c, s, hcs⟩ := List.exists_cons_of_ne_nil hne
  rw [← hpos] at hpk
  have hck : f.value[pre.length]? = some c := by rw [hv, hcs]; simp
  have hin : c ∈ f.value := List.mem_of_getElem? hck
  obtain ⟨l, h1, h2⟩ := field_char h hrow hf hp hck hpk (fun e => hn (e ▸ hin)) (fun e => hr (e ▸ hin))
  rw [if_neg hline] at h2
  obtain ⟨h3, h4⟩ := List.getElem?_eq_some_iff.mp h2
  have hsplit : l = l.take (pos.off - 1) ++ c :: l.drop (pos.off - 1 + 1) := by rw [← h4, List.getElem_cons_drop, List.take_append_drop]
  refine ⟨c, s, l.take (pos.off - 1), l.drop (pos.off - 1 + 1), hcs, ?_⟩
  have : (rlines src)[pos.line]? = some ((l.take (pos.off - 1) ++ [c]) ++ [] ++ l.drop (pos.off - 1 + 1)) := by rw [h1]; simp [← hsplit]
  refine points_message (head := cellHead name addr) (tail := []) this ?_
  rw [List.length_append, List.length_take]
  simp only [List.length_cons, List.length_nil]
  omega

/-! ## Examples -/

theorem codeError_eq (u : Uni) (F : F64) (wording : CErr → Text) (name : Text) {src code : Text} {pts : List PTok} {eo el : Nat} {e : CErr} {rest : List Tok}
    (hc : (SourceCode.new src).code = some code) (hl : lex u code = .ok (pts, eo, el)) (hst : statements F (pts.map (·.tok)) = .error e) (hr : e.rest = some rest) :
    codeError u F wording name src = some (codeErrorText name src (wording e) (saw pts eo el rest).1 (saw pts eo el rest).2) := by
  have : parseCode u F code = .error e := by
    rw [parseCode, hl]
    unfold statements at hst
    rw [List.length_map] at hst
    simp only [hst]
  unfold codeError
  simp only [hc, hl, this, hr, Option.map_some]

/-- The printed message for a code section with the error on its second line. -/
example (u : Uni) (F : F64) : (SourceCode.new "x := 1\ny  2\n---\na".toList).code = some "x := 1\ny  2".toList ∧ Simple "x := 1\ny  2".toList ∧
    codeError u F (fun _ => "M".toList) "\"f\"".toList "x := 1\ny  2\n---\na".toList =
      some "Syntax error in code section of \"f\"\nOn line 2 M but saw `2`\n\n 1: x := 1\n 2: y  2\n  : ---^\n 3: ---\n 4: a\n\n".toList := by
  refine ⟨by decide, ⟨by unfold Ascii; decide, .inr ⟨by decide, ?_⟩⟩, ?_⟩
  · rintro ⟨a, w, b, h, _⟩
    have h1 : 'f' ∈ "x := 1\ny  2".toList := by rw [h]; simp
    revert h1; decide
  · rw [codeError_eq u F _ _ (code := "x := 1\ny  2".toList) (rest := [⟨.integer, ['2']⟩]) (e := .at .expectedAssign [⟨.integer, ['2']⟩]) (eo := 4) (el := 1)
      (pts := [⟨⟨.reference, ['x']⟩, 0, 0⟩, ⟨⟨.varAssign, [':', '=']⟩, 2, 0⟩, ⟨⟨.integer, ['1']⟩, 5, 0⟩, ⟨⟨.reference, ['y']⟩, 0, 1⟩, ⟨⟨.integer, ['2']⟩, 3, 1⟩])
      (by decide) (by rfl) (by rfl) rfl]
    decide

/-- The same for an incomplete one: the `^` is after the end. -/
example (u : Uni) (F : F64) : codeError u F (fun _ => "M".toList) "\"f\"".toList "x :=\n---\na".toList =
      some "Syntax error in code section of \"f\"\nOn line 1 M but saw EOF\n\n 1: x :=\n  : ----^\n 2: ---\n 3: a\n\n".toList := by
  rw [codeError_eq u F _ _ (code := "x :=".toList) (rest := []) (e := .expr (.at .expectedExpr [])) (eo := 4) (el := 0)
    (pts := [⟨⟨.reference, ['x']⟩, 0, 0⟩, ⟨⟨.varAssign, [':', '=']⟩, 2, 0⟩]) (by decide) (by rfl) (by rfl) rfl]
  decide

/-- A cell on the first and one on the second line of the csv section, with the positions of their last tokens, to which the theorems apply. -/
example (u : Uni) : ∃ f g, Csvp.parse ⟨',', (SourceCode.new "a,=1 2\nb,=3 4".toList).lenCode⟩ (SourceCode.new "a,=1 2\nb,=3 4".toList).csv = .ok [[⟨⟨0, 0⟩, ['a'], [⟨0, 0⟩]⟩, f], [⟨⟨0, 1⟩, ['b'], [⟨1, 1⟩]⟩, g]] ∧
    f.value = "=1 2".toList ∧ f.positions.length = 4 ∧ errorPosition (some f) false 3 0 = ⟨0, 5⟩ ∧ errorPosition (some f) true 4 0 = ⟨0, 6⟩ ∧
    g.value = "=3 4".toList ∧ g.positions.length = 4 ∧ errorPosition (some g) false 3 0 = ⟨1, 6⟩ ∧
    lex u "=1 2".toList = .ok ([⟨⟨.integer, ['1']⟩, 1, 0⟩, ⟨⟨.integer, ['2']⟩, 3, 0⟩], 4, 0) :=
  ⟨_, _, rfl, rfl, rfl, rfl, rfl, rfl, rfl, rfl, by rfl⟩

end Verif.Parser
