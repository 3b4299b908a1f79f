import Verif.Cell.Errors
import Verif.Cell.Props
/-
C104: the message for a wrong value of an option lists the values that the option takes.
-/
namespace Verif.Cell
open Verif.Ast Verif.Parser

/-! ## Model -/

/-- The name of the option and the possible values in the errors of src/cell_options/border_side.rs:27-31, border_style.rs:28-39, horizontal_align.rs:21-25,
vertical_align.rs:22-26, number_format.rs:31-44, text_format.rs:22-31, text_wrap.rs:21-25 and src/parser/cell_parser/validate.rs:63-93. -/
def possible : OKind → Option (Text × List Text)
  | .border => some ("border".toList, ["all (a)", "top (t)", "bottom (b)", "left (l)", "right (r)"].map String.toList)
  | .borderStyle => some ("borderstyle".toList, ["dashed (dash)", "dotted (dot)", "double (dbl)", "solid (1)", "solid_medium (2)", "solid_thick (3)"].map String.toList)
  | .halign => some ("halign".toList, ["center (c)", "left (l)", "right (r)"].map String.toList)
  | .valign => some ("valign".toList, ["bottom (b)", "center (c)", "top (t)"].map String.toList)
  | .numFmt => some ("numberformat".toList,
      ["currency (c)", "date (d)", "datetime (dt)", "number (n)", "percent (p)", "text", "time (t)", "scientific (s)"].map String.toList)
  | .text => some ("text".toList, ["bold (b)", "italic (i)", "strikethrough (s)", "underline (u)"].map String.toList)
  | .wrap => some ("wrap".toList, ["clip (c)", "overflow (o)", "wrap (w)"].map String.toList)
  | .validate => some ("validate".toList,
      ["custom(FORMULA)", "date_after(DATE)", "date_before(DATE)", "date_between(DATE DATE)", "date_equal_to(DATE)", "date_is_valid", "date_not_between(DATE DATE)",
       "date_on_or_after(DATE)", "date_on_or_before(DATE)", "number_between(NUMBER NUMBER)", "number_equal_to(NUMBER)", "number_greater_than_or_equal_to(NUMBER)",
       "number_greater_than(NUMBER)", "number_less_than_or_equal_to(NUMBER)", "number_less_than(NUMBER)", "number_not_between(NUMBER NUMBER)",
       "number_not_equal_to(NUMBER)", "text_contains(TEXT)", "text_does_not_contain(TEXT)", "text_equal_to(TEXT)", "text_is_valid_email", "text_is_valid_url",
       "value_in_list(ANY ...)", "value_in_range(A1)"].map String.toList)
  | _ => none

/-- src/error/cell_parse_error.rs:33-60 with the display of the error: what is printed for the wrong value `bad` of the option, reported at `pos`. -/
def valueErrorText (name addr src bad : Text) (pos : Csvp.SrcPos) (p : Text × List Text) : Text :=
  cellErrorText name addr src ("received invalid value when parsing `".toList ++ p.1 ++ "` option".toList) ('`' :: bad ++ ['`']) (some p.2) pos

/-! ## Specification -/

/-- A character of a word. -/
def wordChar (c : Char) : Bool := c.isAlphanum || c == '_'

/-- The entry of a list of possible values offers the word: it is the word, the word with its short form in parentheses, the other way around, or the word with its
arguments in parentheses. -/
def Offers (e w : Text) : Prop :=
  w ≠ [] ∧ (∀ c ∈ w, wordChar c = true) ∧
    (e = w ∨ (∃ a, e = w ++ " (".toList ++ a ++ [')']) ∨ (∃ f, e = f ++ " (".toList ++ w ++ [')']) ∨ ∃ a, e = w ++ '(' :: a ++ [')'])

/-- The message has a line with the possible values. -/
def ListsValues (printed : Text) (values : List Text) : Prop :=
  ∃ before after, printed = before ++ '\n' :: ("Possible values: ".toList ++ List.intercalate " | ".toList values) ++ '\n' :: after

/-! ## Proofs -/

theorem cellErrorText_lists (name addr src msg bad : Text) (values : List Text) (pos : Csvp.SrcPos) :
    ListsValues (cellErrorText name addr src msg bad (some values) pos) values := by
  unfold ListsValues cellErrorText parseErrorText possibleText
  generalize "Possible values: ".toList = A
  generalize "Syntax error in cell ".toList = B
  generalize " of ".toList = C
  generalize "On line ".toList = D
  generalize " but saw ".toList = F
  generalize (if highlightLines src pos = [] then [] else ['\n']) = G
  exact ⟨B ++ addr ++ C ++ name ++ ['\n'] ++ D ++ natText (pos.line + 1) ++ ' ' :: msg ++ F ++ bad, G ++ (highlightLines src pos).flatMap (· ++ ['\n']) ++ ['\n'],
    by simp only [List.append_assoc, List.cons_append, List.nil_append]⟩

/-- The words an entry can offer. -/
def offered (e : Text) : List Text :=
  [e, e.takeWhile wordChar, if e.getLast? = some ')' ∧ (e.dropLast.reverse.dropWhile wordChar).take 2 = ['(', ' '] then (e.dropLast.reverse.takeWhile wordChar).reverse else []].filter fun w => w ≠ [] ∧ w.all wordChar

theorem takeWhile_stop {w : Text} (h : ∀ c ∈ w, wordChar c = true) {c : Char} (hc : wordChar c = false) (r : Text) : (w ++ c :: r).takeWhile wordChar = w := by
  rw [List.takeWhile_append_of_pos h, List.takeWhile_cons_of_neg (by rw [hc]; decide), List.append_nil]

theorem offers_mem {e w : Text} (h : Offers e w) : w ∈ offered e := by
  obtain ⟨hne, hw, h⟩ := h
  rw [offered, List.mem_filter]
  refine ⟨?_, by simpa [hne] using hw⟩
  rcases h with rfl | ⟨a, rfl⟩ | ⟨f, rfl⟩ | ⟨a, rfl⟩
  · simp
  · have : (w ++ " (".toList ++ a ++ [')']).takeWhile wordChar = w := by
      rw [List.append_assoc, List.append_assoc]
      exact takeWhile_stop hw (c := ' ') (by decide) _
    rw [this]; simp
  · have hs : (f ++ " (".toList ++ w ++ [')']).dropLast.reverse = w.reverse ++ '(' :: ' ' :: f.reverse := by
      rw [List.dropLast_concat, List.reverse_append, List.reverse_append]
      rfl
    have hw' : ∀ c ∈ w.reverse, wordChar c = true := by simpa using hw
    rw [hs, takeWhile_stop hw' (by decide), List.dropWhile_append_of_pos hw', List.dropWhile_cons_of_neg (by decide), if_pos ⟨List.getLast?_concat .., rfl⟩,
      List.reverse_reverse]
    simp
  · have : (w ++ '(' :: a ++ [')']).takeWhile wordChar = w := by
      rw [List.append_assoc, List.cons_append]
      exact takeWhile_stop hw (by decide) _
    rw [this]; simp

/-- A text that is its own lower-case form and consists of ASCII letters, digits and underscores. -/
def plainWord (w : Text) : Bool := w.all (fun c => decide (c.toNat < 128) && wordChar c) && decide (w.map Char.toLower = w)

theorem plainWord_ci (E : Env) {names : List String} {w : Text} (h : plainWord w = true) (hn : ∃ n ∈ names, w = n.toList) : OneOfCI E names w := by
  simp only [plainWord, Bool.and_eq_true, List.all_eq_true, decide_eq_true_eq] at h
  obtain ⟨h1, h2⟩ := h
  obtain ⟨n, hn, rfl⟩ := hn
  refine ⟨fun c hc => ?_, n, hn, ?_⟩
  · have := (h1 c hc).2
    rw [wordChar, Bool.or_eq_true] at this
    rw [isIdent, E.alnum_ascii c (h1 c hc).1]
    simpa using this
  · rw [E.lower_ascii _ (fun c hc => (h1 c hc).1), h2]

/-- Of the words that are offered for a border, and so on. -/
theorem border_offers : ∀ e ∈ ["all (a)", "top (t)", "bottom (b)", "left (l)", "right (r)"].map String.toList, ∃ x ∈ [BorderSide.all, .top, .bottom, .left, .right],
    ∀ w ∈ offered e, plainWord w = true ∧ ∃ n ∈ sideNames x, w = n.toList := by decide
theorem style_offers : ∀ e ∈ ["dashed (dash)", "dotted (dot)", "double (dbl)", "solid (1)", "solid_medium (2)", "solid_thick (3)"].map String.toList,
    ∃ x ∈ [BorderStyle.dashed, .dotted, .double, .solid, .solidMedium, .solidThick], ∀ w ∈ offered e, plainWord w = true ∧ ∃ n ∈ styleNames x, w = n.toList := by decide
theorem halign_offers : ∀ e ∈ ["center (c)", "left (l)", "right (r)"].map String.toList,
    ∃ x ∈ [HAlign.center, .left, .right], ∀ w ∈ offered e, plainWord w = true ∧ ∃ n ∈ halignNames x, w = n.toList := by decide
theorem valign_offers : ∀ e ∈ ["bottom (b)", "center (c)", "top (t)"].map String.toList,
    ∃ x ∈ [VAlign.bottom, .center, .top], ∀ w ∈ offered e, plainWord w = true ∧ ∃ n ∈ valignNames x, w = n.toList := by decide
theorem numFmt_offers : ∀ e ∈ ["currency (c)", "date (d)", "datetime (dt)", "number (n)", "percent (p)", "text", "time (t)", "scientific (s)"].map String.toList,
    ∃ x ∈ [NumFmt.currency, .date, .datetime, .number, .percent, .text, .time, .scientific], ∀ w ∈ offered e, plainWord w = true ∧ ∃ n ∈ numFmtNames x, w = n.toList := by decide
theorem text_offers : ∀ e ∈ ["bold (b)", "italic (i)", "strikethrough (s)", "underline (u)"].map String.toList,
    ∃ x ∈ [TextFmt.bold, .italic, .strikethrough, .underline], ∀ w ∈ offered e, plainWord w = true ∧ ∃ n ∈ textFmtNames x, w = n.toList := by decide
theorem wrap_offers : ∀ e ∈ ["clip (c)", "overflow (o)", "wrap (w)"].map String.toList,
    ∃ x ∈ [Wrap.clip, .overflow, .wrap], ∀ w ∈ offered e, plainWord w = true ∧ ∃ n ∈ wrapNames x, w = n.toList := by decide

/-- The options with a fixed choice of values but `validate`: their names, the values, and the option. -/
inductive Listed : List String → List String → OKind → Prop
  | border : Listed ["b", "border"] ["a", "all", "t", "top", "b", "bottom", "l", "left", "r", "right"] .border
  | borderStyle : Listed ["bs", "borderstyle"] ["dash", "dashed", "dot", "dotted", "dbl", "double", "1", "solid", "2", "solid_medium", "3", "solid_thick"] .borderStyle
  | halign : Listed ["ha", "halign"] ["l", "left", "c", "center", "r", "right"] .halign
  | valign : Listed ["va", "valign"] ["t", "top", "c", "center", "b", "bottom"] .valign
  | numFmt : Listed ["nf", "numberformat"]
      ["c", "currency", "d", "date", "dt", "datetime", "n", "number", "p", "percent", "text", "t", "time", "s", "scientific"] .numFmt
  | textFmt : Listed ["t", "text"] ["b", "bold", "i", "italic", "s", "strikethrough", "u", "underline"] .text
  | wrap : Listed ["w", "wrap"] ["c", "clip", "o", "overflow", "w", "wrap"] .wrap

theorem Listed.choice {names values : List String} {k : OKind} (h : Listed names values k) : Choice names values := by cases h <;> constructor

theorem Listed.name {names values : List String} {k : OKind} (h : Listed names values k) : NameOf names k := by cases h <;> decide

/-- Every value is offered. -/
theorem Listed.complete {names values : List String} {k : OKind} (h : Listed names values k) : ∃ p, possible k = some p ∧ OneOf names p.1 ∧
    ∀ v ∈ values, ∃ e ∈ p.2, Offers e v.toList := by
  have key : ∀ (values : List String) (list : List Text),
      (∀ v ∈ values, v.toList ≠ [] ∧ (∀ c ∈ v.toList, wordChar c = true) ∧ ∃ e ∈ list, e = v.toList ∨ ∃ u ∈ values, e = v.toList ++ " (".toList ++ u.toList ++ [')'] ∨ e = u.toList ++ " (".toList ++ v.toList ++ [')']) →
      ∀ v ∈ values, ∃ e ∈ list, Offers e v.toList := by
    intro values list h v hv
    obtain ⟨h1, h2, e, he, h3⟩ := h v hv
    refine ⟨e, he, h1, h2, ?_⟩
    rcases h3 with h3 | ⟨u, -, h3 | h3⟩
    · exact .inl h3
    · exact .inr (.inl ⟨_, h3⟩)
    · exact .inr (.inr (.inl ⟨_, h3⟩))
  cases h <;> exact ⟨_, rfl, by unfold OneOf; decide, key _ _ (by decide)⟩

/-- The two words of an entry mean the same, and can be given. -/
theorem Listed.sound (E : Env) {names values : List String} {k : OKind} (h : Listed names values k) : ∃ p, possible k = some p ∧
    ∀ e ∈ p.2, ∃ s, ∀ w, Offers e w → ∀ n q, OneOf names n → EqSign q → OptText E (n ++ q ++ w) s := by
  cases h with
  | border =>
    refine ⟨_, rfl, fun e he => ?_⟩
    obtain ⟨x, -, hx⟩ := border_offers e he
    exact ⟨.border x, fun w hw n q hn hq => .border hn hq (plainWord_ci E (hx w (offers_mem hw)).1 (hx w (offers_mem hw)).2)⟩
  | borderStyle =>
    refine ⟨_, rfl, fun e he => ?_⟩
    obtain ⟨x, -, hx⟩ := style_offers e he
    exact ⟨.borderStyle x, fun w hw n q hn hq => .borderStyle hn hq (plainWord_ci E (hx w (offers_mem hw)).1 (hx w (offers_mem hw)).2)⟩
  | halign =>
    refine ⟨_, rfl, fun e he => ?_⟩
    obtain ⟨x, -, hx⟩ := halign_offers e he
    exact ⟨.halign x, fun w hw n q hn hq => .halign hn hq (plainWord_ci E (hx w (offers_mem hw)).1 (hx w (offers_mem hw)).2)⟩
  | valign =>
    refine ⟨_, rfl, fun e he => ?_⟩
    obtain ⟨x, -, hx⟩ := valign_offers e he
    exact ⟨.valign x, fun w hw n q hn hq => .valign hn hq (plainWord_ci E (hx w (offers_mem hw)).1 (hx w (offers_mem hw)).2)⟩
  | numFmt =>
    refine ⟨_, rfl, fun e he => ?_⟩
    obtain ⟨x, -, hx⟩ := numFmt_offers e he
    exact ⟨.numFmt x, fun w hw n q hn hq => .numFmt hn hq (plainWord_ci E (hx w (offers_mem hw)).1 (hx w (offers_mem hw)).2)⟩
  | textFmt =>
    refine ⟨_, rfl, fun e he => ?_⟩
    obtain ⟨x, -, hx⟩ := text_offers e he
    exact ⟨.textFmt x, fun w hw n q hn hq => .textFmt hn hq (plainWord_ci E (hx w (offers_mem hw)).1 (hx w (offers_mem hw)).2)⟩
  | wrap =>
    refine ⟨_, rfl, fun e he => ?_⟩
    obtain ⟨x, -, hx⟩ := wrap_offers e he
    exact ⟨.wrap x, fun w hw n q hn hq => .wrap hn hq (plainWord_ci E (hx w (offers_mem hw)).1 (hx w (offers_mem hw)).2)⟩

/-- C104, rejected.  For an option with a fixed choice of values: if no entry of the list of possible values offers the value (in lower case), the cell is rejected,
and the printed message has the list. -/
theorem C104_rejected {E : Env} {f : Csvp.Field} {row : RowS} {isRow : Bool} {t n q bad post : Text} {names values : List String} {k : OKind} {p : Text × List Text}
    (hl : Listed names values k) (hk : possible k = some p) (hp : f.positions.length = f.value.length) (ha : Ascii f.value)
    (ht : Opened E f.addr.x isRow t) (hn : OneOf names n) (hq : EqSign q) (hne : bad ≠ []) (hb : ∀ c ∈ bad, isIdent E c = true) (hpost : NoMore (isIdent E) post)
    (hv : f.value = t ++ (n ++ q ++ bad ++ post)) (hw : ∀ e ∈ p.2, ¬ Offers e (E.lower bad)) :
    cellParse E f row = .error (.options ((t ++ (n ++ q) ++ bad).length - 1)) ∧
    ∀ name addr src pos, ListsValues (valueErrorText name addr src bad pos p) p.2 := by
  obtain ⟨p', e1, -, e3⟩ := hl.complete
  rw [hk] at e1; cases e1
  refine ⟨(C92_word_partial E f row hp ha ht (.value hl.choice hn hq hne hb hpost ?_) hv).2, fun name addr src pos => cellErrorText_lists ..⟩
  rintro ⟨v, hv, he⟩
  obtain ⟨e, he1, he2⟩ := e3 v hv
  exact hw e he1 (he ▸ he2)

/-- C104, accepted.  If an entry of the list offers the word, a cell with the option is read, and all words of the entry mean the same. -/
theorem C104_accepted (E : Env) {names values : List String} {k : OKind} {p : Text × List Text} (hl : Listed names values k) (hk : possible k = some p)
    {e : Text} (he : e ∈ p.2) : ∃ s : Setting, ∀ w, Offers e w → ∀ n q v, OneOf names n → EqSign q → Solid v → NoList v → (trim v).head? ≠ some '=' →
      ∀ (f : Csvp.Field) (row : RowS), f.value = "[[".toList ++ (n ++ q ++ w) ++ "]]".toList ++ v →
        cellParse E f row = .ok (row, ⟨none, f, trim v, settled [s] (withoutVar row.opts)⟩) := by
  obtain ⟨p', e1, e2⟩ := hl.sound E
  rw [hk] at e1; cases e1
  obtain ⟨s, hs⟩ := e2 e he
  refine ⟨s, fun w hw n q v hn hq hsol hno hform f row hv => ?_⟩
  have hc : CellText E f.value [s] (trim v) :=
    ⟨[], v, W_nil, hsol, hno, rfl, .inr ⟨[], _, W_nil, ⟨[], n ++ q ++ w, [], W_nil, W_nil, .one (.setting (hs w hw n q hn hq)), rfl⟩, by rw [hv]; simp⟩⟩
  obtain ⟨l, hl'⟩ := listsLoop_cellText E (npos := f.positions.length) (x := f.addr.x) (y := f.addr.y) (row := row) hc f.value.length 0 (Nat.le_refl _)
  have hast : parseAst E (trim v) = .ok none := by
    unfold parseAst
    split
    · rename_i h; rw [h] at hform; exact absurd rfl hform
    · rfl
  simp only [cellParse, parseCell, hl', hast]

/-! ## Validations -/

/-- The names of validations. -/
def validationWords : List String :=
  ["c", "custom", "date_gt", "date_after", "date_lt", "date_before", "date_btwn", "date_between", "date_eq", "date_equal_to", "is_date", "date_is_valid",
   "date_nbtwn", "date_not_between", "date_gte", "date_on_or_after", "date_lte", "date_on_or_before", "num_btwn", "number_between", "num_eq", "number_equal_to",
   "num_gt", "number_greater_than", "num_gte", "number_greater_than_or_equal_to", "num_lt", "number_less_than", "num_lte", "number_less_than_or_equal_to",
   "num_nbtwn", "number_not_between", "num_neq", "number_not_equal_to", "text_contains", "text_does_not_contain", "text_eq", "text_equal_to", "in_list",
   "in_range", "is_email", "is_valid_email", "is_url", "is_valid_url"]

/-- The names in the list of possible validations that are no names of validations. -/
def wrongAdvice : List String := ["text_is_valid_email", "text_is_valid_url", "value_in_list", "value_in_range"]

theorem validate_offers : ∀ p, possible .validate = some p → ∀ e ∈ p.2, ∀ w ∈ offered e, OneOf validationWords w ∨ OneOf wrongAdvice w := by
  intro p hp
  cases hp
  unfold OneOf
  decide

/-- C104, validations (part): every name that is offered is one of a validation, but for four. -/
theorem C104_validations_partial {p : Text × List Text} (hk : possible .validate = some p) {e w : Text} (he : e ∈ p.2) (hw : Offers e w) (hno : ¬ OneOf wrongAdvice w) :
    ∃ kind, validators.lookup w = some kind := by
  rcases validate_offers p hk e he w (offers_mem hw) with h | h
  · obtain ⟨v, hv, rfl⟩ := h
    have : ∀ v ∈ validationWords, ∃ k, validators.lookup v.toList = some k := by
      intro v hv
      have : ∀ v ∈ validationWords, (validators.lookup v.toList).isSome = true := by decide
      exact Option.isSome_iff_exists.mp (this v hv)
    exact this v hv
  · exact absurd h hno

/-- Why C104 is partial.  Each of the four names is offered, but a validation with it is rejected, with the same list again; and no entry of the list offers a name under which
there are these validations. -/
theorem C104_violated {E : Env} {f : Csvp.Field} {row : RowS} {isRow : Bool} {t n q bad post : Text} {p : Text × List Text} (hk : possible .validate = some p)
    (hp : f.positions.length = f.value.length) (ha : Ascii f.value) (ht : Opened E f.addr.x isRow t) (hn : OneOf ["dv", "validate"] n) (hq : EqSign q)
    (hpost : NoMore (isIdent E) post) (hv : f.value = t ++ (n ++ q ++ bad ++ post)) (hw : OneOf wrongAdvice bad) :
    (∃ e ∈ p.2, Offers e bad) ∧ cellParse E f row = .error (.options ((t ++ (n ++ q) ++ bad).length - 1)) ∧
    (∀ name addr src pos, ListsValues (valueErrorText name addr src bad pos p) p.2) ∧
    ∀ e ∈ p.2, ∀ w, Offers e w → ¬ OneOf ["in_list", "in_range", "is_email", "is_valid_email", "is_url", "is_valid_url"] w := by
  have hplain : ∀ w ∈ wrongAdvice, plainWord w.toList = true ∧ w.toList ≠ [] ∧ (∀ c ∈ w.toList, wordChar c = true) ∧ w ∉ validationWords := by decide
  have hoff : ∀ p, possible .validate = some p → ∀ w ∈ wrongAdvice, ∃ e ∈ p.2, e = w.toList ∨ e = w.toList ++ '(' :: "ANY ...".toList ++ [')'] ∨ e = w.toList ++ '(' :: "A1".toList ++ [')'] := by
    intro p hp
    cases hp
    decide
  have hnot : ∀ p, possible .validate = some p → ∀ e ∈ p.2, ∀ w ∈ offered e, ¬ ∃ v ∈ ["in_list", "in_range", "is_email", "is_valid_email", "is_url", "is_valid_url"], w = v.toList := by
    intro p hp
    cases hp
    decide
  obtain ⟨b, hb, rfl⟩ := hw
  obtain ⟨w1, w2, w3, w4⟩ := hplain b hb
  have hci := plainWord_ci E w1 ⟨b, List.mem_singleton.mpr rfl, rfl⟩
  obtain ⟨i1, m, i2, i3⟩ := hci
  obtain rfl := List.mem_singleton.mp i2
  refine ⟨?_, (C92_word_partial E f row hp ha ht (.value .validate hn hq w2 i1 hpost ?_) hv).2, fun name addr src pos => cellErrorText_lists ..,
    fun e he w hw => hnot p hk e he w (offers_mem hw)⟩
  · obtain ⟨e, he, h⟩ := hoff p hk m hb
    refine ⟨e, he, w2, w3, ?_⟩
    rcases h with h | h | h
    · exact .inl h
    · exact .inr (.inr (.inr ⟨_, h⟩))
    · exact .inr (.inr (.inr ⟨_, h⟩))
  · rintro ⟨v, hv', he⟩
    rw [i3] at he
    have : m = v := String.toList_injective he
    exact w4 (this ▸ hv')

/-! ## Examples -/


/-- A cell that asks for a validation by the name the message gives. -/
def adviceText : Text := "[[dv=value_in_list(1 2)]]x".toList

def adviceField : Csvp.Field := ⟨⟨0, 0⟩, adviceText, (List.range 26).map fun i => ⟨0, i⟩⟩

example (E : Env) : ∃ o, cellParse E adviceField {} = .error (.options o) ∧ adviceField.positions[o]? = some ⟨0, 17⟩ := by
  refine ⟨_, (C104_violated (t := "[[".toList) (n := "dv".toList) (q := "=".toList) (bad := "value_in_list".toList) (post := "(1 2)]]x".toList) rfl (by decide)
    (by unfold Ascii; decide) (isRow := false) ⟨[], [], [], [], .blank W_nil, W_nil, .nil, (fun h => by cases h), by simp, rfl⟩ ⟨"dv", by decide, rfl⟩ ⟨[], [], W_nil, W_nil, rfl⟩ ?_
    (by decide) ⟨"value_in_list", by decide, rfl⟩).2.1, by decide⟩
  intro c hc
  have : c = '(' := by simpa using hc.symm
  subst this
  rw [isIdent, E.alnum_ascii _ (by decide)]; decide

/-- The printed message for `[[ha=middle]]x`. -/
example : (possible .halign).map (valueErrorText "\"f\"".toList "A1".toList "[[ha=middle]]x".toList "middle".toList ⟨0, 10⟩) =
    some ("Syntax error in cell A1 of \"f\"\nOn line 1 received invalid value when parsing `halign` option but saw `middle`\n".toList ++
      "Possible values: center (c) | left (l) | right (r)\n\n 1: [[ha=middle]]x\n  : ----------^\n\n".toList) := by decide +kernel

/-- `Center` is offered as `center (c)`; `middle` is not. -/
example (E : Env) : (∃ e ∈ ["center (c)".toList, "left (l)".toList, "right (r)".toList], Offers e (E.lower "Center".toList)) ∧
    ∀ e ∈ ["center (c)".toList, "left (l)".toList, "right (r)".toList], ¬ Offers e (E.lower "middle".toList) := by
  rw [E.lower_ascii _ (by decide), E.lower_ascii _ (by decide)]
  refine ⟨⟨_, List.mem_cons_self, by decide, by decide, .inr (.inl ⟨['c'], by decide⟩)⟩, fun e he h => ?_⟩
  have key : ∀ e ∈ ["center (c)".toList, "left (l)".toList, "right (r)".toList], "middle".toList.map Char.toLower ∉ offered e := by decide
  exact key e he (offers_mem h)

end Verif.Cell
