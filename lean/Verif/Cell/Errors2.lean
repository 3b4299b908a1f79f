import Verif.Cell.Errors
/-
C92, continued: errors in strings, in the arguments of validations and in lists that are not closed.
-/
namespace Verif.Cell
open Verif.Ast Verif.Parser

/-! ## Specification -/

/-- The validations with a string as argument. -/
def stringArg : List String := ["c", "custom", "text_contains", "text_does_not_contain", "text_eq", "text_equal_to"]
/-- The validations with a date as argument. -/
def dateArg : List String :=
  ["date_gt", "date_after", "date_lt", "date_before", "date_eq", "date_equal_to", "date_gte", "date_on_or_after", "date_lte", "date_on_or_before"]
/-- The validations with two dates as arguments. -/
def datesArg : List String := ["date_btwn", "date_between", "date_nbtwn", "date_not_between"]
/-- The validations with a number as argument. -/
def numberArg : List String :=
  ["num_eq", "number_equal_to", "num_gt", "number_greater_than", "num_gte", "number_greater_than_or_equal_to", "num_lt", "number_less_than", "num_lte", "number_less_than_or_equal_to",
   "num_neq", "number_not_equal_to"]
/-- The validations with two numbers as arguments. -/
def numbersArg : List String := ["num_btwn", "number_between", "num_nbtwn", "number_not_between"]

/-- `(` with optional white space around it. -/
def OpenParen (t : Text) : Prop := ∃ a b, W a ∧ W b ∧ t = a ++ '(' :: b

/-- The form of a date. -/
def DateShape (t : Text) : Prop :=
  ∃ a b c, (Digs 4 4 a ∧ Digs 2 2 b ∧ Digs 2 2 c ∧ t = a ++ '-' :: (b ++ '-' :: c)) ∨ (Digs 1 2 a ∧ Digs 1 2 b ∧ Digs 2 4 c ∧ t = a ++ '/' :: (b ++ '/' :: c))

/-- What does not begin with a string: neither a word nor a quote, or a quoted text that does not end. -/
def NotString (E : Env) (t : Text) : Prop :=
  (Solid t ∧ NoMore E.alnum t ∧ t.head? ≠ some '\'') ∨ (∃ r, t = '\'' :: r ∧ '\'' ∉ r) ∨ ∃ s, t ++ ['\''] = squote s

/-- What does not begin with a value of a list: neither a digit, a sign, a quote nor a letter, or a quoted text that does not end. -/
def NotItem (E : Env) (t : Text) : Prop :=
  (Solid t ∧ ∀ c ∈ t.head?, E.uni.isD c = false ∧ E.uni.isW c = false ∧ c ≠ '-' ∧ c ≠ '\'') ∨ ∃ r, t = '\'' :: r ∧ '\'' ∉ r

/-- The argument of a validation as far as it is right: what is before its last part. -/
inductive ArgText (E : Env) : List String → Text → Text → Prop
  | string {p s t} (hp : OpenParen p) (h : StrText E s t) : ArgText E stringArg p s
  | date {p s d} (hp : OpenParen p) (h : DateText E s d) : ArgText E dateArg p s
  | dates {p s d w s' d'} (hp : OpenParen p) (h : DateText E s d) (hw : W w) (hne : w ≠ []) (h' : DateText E s' d') : ArgText E datesArg (p ++ s ++ w) s'
  | number {p s i} (hp : OpenParen p) (h : NumText s i) : ArgText E numberArg p s
  | numbers {p s i w s' i'} (hp : OpenParen p) (h : NumText s i) (hw : W w) (hne : w ≠ []) (h' : NumText s' i') : ArgText E numbersArg (p ++ s ++ w) s'
  | range {p s r} (hp : OpenParen p) (hne : s ≠ []) (hs : ∀ c ∈ s, isA1 E c = true) (hr : E.a1 s = some r) : ArgText E ["in_range"] p s

/-- After the name of one of some validations, `pre ++ bad ++ post` follows, and the number or range `bad` is wrong. -/
inductive WrongArgWord (E : Env) : List String → Text → Text → Text → Prop
  | number {p bad post w r} (hp : OpenParen p) (hne : bad ≠ []) (hb : ∀ c ∈ bad, isNum c = true) (hx : ∀ i, ¬ NumText bad i) (hw : W w) (hpost : post = w ++ ')' :: r) :
      WrongArgWord E numberArg p bad post
  | first {p bad post} (hp : OpenParen p) (hne : bad ≠ []) (hb : ∀ c ∈ bad, isNum c = true) (hx : ∀ i, ¬ NumText bad i) (hpost : NoMore isNum post) : WrongArgWord E numbersArg p bad post
  | second {p s i w bad post} (hp : OpenParen p) (h : NumText s i) (hw : W w) (hwne : w ≠ []) (hne : bad ≠ []) (hb : ∀ c ∈ bad, isNum c = true) (hx : ∀ i, ¬ NumText bad i)
      (hpost : NoMore isNum post) : WrongArgWord E numbersArg (p ++ s ++ w) bad post
  | range {p bad post} (hp : OpenParen p) (hne : bad ≠ []) (hb : ∀ c ∈ bad, isA1 E c = true) (hx : E.a1 bad = none) (hpost : NoMore (isA1 E) post) : WrongArgWord E ["in_range"] p bad post

/-- After the name of one of some validations, `pre ++ bad` follows, and `bad` is not what can follow there, or begins with a date or a value of a list that is wrong. -/
inductive WrongArgPlace (E : Env) : List String → Text → Text → Prop
  | opening {names w bad} (hn : names ∈ [stringArg, dateArg, datesArg, numberArg, numbersArg, ["in_range"], ["in_list"]]) (hw : W w) (hs : Solid bad) (hb : bad.head? ≠ some '(')
      (hm : NoMore (isIdent E) (w ++ bad)) : WrongArgPlace E names w bad
  | closing {names p s w bad} (h : ArgText E names p s) (hw : W w) (hs : Solid bad) (hb : bad.head? ≠ some ')') (he : w ≠ [] ∨ Ends bad) : WrongArgPlace E names (p ++ s ++ w) bad
  | string {p bad} (hp : OpenParen p) (hb : NotString E bad) : WrongArgPlace E stringArg p bad
  | number {names p bad} (hn : names ∈ [numberArg, numbersArg]) (hp : OpenParen p) (hs : Solid bad) (hb : NoMore isNum bad) : WrongArgPlace E names p bad
  | second {p s i w bad} (hp : OpenParen p) (h : NumText s i) (hw : W w) (hs : Solid bad) (hb : NoMore isNum (w ++ bad)) (hb' : NoMore isNum bad) : WrongArgPlace E numbersArg (p ++ s ++ w) bad
  | date {names p bad} (hn : names ∈ [dateArg, datesArg]) (hp : OpenParen p) (hs : Solid bad) (hb : NoMore E.uni.isD bad) : WrongArgPlace E names p bad
  | noDate {p t w r} (hp : OpenParen p) (ht : DateShape t) (hx : E.date t = none) (hw : W w) : WrongArgPlace E dateArg p (t ++ w ++ ')' :: r)
  | firstDate {p t r} (hp : OpenParen p) (ht : DateShape t) (hx : E.date t = none) (hr : NoMore E.uni.isD r) : WrongArgPlace E datesArg p (t ++ r)
  | secondDate {p s d w bad} (hp : OpenParen p) (h : DateText E s d) (hw : W w) (hs : Solid bad) (hb : NoMore E.uni.isD (w ++ bad)) (hb' : NoMore E.uni.isD bad) :
      WrongArgPlace E datesArg (p ++ s ++ w) bad
  | noSecondDate {p s d w t r} (hp : OpenParen p) (h : DateText E s d) (hw : W w) (hwne : w ≠ []) (ht : DateShape t) (hx : E.date t = none) (hr : NoMore E.uni.isD r) :
      WrongArgPlace E datesArg (p ++ s ++ w) (t ++ r)
  | range {p bad} (hp : OpenParen p) (hs : Solid bad) (hb : NoMore (isA1 E) bad) : WrongArgPlace E ["in_range"] p bad
  | value {a w bad} (ha : W a) (hw : AsciiBlanks w) (hb : NotItem E bad) : WrongArgPlace E ["in_list"] (a ++ ['(']) (w ++ bad)
  | nextValue {a s vs w bad} (ha : W a) (hs : ListItems E s vs) (hw : AsciiBlanks w) (hb : NotItem E bad) (hc : bad.head? ≠ some ')') (he : w ≠ [] ∨ bad.head? = some ']') :
      WrongArgPlace E ["in_list"] (a ++ '(' :: s) (w ++ bad)

/-- Where an option is expected, `pre ++ bad ++ post` follows, and the argument `bad` of a validation is wrong. -/
inductive WrongArg (E : Env) : Text → Text → Text → Prop
  | arg {n q names v p bad post} (hn : OneOf ["dv", "validate"] n) (hq : EqSign q) (hv : OneOfCI E names v) (h : WrongArgWord E names p bad post) : WrongArg E (n ++ q ++ v ++ p) bad post

/-- Where an option is expected, `pre ++ bad` follows, and `bad` is not the argument of a validation or the value of an option with a string or a name that can follow there. -/
inductive WrongArgAt (E : Env) : Text → Text → Prop
  | arg {n q names v p bad} (hn : OneOf ["dv", "validate"] n) (hq : EqSign q) (hv : OneOfCI E names v) (h : WrongArgPlace E names p bad) : WrongArgAt E (n ++ q ++ v ++ p) bad
  | string {n q bad} (hn : OneOf ["n", "note", "ff", "fontfamily"] n) (hq : EqSign q) (hb : NotString E bad) : WrongArgAt E (n ++ q) bad
  | var {n q bad} (hn : OneOf ["v", "var"] n) (hq : EqSign q) (hs : Solid bad) (hb : NoMore (isIdent E) bad) : WrongArgAt E (n ++ q) bad

/-- A cell with an option list of the row (`isRow`) or of the cell that has begun with `t` and is neither continued nor closed by what follows, `bad`. -/
inductive Unclosed (E : Env) (x : Nat) (isRow : Bool) : Text → Text → Prop
  | first {lead w bad} (hl : Lead E x lead) (hx : isRow = true → x = 0) (hw : W w) (hs : Solid bad) (hb : NoMore E.alnum bad) :
      Unclosed E x isRow (lead ++ (if isRow then "![[".toList else "[[".toList) ++ w) bad
  | slash {lead w i es a b bad} (hl : Lead E x lead) (hx : isRow = true → x = 0) (hw : W w) (hi : Entries E i es) (hes : isRow = false → ∀ e ∈ es, e.isLeft = true) (ha : W a) (hb' : W b)
      (hs : Solid bad) (hb : NoMore E.alnum bad) : Unclosed E x isRow (lead ++ (if isRow then "![[".toList else "[[".toList) ++ (w ++ i ++ (a ++ '/' :: b))) bad
  | after {lead w i es a bad} (hl : Lead E x lead) (hx : isRow = true → x = 0) (hw : W w) (hi : Entries E i es) (hes : isRow = false → ∀ e ∈ es, e.isLeft = true) (ha : W a)
      (hs : Solid bad) (hb : NoMore E.alnum bad) (h1 : bad.head? ≠ some '/') (h2 : ¬ "]]".toList <+: bad) (h3 : bad.head? ≠ some '=') (he : a ≠ [] ∨ Ends bad) :
      Unclosed E x isRow (lead ++ (if isRow then "![[".toList else "[[".toList) ++ (w ++ i ++ a)) bad

/-! ## Steps that fail -/

/-- The step fails at the last byte of `d` when `d ++ r` follows. -/
def Fails (npos : Nat) (m : P α) (d r : Text) : Prop := ∀ off, m ⟨d ++ r, off⟩ = failAt npos (off + byteLen d - 1)

theorem Fails.bind {npos : Nat} {m : P α} {f : α → P β} {d r : Text} (h : Fails npos m d r) : Fails npos (m >>= f) d r := fun off => bind_fail (h off)

theorem Fails.after {npos : Nat} {m : P α} {f : α → P β} {s t r : Text} {K : Text → Prop} {good : α → Prop} (hm : Reads m s K good)
    (hf : ∀ a, good a → Fails npos (f a) t r) (hK : K (t ++ r)) : Fails npos (m >>= f) (s ++ t) r := by
  intro off
  obtain ⟨a, ha, e⟩ := hm (t ++ r) off hK
  rw [List.append_assoc, bind_ok e, hf a ha, byteLen_append, Nat.add_assoc]

theorem Fails_take {npos : Nat} {w bad : Text} {c : Char} (hw : W w) (hs : Solid bad) (hb : bad.head? ≠ some c) : Fails npos (take npos [c]) w bad := by
  intro off
  rw [take, bind_ok (takeWhitespace_ws hw hs off)]
  have : [c].isPrefixOf bad = false := by
    cases bad with
    | nil => rfl
    | cons d r => simpa [List.isPrefixOf] using Ne.symm (by simpa using hb : d ≠ c)
  simp only [this, Bool.false_eq_true, if_false, unknown, Lx.current]

theorem Fails_takeWhile {npos : Nat} {f : Char → Bool} {w bad : Text} (hw : W w) (hs : Solid bad) (hb : NoMore f bad) : Fails npos (takeWhile npos f) w bad := by
  intro off
  rw [takeWhile, bind_ok (takeWhitespace_ws hw hs off)]
  have : bad.takeWhile f = [] := by
    cases bad with
    | nil => rfl
    | cons d r => rw [List.takeWhile_cons_of_neg (by simpa using hb d (by simp))]
  simp only [this, if_true, unknown, Lx.current]

/-- A word is read, and found wrong. -/
theorem Fails_word {npos : Nat} {f : Char → Bool} {k : CTok → P β} {w m post : Text} (hw : W w) (hne : m ≠ []) (hm : ∀ c ∈ m, f c = true) (hf : ∀ c, f c = true → isWs c = false)
    (hr : NoMore f post) (hk : ∀ tok off, tok.s = m → k tok ⟨post, off⟩ = failAt npos tok.off) : Fails npos (takeWhile npos f >>= k) (w ++ m) post := by
  intro off
  rw [bind_ok (takeWhile_at (npos := npos) hw hne hm hf hr off), hk _ _ rfl]

theorem quotedLoop_none {r acc : Text} {n : Nat} (b : Bool) (h : '\'' ∉ r) : quotedLoop b acc n r = none := by
  induction r generalizing b acc n with
  | nil => cases b <;> rfl
  | cons c r ih =>
    have hr : '\'' ∉ r := fun hm => h (by simp [hm])
    have hc : c ≠ '\'' := fun e => h (by simp [e])
    cases b with
    | true => rw [quotedLoop, ih _ hr]
    | false =>
      by_cases h1 : c = '\\'
      · rw [quotedLoop, if_pos h1, ih _ hr]
      · rw [quotedLoop, if_neg h1, if_neg hc, ih _ hr]

theorem quotedLoop_qbody (t acc : Text) (n : Nat) : quotedLoop false acc n (qbody t) = none := by
  induction t generalizing acc n with
  | nil => rfl
  | cons c t ih =>
    by_cases hc : c = '\'' ∨ c = '\\'
    · have e : qbody (c :: t) = '\\' :: c :: qbody t := by simp [qbody, hc]
      rw [e, quotedLoop, if_pos rfl, quotedLoop, ih]
    · have e : qbody (c :: t) = c :: qbody t := by simp [qbody, hc]
      rw [e, quotedLoop, if_neg (fun h => hc (.inr h)), if_neg (fun h => hc (.inl h)), ih]

theorem Fails_quoted {npos : Nat} {w r : Text} (hw : W w) (h : quotedLoop false [] 1 r = none) : Fails npos (takeSingleQuoted npos) w ('\'' :: r) := by
  intro off
  rw [takeSingleQuoted, bind_ok (takeWhitespace_ws hw (Solid_cons rfl _) off)]
  simp only [if_true, h, unknown, Lx.current]

theorem Fails_string (E : Env) {npos : Nat} {w bad : Text} (hw : W w) (hb : NotString E bad) : Fails npos (takeString E npos) w bad := by
  have quoted : ∀ r, bad = '\'' :: r → quotedLoop false [] 1 r = none → Fails npos (takeString E npos) w bad := by
    rintro r rfl hq off
    rw [takeString_quote hw, ← List.nil_append ('\'' :: r), Fails_quoted W_nil hq, byteLen_nil, Nat.add_zero]
  rcases hb with ⟨hs, hb, hc⟩ | ⟨r, rfl, hr⟩ | ⟨s, hs⟩
  · intro off
    have e := Fails_takeWhile (npos := npos) W_nil hs hb (off + byteLen w)
    rw [List.nil_append, byteLen_nil, Nat.add_zero] at e
    rw [takeString, bind_ok (takeWhitespace_ws hw hs off), ← e]
    simp only
    split
    · exact absurd rfl hc
    · rfl
  · exact quoted r rfl (quotedLoop_none _ hr)
  · rw [squote_eq] at hs
    have : bad = '\'' :: qbody s := List.append_cancel_right hs
    exact quoted _ this (quotedLoop_qbody _ _ _)

theorem mDigits_no (u : Uni) {lo hi : Nat} (hlo : 0 < lo) {bad : Text} (h : NoMore u.isD bad) : mDigits u lo hi bad = none := by
  have : (bad.take hi).takeWhile u.isD = [] := by
    cases bad with
    | nil => simp
    | cons c r =>
      cases hi with
      | zero => simp
      | succ k => rw [List.take_succ_cons, List.takeWhile_cons_of_neg (by simpa using h c (by simp))]
  simp only [mDigits, this, List.length_nil]
  rw [if_neg (by omega)]

theorem mDate_no (u : Uni) {bad : Text} (h : NoMore u.isD bad) : mDate u bad = none := by
  simp only [mDate, mSeq, mDigits_no u (lo := 4) (by omega) h, mDigits_no u (lo := 1) (by omega) h]

theorem blanks_nil : AsciiBlanks [] := fun _ h => by cases h

theorem Fails_noDate (E : Env) {npos : Nat} {w bad : Text} (hw : W w) (hs : Solid bad) (hb : NoMore E.uni.isD bad) : Fails npos (takeDate E npos) w bad := by
  intro off
  have e := maybeTakeRegex_none (m := mDate E.uni) blanks_nil hs (mDate_no E.uni hb) (off + byteLen w)
  rw [List.nil_append] at e
  rw [takeDate, bind_ok (takeWhitespace_ws hw hs off), bind_ok e]
  rfl

theorem DateShape.chars {t : Text} (h : DateShape t) : t ≠ [] ∧ ∀ c ∈ t, isWs c = false := by
  obtain ⟨a, b, c, ⟨ha, hb, hc, rfl⟩ | ⟨ha, hb, hc, rfl⟩⟩ := h
  all_goals
    refine ⟨by simp, fun x hx => ?_⟩
    simp only [List.mem_append, List.mem_cons] at hx
    rcases hx with hx | rfl | hx | rfl | hx
    · exact digit_not_ws (ha.2.2 x hx)
    · rfl
    · exact digit_not_ws (hb.2.2 x hx)
    · rfl
    · exact digit_not_ws (hc.2.2 x hx)

theorem mDate_shape (E : Env) {t rest : Text} (h : DateShape t) (hr : NoMore E.uni.isD rest) : mDate E.uni (t ++ rest) = some (t, rest) :=
  mDate_eq { E with date := fun _ => some [] } (v := []) ⟨rfl, h⟩ hr

theorem maybeTakeRegex_at {m : Text → Match} {w t rest : Text} (hw : AsciiBlanks w) (hne : t ≠ []) (ht : ∀ c ∈ t, isWs c = false) (hm : m (t ++ rest) = some (t, rest)) (off : Nat) :
    maybeTakeRegex m ⟨w ++ t ++ rest, off⟩ = .ok (some ⟨t, off + byteLen w - 1⟩) ⟨rest, off + byteLen (w ++ t)⟩ := by
  rw [maybeTakeRegex, List.append_assoc, tryMatch_eq hw (solid_of hne ht), hm]
  simp only [Option.map_some, trim_solid hw.ws ht]
  rw [bind_ok (moveInput_ascii hw.ascii _ _), bind_apply]
  simp only [matchToken]
  rw [bind_ok (moveInput_append t rest _)]
  simp only [pure_apply, Lx.current, byteLen_append, Nat.add_assoc]

/-- A date is read, and found wrong. -/
theorem Fails_date (E : Env) {npos : Nat} {k : CTok → P β} {w t post : Text} (hw : W w) (ht : DateShape t) (hr : NoMore E.uni.isD post)
    (hk : ∀ tok off, tok.s = t → k tok ⟨post, off⟩ = failAt npos tok.off) : Fails npos (takeDate E npos >>= k) w (t ++ post) := by
  intro off
  obtain ⟨hne, hc⟩ := ht.chars
  have e := maybeTakeRegex_at (m := mDate E.uni) blanks_nil hne hc (mDate_shape E ht hr) (off + byteLen w)
  rw [List.nil_append, byteLen_nil, Nat.add_zero] at e
  have e2 : takeDate E npos ⟨w ++ (t ++ post), off⟩ = .ok ⟨t, off + byteLen w - 1⟩ ⟨post, off + byteLen w + byteLen t⟩ := by
    rw [takeDate, bind_ok (takeWhitespace_ws hw (solid_of hne hc) off), bind_ok e]
    rfl
  rw [bind_ok e2, hk _ _ rfl]

theorem Reads_date' (E : Env) {npos : Nat} {w t v : Text} (hw : W w) (h : DateText E t v) : Reads (takeDate E npos) (w ++ t) (NoMore E.uni.isD) (fun k => k.s = t) := by
  intro rest off hr
  obtain ⟨hne, ht⟩ := dateText_chars h
  obtain ⟨k, hk, e⟩ := maybeTakeRegex_some (w := []) blanks_nil hne ht (mDate_eq E h hr) (off + byteLen w)
  refine ⟨k, hk, ?_⟩
  rw [List.nil_append] at e
  rw [List.append_assoc, takeDate, bind_ok (takeWhitespace_ws hw (solid_of hne ht) off), bind_ok e]
  simp only [pure_apply, byteLen_append, Nat.add_assoc]

theorem numText_of_parseInt {t : Text} (ht : ∀ c ∈ t, isNum c = true) {i : Int} (h : parseInt t = some i) : NumText t i := by
  have key : ∀ (d : Text) (b : Nat → Prop) [DecidablePred b] (g : Nat → Int),
      ((if d ≠ [] ∧ d.all Char.isDigit then some (Nat.ofDigitChars 10 d 0) else none).bind fun n => if b n then some (g n) else none) = some i →
      d ≠ [] ∧ (∀ c ∈ d, c.isDigit = true) ∧ b (Nat.ofDigitChars 10 d 0) ∧ i = g (Nat.ofDigitChars 10 d 0) := by
    intro d b _ g h
    split at h
    · rename_i hd
      simp only [Option.bind_some] at h
      split at h
      · cases h
        exact ⟨hd.1, by simpa using hd.2, ‹_›, rfl⟩
      · cases h
    · cases h
  unfold parseInt at h
  split at h
  · obtain ⟨h1, h2, h3, rfl⟩ := key _ (· ≤ 2 ^ 63) (fun n => -(n : Int)) h
    exact .neg h1 h2 h3
  · have := ht '+' (by simp)
    cases this
  · obtain ⟨h1, h2, h3, rfl⟩ := key _ (· < 2 ^ 63) (fun n => (n : Int)) h
    exact .pos h1 h2 h3

theorem parseInt_wrong {t : Text} (ht : ∀ c ∈ t, isNum c = true) (hx : ∀ i, ¬ NumText t i) : parseInt t = none := by
  cases h : parseInt t with
  | none => rfl
  | some i => exact absurd (numText_of_parseInt ht h) (hx i)

theorem take_close {npos : Nat} {w r : Text} (hw : W w) (off : Nat) : ∃ k l, take npos ")".toList ⟨w ++ ')' :: r, off⟩ = .ok k l := by
  obtain ⟨k, _, e⟩ := Reads_paren (npos := npos) hw ')' rfl r off trivial
  refine ⟨k, ⟨r, off + byteLen (w ++ [')'])⟩, ?_⟩
  have : w ++ ')' :: r = w ++ [')'] ++ r := by simp
  rw [this]
  exact e

/-- The value is wrong: it is reported after the `)` was found. -/
theorem delayed_wrong {npos : Nat} {v : P α} {l : Lx} {o : Nat} (hv : v l = failAt npos o) (hc : ∃ k l', take npos ")".toList l = .ok k l') : delayed npos v l = failAt npos o := by
  obtain ⟨k, l', hc⟩ := hc
  rw [delayed, hv]
  by_cases ho : o < npos
  · simp only [failAt, if_pos ho, hc]
  · simp only [failAt, if_neg ho]

theorem Fails_delayed {npos : Nat} {v : P α} {a : α} {w bad : Text} (hv : ∀ l, v l = .ok a l) (hw : W w) (hs : Solid bad) (hb : bad.head? ≠ some ')') : Fails npos (delayed npos v) w bad := by
  intro off
  rw [delayed, hv]
  exact (Fails_take (npos := npos) hw hs hb).bind off

theorem NotItem.solid {E : Env} {t : Text} (h : NotItem E t) : Solid t := by
  rcases h with ⟨h, _⟩ | ⟨r, rfl, _⟩
  · exact h
  · exact Solid_cons rfl _

theorem Fails_listValue (E : Env) {npos : Nat} {w bad : Text} (hw : AsciiBlanks w) (h : NotItem E bad) (off : Nat) : listValue E npos ⟨w ++ bad, off⟩ = failAt npos (off - 1) := by
  have hs := h.solid
  have hd : NoMore E.uni.isD bad := by
    rcases h with ⟨_, h⟩ | ⟨r, rfl, _⟩
    · exact fun c hc => (h c hc).1
    · intro c hc
      simp at hc
      subst hc
      rfl
  have hm : mNumber E.uni bad = none := by
    cases bad with
    | nil => rfl
    | cons c r =>
      refine mNumber_none E.uni ?_ (hd c (by simp))
      rcases h with ⟨_, h⟩ | ⟨_, h, _⟩
      · exact (h c (by simp)).2.2.1
      · cases h
        decide
  have hq : mSingleQuoted bad = none := by
    cases bad with
    | nil => rfl
    | cons c r =>
      rw [mSingleQuoted, if_neg]
      rcases h with ⟨_, h⟩ | ⟨_, h, hr⟩
      · exact fun hc => (h c (by simp)).2.2.2 hc.1
      · cases h
        exact fun hc => hr hc.2
  have hi : mPlus E.uni.isW bad = none := by
    cases bad with
    | nil => rfl
    | cons c r =>
      refine mPlus_none ?_
      rcases h with ⟨_, h⟩ | ⟨_, h, _⟩
      · exact (h c (by simp)).2.1
      · cases h
        rfl
  have e3 : maybeSingleQuoted npos ⟨w ++ bad, off⟩ = .ok none ⟨w ++ bad, off⟩ := by
    rw [maybeSingleQuoted, tryMatch_eq hw hs, hq]
    rfl
  rw [listValue, bind_ok (maybeTakeRegex_none hw hs (mDate_no E.uni hd) off)]
  simp only
  rw [bind_ok (maybeTakeRegex_none hw hs hm off)]
  simp only
  rw [bind_ok e3]
  simp only
  rw [bind_ok (maybeTakeRegex_none hw hs hi off)]
  rfl

theorem listLoop_fails (E : Env) {npos : Nat} {s rest : Text} {vs : List Ast} (hs : ListItems E s vs) (hI : ItemEnd rest) (hp : tryMatch (mLit ")".toList) rest = none)
    (hf : ∀ n off, listLoop E npos (n + 1) ⟨rest, off⟩ = failAt npos (off - 1)) (n : Nat) (w0 : Text) (hw0 : AsciiBlanks w0) (off : Nat) :
    listLoop E npos (n + 1 + vs.length) ⟨w0 ++ s ++ rest, off⟩ = failAt npos (off + byteLen (w0 ++ s) - 1) := by
  induction hs generalizing off w0 with
  | @one w t a hw h =>
    obtain ⟨_, rfl, e⟩ := Reads_listValue E (npos := npos) (hw0.append hw) h _ off hI
    rw [← List.append_assoc w0, List.length_singleton, listLoop, bind_ok e]
    simp only [hp]
    exact bind_fail (hf n _)
  | @cons w t a w' s as hw h hne hw' hs ih =>
    have hend : ItemEnd (w' ++ s ++ rest) := by
      cases w' with
      | nil => exact absurd rfl hne
      | cons x w' =>
        refine ⟨x, _, rfl, ?_⟩
        rcases hw' x (by simp) with h | h <;> simp [h]
    obtain ⟨_, rfl, e⟩ := Reads_listValue E (npos := npos) (hw0.append hw) h _ off hend
    have f : w0 ++ (w ++ t ++ w' ++ s) ++ rest = w0 ++ w ++ t ++ (w' ++ s ++ rest) := by simp
    obtain ⟨u, x, r, hu, hx1, hx2, hsu⟩ : ∃ u x r, AsciiBlanks u ∧ isWs x = false ∧ x ≠ ')' ∧ s = u ++ x :: r := by
      cases hs with
      | one hw h =>
        obtain ⟨x, r, rfl, h1, h2⟩ := h.head
        exact ⟨_, x, r, hw, h1, h2, rfl⟩
      | cons hw h _ _ _ =>
        obtain ⟨x, r, rfl, h1, h2⟩ := h.head
        exact ⟨_, x, _, hw, h1, h2, by simp; rfl⟩
    have hpk : tryMatch (mLit ")".toList) (w' ++ s ++ rest) = none := by
      have : w' ++ s ++ rest = (w' ++ u) ++ x :: (r ++ rest) := by rw [hsu]; simp
      rw [this, peek_close (hw'.append hu) hx1, if_neg hx2]
    have hlen : ∀ a : Ast, n + 1 + (a :: as).length = (n + 1 + as.length) + 1 := by intro a; simp; omega
    rw [f, hlen, listLoop, bind_ok e]
    simp only [hpk]
    have := ih w' hw' (off + byteLen (w0 ++ w ++ t))
    rw [bind_fail this]
    congr 1
    simp only [byteLen_append]
    omega

/-! ## Arguments -/

/-- A validation is one of those with some kind of argument: what it does with it. -/
theorem kind_of (E : Env) (npos : Nat) {names : List String} {v : Text} (hv : OneOfCI E names v) {α : Type} (m : P α)
    (hk : ∀ n ∈ names, n ≠ "" ∧ ∃ k, validators.lookup n.toList = some k ∧ ∃ f : α → Validation, validator E npos k = (do let a ← m; pure (f a))) {d r : Text}
    (hf : Fails npos m d r) {q : Text} (hq : EqSign q) (hm : NoMore (isIdent E) (d ++ r)) : Fails npos (takeValidation E npos) (q ++ v ++ d) r := by
  obtain ⟨hi, n, hn, hl⟩ := hv
  obtain ⟨h1, k, h2, f, h3⟩ := hk n hn
  have hne : v ≠ [] := ident_ne (fun n hm => (hk n hm).1) ⟨hi, n, hn, hl⟩
  obtain ⟨a, b, ha, hb, rfl⟩ := hq
  intro off
  obtain ⟨kk, e3⟩ := take_eq (npos := npos) (rest := b ++ v ++ (d ++ r)) ha off
  have e4 := takeWhile_at (npos := npos) (f := isIdent E) hb hne hi (ident_ws E) hm (off + byteLen a + 1)
  have g : a ++ '=' :: b ++ v ++ d ++ r = a ++ '=' :: (b ++ v ++ (d ++ r)) := by simp
  have e5 : takeRight E npos ⟨a ++ '=' :: b ++ v ++ d ++ r, off⟩ = .ok ⟨v, off + byteLen a + 1 + byteLen (b ++ v) - 1⟩ ⟨d ++ r, off + byteLen a + 1 + byteLen (b ++ v)⟩ := by
    rw [takeRight, g, bind_ok e3, e4]
  rw [takeValidation, bind_ok e5]
  simp only [hl, h2, h3]
  rw [hf.bind]
  simp [byteLen_append, byteLen_cons, show ('=' : Char).utf8Size = 1 from rfl, Nat.add_assoc]

theorem stringArg_kind (E : Env) (npos : Nat) : ∀ n ∈ stringArg, n ≠ "" ∧ ∃ k, validators.lookup n.toList = some k ∧ ∃ f : Text → Validation, validator E npos k = (do let a ← oneString E npos; pure (f a)) := by
  intro n hn
  simp only [stringArg, List.mem_cons, List.not_mem_nil, or_false] at hn
  rcases hn with rfl | rfl | rfl | rfl | rfl | rfl <;> exact ⟨by decide, _, rfl, _, rfl⟩

theorem dateArg_kind (E : Env) (npos : Nat) : ∀ n ∈ dateArg, n ≠ "" ∧ ∃ k, validators.lookup n.toList = some k ∧ ∃ f : Text → Validation, validator E npos k = (do let a ← oneDate E npos; pure (f a)) := by
  intro n hn
  simp only [dateArg, List.mem_cons, List.not_mem_nil, or_false] at hn
  rcases hn with rfl | rfl | rfl | rfl | rfl | rfl | rfl | rfl | rfl | rfl <;> exact ⟨by decide, _, rfl, _, rfl⟩

theorem datesArg_kind (E : Env) (npos : Nat) : ∀ n ∈ datesArg, n ≠ "" ∧ ∃ k, validators.lookup n.toList = some k ∧
    ∃ f : Text × Text → Validation, validator E npos k = (do let a ← twoDates E npos; pure (f a)) := by
  intro n hn
  simp only [datesArg, List.mem_cons, List.not_mem_nil, or_false] at hn
  rcases hn with rfl | rfl | rfl | rfl
  · exact ⟨by decide, _, rfl, fun (a, b) => .dateBetween a b, rfl⟩
  · exact ⟨by decide, _, rfl, fun (a, b) => .dateBetween a b, rfl⟩
  · exact ⟨by decide, _, rfl, fun (a, b) => .dateNotBetween a b, rfl⟩
  · exact ⟨by decide, _, rfl, fun (a, b) => .dateNotBetween a b, rfl⟩

theorem numberArg_kind (E : Env) (npos : Nat) : ∀ n ∈ numberArg, n ≠ "" ∧ ∃ k, validators.lookup n.toList = some k ∧ ∃ f : Int → Validation, validator E npos k = (do let a ← oneNumber npos; pure (f a)) := by
  intro n hn
  simp only [numberArg, List.mem_cons, List.not_mem_nil, or_false] at hn
  rcases hn with rfl | rfl | rfl | rfl | rfl | rfl | rfl | rfl | rfl | rfl | rfl | rfl <;> exact ⟨by decide, _, rfl, _, rfl⟩

theorem numbersArg_kind (E : Env) (npos : Nat) : ∀ n ∈ numbersArg, n ≠ "" ∧ ∃ k, validators.lookup n.toList = some k ∧
    ∃ f : Int × Int → Validation, validator E npos k = (do let a ← twoNumbers npos; pure (f a)) := by
  intro n hn
  simp only [numbersArg, List.mem_cons, List.not_mem_nil, or_false] at hn
  rcases hn with rfl | rfl | rfl | rfl
  · exact ⟨by decide, _, rfl, fun (a, b) => .numberBetween a b, rfl⟩
  · exact ⟨by decide, _, rfl, fun (a, b) => .numberBetween a b, rfl⟩
  · exact ⟨by decide, _, rfl, fun (a, b) => .numberNotBetween a b, rfl⟩
  · exact ⟨by decide, _, rfl, fun (a, b) => .numberNotBetween a b, rfl⟩

theorem rangeArg_kind (E : Env) (npos : Nat) : ∀ n ∈ ["in_range"], n ≠ "" ∧ ∃ k, validators.lookup n.toList = some k ∧ ∃ f : Text → Validation, validator E npos k = (do let a ← inRange E npos; pure (f a)) := by
  intro n hn
  simp only [List.mem_cons, List.not_mem_nil, or_false] at hn
  subst hn
  exact ⟨by decide, _, rfl, _, rfl⟩

theorem listArg_kind (E : Env) (npos : Nat) : ∀ n ∈ ["in_list"], n ≠ "" ∧ ∃ k, validators.lookup n.toList = some k ∧ ∃ f : List Ast → Validation, validator E npos k = (do let a ← inList E npos; pure (f a)) := by
  intro n hn
  simp only [List.mem_cons, List.not_mem_nil, or_false] at hn
  subst hn
  exact ⟨by decide, _, rfl, _, rfl⟩

/-- After the `(`: what an argument fails at. -/
theorem Fails_open {npos : Nat} {f : CTok → P β} {p d r : Text} (hp : OpenParen p) (h : ∀ b, W b → ∀ tok, Fails npos (f tok) (b ++ d) r) :
    Fails npos (take npos "(".toList >>= f) (p ++ d) r := by
  obtain ⟨a, b, ha, hb, rfl⟩ := hp
  have := Fails.after (npos := npos) (f := f) (Reads_paren (npos := npos) ha '(' rfl) (fun tok _ => h b hb tok) trivial
  have e : a ++ ['('] ++ (b ++ d) = a ++ '(' :: b ++ d := by simp
  rwa [e] at this

theorem Fails_open0 {npos : Nat} {f : CTok → P β} {p r : Text} (hp : OpenParen p) (h : ∀ b, W b → ∀ tok, Fails npos (f tok) b r) : Fails npos (take npos "(".toList >>= f) p r := by
  have := Fails_open (npos := npos) (f := f) (d := []) (r := r) hp (fun b hb tok => by rw [List.append_nil]; exact h b hb tok)
  rwa [List.append_nil] at this

theorem OpenParen.noMore (E : Env) {p : Text} (hp : OpenParen p) (r : Text) : NoMore (isIdent E) (p ++ r) := by
  obtain ⟨a, b, ha, hb, rfl⟩ := hp
  refine noMore_of (fun _ => ident_brk E) ?_
  rw [List.append_assoc]
  exact Ends_W ha (Ends_cons (by simp [Brk]) _)

theorem ends_of {w bad : Text} (hw : W w) (he : w ≠ [] ∨ Ends bad) : Ends (w ++ bad) := by
  cases w with
  | nil => simpa using he
  | cons c w => exact Ends_cons (.inl (hw c (by simp))) _

theorem ends_ws {w : Text} (hw : W w) (hne : w ≠ []) (r : Text) : Ends (w ++ r) := ends_of hw (.inl hne)

/-- The error of an argument that is a wrong word: at its last byte. -/
theorem WrongArgWord.fails (E : Env) {npos : Nat} {names : List String} {pre bad post v q : Text} (h : WrongArgWord E names pre bad post) (hv : OneOfCI E names v) (hq : EqSign q) :
    Fails npos (takeValidation E npos) (q ++ v ++ (pre ++ bad)) post := by
  cases h with
  | @number _ _ _ w r hp hne hb hx hw hpost =>
    subst hpost
    refine kind_of E npos hv _ (numberArg_kind E npos) ?_ hq (by rw [List.append_assoc]; exact hp.noMore E _)
    refine Fails_open hp fun b hbw _ => ?_
    refine Fails_word hbw hne hb num_ws (noMore_of (fun _ => num_brk) (Ends_W hw (Ends_cons (by simp [Brk]) _))) fun tok off ht => ?_
    refine delayed_wrong ?_ (take_close hw _)
    simp only [intoNumber, ht, parseInt_wrong hb hx]
    rfl
  | first hp hne hb hx hpost =>
    refine kind_of E npos hv _ (numbersArg_kind E npos) ?_ hq (by rw [List.append_assoc]; exact hp.noMore E _)
    refine Fails_open hp fun b hbw _ => ?_
    refine Fails_word hbw hne hb num_ws hpost fun tok off ht => ?_
    refine bind_fail ?_
    simp only [intoNumber, ht, parseInt_wrong hb hx]
    rfl
  | @second p s i w _ _ hp h hw hwne hne hb hx hpost =>
    refine kind_of E npos hv _ (numbersArg_kind E npos) ?_ hq (by simp only [List.append_assoc]; exact hp.noMore E _)
    have g : p ++ s ++ w ++ bad = p ++ (s ++ (w ++ bad)) := by simp
    rw [g]
    refine Fails_open hp fun b hbw _ => ?_
    rw [← List.append_assoc]
    refine Fails.after (Reads_num hbw h) (fun tok ht => ?_) (by rw [List.append_assoc]; exact ends_ws hw hwne _)
    rw [← List.nil_append (w ++ bad)]
    refine Fails.after (Reads_intoNumber h tok ht Any) (fun j _ => ?_) trivial
    refine Fails_word hw hne hb num_ws hpost fun tok off ht => ?_
    refine bind_fail ?_
    simp only [intoNumber, ht, parseInt_wrong hb hx]
    rfl
  | range hp hne hb hx hpost =>
    refine kind_of E npos hv _ (rangeArg_kind E npos) ?_ hq (by rw [List.append_assoc]; exact hp.noMore E _)
    refine Fails_open hp fun b hbw _ => ?_
    refine Fails_word hbw hne hb (a1_ws E) hpost fun tok off ht => ?_
    rw [ht, hx]
    rfl

theorem inList_fails (E : Env) {npos : Nat} {a d r : Text} (ha : W a) (h : ∀ off, listLoop E npos ((d ++ r).length + 1) ⟨d ++ r, off⟩ = failAt npos (off + byteLen d - 1)) :
    Fails npos (inList E npos) (a ++ '(' :: d) r := by
  have e : a ++ '(' :: d = a ++ ['('] ++ d := by simp
  rw [e]
  refine Fails.after (Reads_paren (npos := npos) ha '(' rfl) (fun _ _ => ?_) trivial
  refine Fails.bind ?_
  exact fun off => h off

/-- The error of something that is not the argument that can follow: at the byte before. -/
theorem WrongArgPlace.fails (E : Env) {npos : Nat} {names : List String} {pre bad v q : Text} (h : WrongArgPlace E names pre bad) (hv : OneOfCI E names v) (hq : EqSign q) :
    Fails npos (takeValidation E npos) (q ++ v ++ pre) bad := by
  cases h with
  | opening hn hw hs hb hm =>
    have hf := fun (β : Type) (f : CTok → P β) => (Fails_take (npos := npos) (c := '(') hw hs hb).bind (f := f)
    simp only [List.mem_cons, List.not_mem_nil, or_false] at hn
    rcases hn with rfl | rfl | rfl | rfl | rfl | rfl | rfl
    · exact kind_of E npos hv _ (stringArg_kind E npos) (hf _ _) hq hm
    · exact kind_of E npos hv _ (dateArg_kind E npos) (hf _ _) hq hm
    · exact kind_of E npos hv _ (datesArg_kind E npos) (hf _ _) hq hm
    · exact kind_of E npos hv _ (numberArg_kind E npos) (hf _ _) hq hm
    · exact kind_of E npos hv _ (numbersArg_kind E npos) (hf _ _) hq hm
    · exact kind_of E npos hv _ (rangeArg_kind E npos) (hf _ _) hq hm
    · exact kind_of E npos hv _ (listArg_kind E npos) (hf _ _) hq hm
  | @closing _ p s w _ h hw hs hb he =>
    have hE := ends_of hw he
    have hf := fun (β : Type) (f : CTok → P β) => (Fails_take (npos := npos) (c := ')') hw hs hb).bind (f := f)
    cases h with
    | string hp h =>
      refine kind_of E npos hv _ (stringArg_kind E npos) ?_ hq (by simp only [List.append_assoc]; exact hp.noMore E _)
      rw [List.append_assoc]
      refine Fails_open hp fun b hbw _ => ?_
      rw [← List.append_assoc]
      exact Fails.after (Reads_string E hbw h) (fun tok _ => hf _ _) hE
    | @date _ _ d0 hp h =>
      refine kind_of E npos hv _ (dateArg_kind E npos) ?_ hq (by simp only [List.append_assoc]; exact hp.noMore E _)
      rw [List.append_assoc]
      refine Fails_open hp fun b hbw _ => ?_
      rw [← List.append_assoc]
      refine Fails.after (Reads_date E hbw h) (fun tok ht => ?_) hE
      refine Fails_delayed (a := d0) (fun l => ?_) hw hs hb
      simp only [intoDate, ht, h.1]
      rfl
    | @dates p s0 d w' _ d' hp h hw' hne h' =>
      refine kind_of E npos hv _ (datesArg_kind E npos) ?_ hq (by simp only [List.append_assoc]; exact hp.noMore E _)
      have g : p ++ s0 ++ w' ++ s ++ w = p ++ (s0 ++ ([] ++ (w' ++ s ++ ([] ++ w)))) := by simp
      rw [g]
      refine Fails_open hp fun b hbw _ => ?_
      rw [← List.append_assoc]
      refine Fails.after (Reads_date E hbw h) (fun tok ht => ?_) (by simp only [List.nil_append, List.append_assoc]; exact ends_ws hw' hne _)
      refine Fails.after (Reads_intoDate h tok ht Any) (fun _ _ => ?_) trivial
      refine Fails.after (Reads_date E hw' h') (fun tok ht => ?_) hE
      exact Fails.after (Reads_intoDate h' tok ht Any) (fun _ _ => hf _ _) trivial
    | @number _ _ d0 hp h =>
      refine kind_of E npos hv _ (numberArg_kind E npos) ?_ hq (by simp only [List.append_assoc]; exact hp.noMore E _)
      rw [List.append_assoc]
      refine Fails_open hp fun b hbw _ => ?_
      rw [← List.append_assoc]
      refine Fails.after (Reads_num hbw h) (fun tok ht => ?_) hE
      refine Fails_delayed (a := d0) (fun l => ?_) hw hs hb
      simp only [intoNumber, ht, parseInt_numText h]
      rfl
    | @numbers p s0 d w' _ d' hp h hw' hne h' =>
      refine kind_of E npos hv _ (numbersArg_kind E npos) ?_ hq (by simp only [List.append_assoc]; exact hp.noMore E _)
      have g : p ++ s0 ++ w' ++ s ++ w = p ++ (s0 ++ ([] ++ (w' ++ s ++ ([] ++ w)))) := by simp
      rw [g]
      refine Fails_open hp fun b hbw _ => ?_
      rw [← List.append_assoc]
      refine Fails.after (Reads_num hbw h) (fun tok ht => ?_) (by simp only [List.nil_append, List.append_assoc]; exact ends_ws hw' hne _)
      refine Fails.after (Reads_intoNumber h tok ht Any) (fun _ _ => ?_) trivial
      refine Fails.after (Reads_num hw' h') (fun tok ht => ?_) hE
      exact Fails.after (Reads_intoNumber h' tok ht Any) (fun _ _ => hf _ _) trivial
    | range hp hne hc hr =>
      refine kind_of E npos hv _ (rangeArg_kind E npos) ?_ hq (by simp only [List.append_assoc]; exact hp.noMore E _)
      rw [List.append_assoc]
      refine Fails_open hp fun b hbw _ => ?_
      rw [← List.append_assoc]
      refine Fails.after (Reads_takeWhile hbw hne hc (a1_ws E)) (fun tok ht => ?_) (noMore_of (fun _ => a1_brk E) hE)
      rw [ht, hr]
      exact hf _ _
  | string hp hb =>
    refine kind_of E npos hv _ (stringArg_kind E npos) ?_ hq (hp.noMore E _)
    exact Fails_open0 hp fun b hbw _ => (Fails_string E hbw hb).bind
  | number hn hp hs hb =>
    simp only [List.mem_cons, List.not_mem_nil, or_false] at hn
    rcases hn with rfl | rfl
    · exact kind_of E npos hv _ (numberArg_kind E npos) (Fails_open0 hp fun b hbw _ => (Fails_takeWhile hbw hs hb).bind) hq (hp.noMore E _)
    · exact kind_of E npos hv _ (numbersArg_kind E npos) (Fails_open0 hp fun b hbw _ => (Fails_takeWhile hbw hs hb).bind) hq (hp.noMore E _)
  | @second p s i w _ hp h hw hs hb hb' =>
    refine kind_of E npos hv _ (numbersArg_kind E npos) ?_ hq (by simp only [List.append_assoc]; exact hp.noMore E _)
    have g : p ++ s ++ w = p ++ (s ++ ([] ++ w)) := by simp
    rw [g]
    refine Fails_open hp fun b hbw _ => ?_
    rw [← List.append_assoc]
    refine Fails.after (Reads_takeWhile hbw (numText_chars h).1 (numText_chars h).2 num_ws) (fun tok ht => ?_) hb
    refine Fails.after (Reads_intoNumber h tok ht Any) (fun _ _ => ?_) trivial
    exact (Fails_takeWhile hw hs hb').bind
  | date hn hp hs hb =>
    simp only [List.mem_cons, List.not_mem_nil, or_false] at hn
    rcases hn with rfl | rfl
    · exact kind_of E npos hv _ (dateArg_kind E npos) (Fails_open0 hp fun b hbw _ => (Fails_noDate E hbw hs hb).bind) hq (hp.noMore E _)
    · exact kind_of E npos hv _ (datesArg_kind E npos) (Fails_open0 hp fun b hbw _ => (Fails_noDate E hbw hs hb).bind) hq (hp.noMore E _)
  | @noDate _ t w r hp ht hx hw =>
    refine kind_of E npos hv _ (dateArg_kind E npos) ?_ hq (hp.noMore E _)
    rw [List.append_assoc]
    refine Fails_open0 hp fun b hbw _ => ?_
    refine Fails_date E hbw ht (noMore_of (fun _ => isD_brk E.uni) (Ends_W hw (Ends_cons (by simp [Brk]) _))) fun tok off ht => ?_
    refine delayed_wrong ?_ (take_close hw _)
    simp only [intoDate, ht, hx]
    rfl
  | firstDate hp ht hx hr =>
    refine kind_of E npos hv _ (datesArg_kind E npos) ?_ hq (hp.noMore E _)
    refine Fails_open0 hp fun b hbw _ => ?_
    refine Fails_date E hbw ht hr fun tok off ht => ?_
    refine bind_fail ?_
    simp only [intoDate, ht, hx]
    rfl
  | @secondDate p s d w _ hp h hw hs hb hb' =>
    refine kind_of E npos hv _ (datesArg_kind E npos) ?_ hq (by simp only [List.append_assoc]; exact hp.noMore E _)
    have g : p ++ s ++ w = p ++ (s ++ ([] ++ w)) := by simp
    rw [g]
    refine Fails_open hp fun b hbw _ => ?_
    rw [← List.append_assoc]
    refine Fails.after (Reads_date' E hbw h) (fun tok ht => ?_) hb
    refine Fails.after (Reads_intoDate h tok ht Any) (fun _ _ => ?_) trivial
    exact (Fails_noDate E hw hs hb').bind
  | @noSecondDate p s d w t r hp h hw hwne ht hx hr =>
    refine kind_of E npos hv _ (datesArg_kind E npos) ?_ hq (by simp only [List.append_assoc]; exact hp.noMore E _)
    have g : p ++ s ++ w = p ++ (s ++ ([] ++ w)) := by simp
    rw [g]
    refine Fails_open hp fun b hbw _ => ?_
    rw [← List.append_assoc]
    refine Fails.after (Reads_date E hbw h) (fun tok ht => ?_) (ends_ws hw hwne _)
    refine Fails.after (Reads_intoDate h tok ht Any) (fun _ _ => ?_) trivial
    refine Fails_date E hw ‹DateShape t› hr fun tok off ht => ?_
    refine bind_fail ?_
    simp only [intoDate, ht, hx]
    rfl
  | range hp hs hb =>
    refine kind_of E npos hv _ (rangeArg_kind E npos) ?_ hq (hp.noMore E _)
    exact Fails_open0 hp fun b hbw _ => (Fails_takeWhile hbw hs hb).bind
  | @value a w bad ha hw hb =>
    refine kind_of E npos hv _ (listArg_kind E npos) ?_ hq (OpenParen.noMore E ⟨a, [], ha, W_nil, rfl⟩ _)
    refine inList_fails E (d := []) ha fun off => ?_
    rw [List.nil_append, byteLen_nil, Nat.add_zero, listLoop]
    exact bind_fail (Fails_listValue E hw hb off)
  | @nextValue a s vs w bad ha hs hw hb hc he =>
    refine kind_of E npos hv _ (listArg_kind E npos) ?_ hq (by
      have := OpenParen.noMore E ⟨a, [], ha, W_nil, rfl⟩ (s ++ (w ++ bad))
      simpa using this)
    refine inList_fails E ha fun off => ?_
    have hI : ItemEnd (w ++ bad) := by
      cases w with
      | nil =>
        have : bad.head? = some ']' := by simpa using he
        cases bad with
        | nil => cases this
        | cons c r =>
          simp at this
          subst this
          exact ⟨_, _, rfl, by simp⟩
      | cons x w =>
        refine ⟨x, _, rfl, ?_⟩
        rcases hw x (by simp) with h | h <;> simp [h]
    have hp : tryMatch (mLit ")".toList) (w ++ bad) = none := by
      cases bad with
      | nil => rw [tryMatch_eq hw hb.solid]; rfl
      | cons c r => rw [peek_close hw (hb.solid c (by simp)), if_neg (by simpa using hc)]
    have hl := hs.length_pos
    have hlen : (s ++ (w ++ bad)).length + 1 = ((s ++ (w ++ bad)).length - vs.length) + 1 + vs.length := by simp; omega
    have := listLoop_fails E (npos := npos) hs hI hp (fun n off => by rw [listLoop]; exact bind_fail (Fails_listValue E hw hb off)) ((s ++ (w ++ bad)).length - vs.length) [] blanks_nil off
    rw [List.nil_append] at this
    rw [hlen]
    exact this


/-! ## The option -/

theorem option_fails (E : Env) {npos : Nat} {isRow : Bool} {y : Nat} {names : List String} {k : OKind} {n d r : Text} (hn : OneOf names n) (hk : NameOf names k) (hkf : k ≠ .fill)
    (hr : NoMore E.alnum (d ++ r)) (hf : Fails npos (optionUpdate E npos k) d r) (tg : Target) {u : Text} (hu : W u) : Fails npos (option E npos isRow y tg) (u ++ (n ++ d)) r := by
  intro off
  obtain ⟨tok, -, e⟩ := option_named E (npos := npos) (isRow := isRow) (y := y) hu hn hk hr tg off
  have f : u ++ (n ++ d) ++ r = u ++ n ++ (d ++ r) := by simp
  rw [f, e]
  have e2 := hf (off + byteLen (u ++ n))
  have hoff : off + byteLen (u ++ n) + byteLen d - 1 = off + byteLen (u ++ (n ++ d)) - 1 := by simp [byteLen_append, Nat.add_assoc]
  rw [← hoff]
  cases k <;> first | exact absurd rfl hkf | exact bind_fail e2

theorem WrongArg.option_fails (E : Env) {npos : Nat} {isRow : Bool} {y : Nat} {pre bad post : Text} (h : WrongArg E pre bad post) (tg : Target) {u : Text} (hu : W u) :
    Fails npos (option E npos isRow y tg) (u ++ (pre ++ bad)) post := by
  cases h with
  | @arg n q names v p _ _ hn hq hv h =>
    have g : n ++ q ++ v ++ p ++ bad = n ++ (q ++ v ++ (p ++ bad)) := by simp
    rw [g]
    refine Cell.option_fails E (k := .validate) hn (by decide) (by decide) ?_ (h.fails E hv hq).bind tg hu
    simp only [List.append_assoc]
    exact hq.noMore E _

theorem Fails_eq {npos : Nat} {m : P α} {q bad : Text} (hq : EqSign q) (h : ∀ b, W b → Fails npos m b bad) : Fails npos (do let _ ← take npos "=".toList; m) q bad := by
  obtain ⟨a, b, ha, hb, rfl⟩ := hq
  intro off
  obtain ⟨kk, e⟩ := take_eq (npos := npos) (rest := b ++ bad) ha off
  have g : a ++ '=' :: b ++ bad = a ++ '=' :: (b ++ bad) := by simp
  rw [g, bind_ok e, h b hb]
  simp [byteLen_append, byteLen_cons, show ('=' : Char).utf8Size = 1 from rfl, Nat.add_assoc]

theorem WrongArgAt.option_fails (E : Env) {npos : Nat} {isRow : Bool} {y : Nat} {pre bad : Text} (h : WrongArgAt E pre bad) (tg : Target) {u : Text} (hu : W u) :
    Fails npos (option E npos isRow y tg) (u ++ pre) bad := by
  cases h with
  | @arg n q names v p _ hn hq hv h =>
    have g : n ++ q ++ v ++ p = n ++ (q ++ v ++ p) := by simp
    rw [g]
    refine Cell.option_fails E (k := .validate) hn (by decide) (by decide) ?_ (h.fails E hv hq).bind tg hu
    simp only [List.append_assoc]
    exact hq.noMore E _
  | @string n q _ hn hq hb =>
    have hf : Fails npos (takeEqString E npos) q bad := Fails_eq hq fun b hbw => (Fails_string E hbw hb).bind
    obtain ⟨m, hm, rfl⟩ := hn
    simp only [List.mem_cons, List.not_mem_nil, or_false] at hm
    rcases hm with rfl | rfl | rfl | rfl
    · exact Cell.option_fails E (k := .note) ⟨"n", List.mem_singleton.mpr rfl, rfl⟩ (by decide) (by decide) (hq.noMore E _) hf.bind tg hu
    · exact Cell.option_fails E (k := .note) ⟨"note", List.mem_singleton.mpr rfl, rfl⟩ (by decide) (by decide) (hq.noMore E _) hf.bind tg hu
    · exact Cell.option_fails E (k := .fontFamily) ⟨"ff", List.mem_singleton.mpr rfl, rfl⟩ (by decide) (by decide) (hq.noMore E _) hf.bind tg hu
    · exact Cell.option_fails E (k := .fontFamily) ⟨"fontfamily", List.mem_singleton.mpr rfl, rfl⟩ (by decide) (by decide) (hq.noMore E _) hf.bind tg hu
  | @var n q _ hn hq hs hb =>
    have hf : Fails npos (takeRight E npos) q bad := Fails_eq hq fun b hbw => Fails_takeWhile hbw hs hb
    exact Cell.option_fails E (k := .var) hn (by decide) (by decide) (hq.noMore E _) hf.bind tg hu

theorem named_head (E : Env) {names : List String} {n v : Text} (hn : OneOf names n) (hk : ∀ m ∈ names, m.toList ≠ [] ∧ ∀ c ∈ m.toList, c.toNat < 128 ∧ c.isAlphanum = true) :
    ∃ c r, n ++ v = c :: r ∧ isWs c = false ∧ c ≠ '=' ∧ c ≠ '/' ∧ c ≠ ']' := by
  obtain ⟨m, hm, rfl⟩ := hn
  obtain ⟨h1, h2⟩ := hk m hm
  cases hx : m.toList with
  | nil => exact absurd hx h1
  | cons c r =>
    have hc := h2 c (by rw [hx]; simp)
    refine ⟨c, r ++ v, rfl, E.alnum_ws c (by rw [E.alnum_ascii c hc.1]; exact hc.2), ?_, ?_, ?_⟩ <;>
      (rintro rfl; have := hc.2; revert this; decide)

theorem WrongArg.head {E : Env} {pre bad post : Text} (h : WrongArg E pre bad post) : ∃ c r, pre ++ bad ++ post = c :: r ∧ isWs c = false ∧ c ≠ '=' ∧ c ≠ '/' ∧ c ≠ ']' := by
  cases h with
  | @arg n q names v p _ _ hn hq hv h =>
    have := named_head E (v := q ++ (v ++ (p ++ (bad ++ post)))) hn (by decide)
    simpa using this

theorem WrongArgAt.head {E : Env} {pre bad : Text} (h : WrongArgAt E pre bad) : ∃ c r, pre ++ bad = c :: r ∧ isWs c = false ∧ c ≠ '=' ∧ c ≠ '/' ∧ c ≠ ']' := by
  cases h with
  | @arg n q names v p _ hn hq hv h =>
    have := named_head E (v := q ++ (v ++ (p ++ bad))) hn (by decide)
    simpa using this
  | @string n q _ hn hq hb =>
    have := named_head E (v := q ++ bad) hn (by decide)
    simpa using this
  | @var n q _ hn hq hs hb =>
    have := named_head E (v := q ++ bad) hn (by decide)
    simpa using this

/-! ## The cell -/

theorem Opened.ne_nil {E : Env} {x : Nat} {isRow : Bool} {t : Text} (h : Opened E x isRow t) : t ≠ [] := by
  obtain ⟨lead, w, b, es, -, -, -, -, -, rfl⟩ := h
  cases isRow <;> simp

/-- An option that fails at the end of `d`. -/
theorem cellParse_fails (E : Env) (f : Csvp.Field) (row : RowS) (hp : f.positions.length = f.value.length) (ha : Ascii f.value) {isRow : Bool} {t d r : Text}
    (ht : Opened E f.addr.x isRow t) (hv : f.value = t ++ (d ++ r)) (hh : ∃ c s, d ++ r = c :: s ∧ isWs c = false ∧ c ≠ '=' ∧ c ≠ '/' ∧ c ≠ ']')
    (hf : ∀ (tg : Target) (u : Text), W u → Fails f.positions.length (option E f.positions.length isRow f.addr.y tg) (u ++ d) r) :
    cellParse E f row = .error (.options ((t ++ d).length - 1)) := by
  obtain ⟨c, s, hcr, h1, h2, h3, h4⟩ := hh
  have hA : ∀ s : Text, (∀ c ∈ s, c ∈ f.value) → byteLen s = s.length := fun s hs => byteLen_ascii (fun c hc => ha c (hs c hc))
  have e := parseCell_opened E f row ht (c := c) (r := s) (o := (t ++ d).length - 1) (by rw [hv, hcr]) h1 h2 h3 h4 (fun tg u off hu hoff => by
    rw [← hcr, ← List.append_assoc, hf tg u hu off, byteLen_append, ← Nat.add_assoc, hoff, ← byteLen_append, hA _ (fun c hc => by rw [hv]; simp at hc ⊢; tauto), failAt, if_pos]
    have := List.length_pos_iff.mpr ht.ne_nil
    rw [hp, hv]
    simp only [List.length_append]
    omega)
  rw [cellParse, e]

theorem WrongArg.bad_ne {E : Env} {pre bad post : Text} (h : WrongArg E pre bad post) : bad ≠ [] := by
  cases h with
  | arg _ _ _ h => cases h <;> assumption

/-- C92, arguments of validations that are numbers or ranges: if such an argument is wrong, the cell is rejected, with an error at the last character of the argument. -/
theorem C92_args_partial (E : Env) (f : Csvp.Field) (row : RowS) (hp : f.positions.length = f.value.length) (ha : Ascii f.value) {isRow : Bool} {t pre bad post : Text}
    (ht : Opened E f.addr.x isRow t) (hw : WrongArg E pre bad post) (hv : f.value = t ++ (pre ++ bad ++ post)) :
    bad ≠ [] ∧ cellParse E f row = .error (.options ((t ++ pre ++ bad).length - 1)) := by
  refine ⟨hw.bad_ne, ?_⟩
  rw [List.append_assoc t]
  exact cellParse_fails E f row hp ha ht hv hw.head (fun tg _ hu => hw.option_fails E tg hu)

/-- C92, strings and other arguments of validations: if something stands where a string, a name, `(`, an argument or `)` is expected, or a quoted text does not end, or a date does not exist,
the cell is rejected, but with an error at the character before it (in a list of values: before the white space before it). -/
theorem C92_violated_args (E : Env) (f : Csvp.Field) (row : RowS) (hp : f.positions.length = f.value.length) (ha : Ascii f.value) {isRow : Bool} {t pre bad : Text}
    (ht : Opened E f.addr.x isRow t) (hw : WrongArgAt E pre bad) (hv : f.value = t ++ (pre ++ bad)) :
    cellParse E f row = .error (.options ((t ++ pre).length - 1)) :=
  cellParse_fails E f row hp ha ht hv hw.head (fun tg _ hu => hw.option_fails E tg hu)

/-! ## Lists that are not closed -/

theorem Entries.last {E : Env} {i : Text} {es : List Entry} (h : Entries E i es) : ∃ b es' l e, Begun E b es' ∧ EntryText E l e ∧ i = b ++ l ∧ es = es' ++ [e] := by
  induction h with
  | one h => exact ⟨[], [], _, _, .nil, h, rfl, rfl⟩
  | cons h hsep _ ih =>
    obtain ⟨b, es', l, e, hb, he, rfl, rfl⟩ := ih
    exact ⟨_, _, l, e, .cons h hsep hb, he, by simp, rfl⟩

theorem ws_split {a u r0 bad : Text} (ha : W a) (hu : W u) (hs : Solid bad) (h : a ++ bad = u ++ r0) : ∃ w1, W w1 ∧ r0 = w1 ++ bad ∧ a = u ++ w1 := by
  induction u generalizing a with
  | nil => exact ⟨a, ha, h.symm, rfl⟩
  | cons x u ih =>
    cases a with
    | nil =>
      rw [List.nil_append] at h
      have h1 := hs x (by rw [h]; simp)
      rw [hu x (by simp)] at h1
      cases h1
    | cons z w =>
      simp only [List.cons_append, List.cons.injEq] at h
      obtain ⟨w1, h1, h2, h3⟩ := ih (fun c hc => ha c (by simp [hc])) (fun c hc => hu c (by simp [hc])) h.2
      exact ⟨w1, h1, h2, by rw [h.1, h3]; rfl⟩

/-- The options of a list are read, and then what follows the last one. -/
theorem optionsLoop_items (E : Env) {npos : Nat} {isRow : Bool} {y : Nat} {w i a bad : Text} {es : List Entry} (hw : W w) (h : Entries E i es)
    (hes : isRow = false → ∀ e ∈ es, e.isLeft = true) (ha : W a) (hs : Solid bad) (hA : After (a ++ bad)) (t : Target) (off : Nat) :
    ∃ t' w1 off' n, W w1 ∧ off' + byteLen w1 = off + byteLen (w ++ i ++ a) ∧
      optionsLoop E npos isRow y ((w ++ i ++ (a ++ bad)).length + 1) t ⟨w ++ i ++ (a ++ bad), off⟩ = (do
        match ← maybeTake "/".toList with
        | some _ => optionsLoop E npos isRow y (n + 1) t'
        | none =>
          match ← maybeTake "]]".toList with
          | some _ => pure t'
          | none => optionsLoop E npos isRow y (n + 1) t' : P Target) ⟨w1 ++ bad, off'⟩ := by
  have hf : ∀ e ∈ es, e.isRight = true → isRow = true := by
    intro e hm hr
    cases isRow with
    | true => rfl
    | false => have := hes rfl e hm; cases e <;> simp_all
  obtain ⟨b, es', l, e, hb, he, rfl, rfl⟩ := h.last
  obtain ⟨c, r, hcr, h1, h2, h3, h4⟩ := he.head
  have hbl := hb.length
  have hlen : (w ++ (b ++ l) ++ (a ++ bad)).length + 1 = ((w ++ (b ++ l) ++ (a ++ bad)).length - 1 - es'.length) + 1 + 1 + es'.length := by
    rw [hcr]; simp; omega
  obtain ⟨t1, u, o2, hu, ho2, e2⟩ := optionsLoop_begun E (npos := npos) (isRow := isRow) (y := y) hw hb (fun e he => hf e (by simp [he])) t
    ((w ++ (b ++ l) ++ (a ++ bad)).length - 1 - es'.length + 1 + 1) (r := r ++ (a ++ bad)) h1 h2 h3 h4 off
  have g1 : w ++ (b ++ l) ++ (a ++ bad) = w ++ b ++ c :: (r ++ (a ++ bad)) := by rw [hcr]; simp
  have g2 : u ++ c :: (r ++ (a ++ bad)) = u ++ l ++ (a ++ bad) := by rw [hcr]; simp
  obtain ⟨u1, r0, o3, hu1, hur, ho3, e3⟩ := option_entry E (npos := npos) (isRow := isRow) (y := y) (t := t1) hu he (hf e (by simp)) hA o2
  obtain ⟨w1, hw1, rfl, rfl⟩ := ws_split ha hu1 hs hur
  refine ⟨applyEntry isRow y t1 e, w1, o3, (w ++ (b ++ l) ++ (u1 ++ w1 ++ bad)).length - 1 - es'.length, hw1, ?_, ?_⟩
  · rw [ho3]
    simp only [byteLen_append] at ho2 ⊢
    omega
  · rw [hlen]
    rw [g1] at e2 ⊢
    rw [e2, g2, optionsLoop, bind_ok e3]
    rfl

/-- Up to the beginning of a list: parsing the cell fails where parsing the options fails. -/
theorem parseCell_list (E : Env) (f : Csvp.Field) (row : RowS) {isRow : Bool} {lead rest : Text} (hlead : Lead E f.addr.x lead) (hx : isRow = true → f.addr.x = 0)
    (hv : f.value = lead ++ (if isRow then "![[".toList else "[[".toList) ++ rest) {o : Nat}
    (he : ∀ (tg : Target) (off : Nat), off = byteLen (lead ++ (if isRow then "![[".toList else "[[".toList)) →
      optionsLoop E f.positions.length isRow f.addr.y (rest.length + 1) tg ⟨rest, off⟩ = .err o) :
    parseCell E f row = .err o := by
  rw [parseCell, hv]
  obtain ⟨w', row', off', n, g1, g2, g4⟩ := listsLoop_lead E (npos := f.positions.length) (y := f.addr.y) hlead row
    (lead ++ (if isRow then "![[".toList else "[[".toList) ++ rest).length 0 (by simp)
    ((if isRow then "![[".toList else "[[".toList) ++ rest)
  rw [List.append_assoc] at g4 ⊢
  rw [g4, listsLoop]
  have key : ∀ o1, o1 = off' + byteLen (w' ++ (if isRow then "![[".toList else "[[".toList)) → o1 = byteLen (lead ++ (if isRow then "![[".toList else "[[".toList)) := by
    rintro o1 rfl
    rw [byteLen_append, ← Nat.add_assoc, g2, byteLen_append, Nat.zero_add]
  cases isRow with
  | false =>
    obtain ⟨tok, o1, h1o, e1⟩ := maybeStart_cell g1 off' (r := rest)
    have := fun tg => he tg o1 (key o1 h1o)
    simp only [Bool.false_eq_true, if_false]
    rw [← List.append_assoc, bind_ok e1]
    simp only [Bool.false_eq_true, false_and, if_false, Option.isSome_none, and_false]
    exact bind_err (this _)
  | true =>
    obtain ⟨tok, o1, h1o, e1⟩ := maybeStart_row g1 off' (r := rest)
    have := fun tg => he tg o1 (key o1 h1o)
    simp only [if_true]
    rw [← List.append_assoc, bind_ok e1]
    simp only [hx rfl, ne_eq, not_true_eq_false, and_false, if_false, Bool.true_eq_false, false_and]
    exact bind_err (this _)

theorem Unclosed.ne_nil {E : Env} {x : Nat} {isRow : Bool} {t bad : Text} (h : Unclosed E x isRow t bad) : t ≠ [] := by
  cases h <;> cases isRow <;> simp

/-- C92, lists that are not closed or end with an empty place: the cell is rejected, with an error at the last character before what is there instead of an option. -/
theorem C92_violated_unclosed (E : Env) (f : Csvp.Field) (row : RowS) (hp : f.positions.length = f.value.length) (ha : Ascii f.value) {isRow : Bool} {t bad : Text}
    (ht : Unclosed E f.addr.x isRow t bad) (hv : f.value = t ++ bad) : cellParse E f row = .error (.options (t.length - 1)) := by
  have hA : ∀ s : Text, (∀ c ∈ s, c ∈ f.value) → byteLen s = s.length := fun s hs => byteLen_ascii (fun c hc => ha c (hs c hc))
  have hb : byteLen t = t.length := hA _ (fun c hc => by rw [hv]; simp [hc])
  have hfail : ∀ {α : Type} (o : Nat), o = byteLen t → (failAt f.positions.length (o - 1) : R α) = .err (t.length - 1) := by
    rintro α o rfl
    have := List.length_pos_iff.mpr ht.ne_nil
    rw [hb, failAt, if_pos]
    rw [hp, hv, List.length_append]
    omega
  suffices h : parseCell E f row = .err (t.length - 1) by rw [cellParse, h]
  cases ht with
  | @first lead w _ hl hx hw hs hb =>
    rw [List.append_assoc] at hv
    refine parseCell_list E f row hl hx hv fun tg off hoff => ?_
    rw [optionsLoop]
    apply bind_err
    rw [option]
    apply bind_err
    rw [Fails_takeWhile hw hs hb]
    exact hfail _ (by rw [hoff, ← byteLen_append])
  | @slash lead w i es a b _ hl hx hw hi hes ha hb' hs hb =>
    have hv' : f.value = lead ++ (if isRow then "![[".toList else "[[".toList) ++ (w ++ i ++ (a ++ '/' :: (b ++ bad))) := by rw [hv]; simp
    refine parseCell_list E f row hl hx hv' fun tg off hoff => ?_
    obtain ⟨t', w1, o1, n, hw1, ho1, e1⟩ := optionsLoop_items E (npos := f.positions.length) (isRow := isRow) (y := f.addr.y) (bad := '/' :: (b ++ bad)) hw hi hes ha (Solid_cons rfl _)
      (.mk ⟨a, '/', b ++ bad, rfl, ha, rfl, by decide, .inr (by simp [Brk])⟩) tg off
    rw [e1]
    obtain ⟨o, ho, e2⟩ := Reads_maybeTake (lit := "/".toList) hw1 (by simp) (Solid_cons rfl _) (b ++ bad) o1 trivial
    obtain ⟨o, rfl⟩ := Option.isSome_iff_exists.mp ho
    have g : w1 ++ '/' :: (b ++ bad) = w1 ++ "/".toList ++ (b ++ bad) := by simp
    rw [g, bind_ok e2]
    simp only
    rw [optionsLoop]
    apply bind_err
    rw [option]
    apply bind_err
    rw [Fails_takeWhile hb' hs hb]
    refine hfail _ ?_
    have k1 : byteLen ('/' :: b) = byteLen "/".toList + byteLen b := by rw [← byteLen_append]; rfl
    simp only [byteLen_append, k1] at ho1 hoff ⊢
    omega
  | @after lead w i es a _ hl hx hw hi hes ha hs hb h1 h2 h3 he =>
    have hv' : f.value = lead ++ (if isRow then "![[".toList else "[[".toList) ++ (w ++ i ++ (a ++ bad)) := by rw [hv]; simp
    refine parseCell_list E f row hl hx hv' fun tg off hoff => ?_
    obtain ⟨t', w1, o1, n, hw1, ho1, e1⟩ := optionsLoop_items E (npos := f.positions.length) (isRow := isRow) (y := f.addr.y) hw hi hes ha hs ⟨a, bad, rfl, ha, hs, h3, he⟩ tg off
    rw [e1]
    have p1 : "/".toList.isPrefixOf bad = false := by
      cases bad with
      | nil => rfl
      | cons c r => simpa [List.isPrefixOf] using Ne.symm (by simpa using h1 : c ≠ '/')
    have p2 : "]]".toList.isPrefixOf bad = false := by
      rw [Bool.eq_false_iff]
      exact fun h => h2 (List.isPrefixOf_iff_prefix.mp h)
    obtain ⟨_, rfl, e2⟩ := Reads_maybeTake_none (lit := "/".toList) hw1 bad o1 ⟨hs, p1⟩
    obtain ⟨_, rfl, e3⟩ := Reads_maybeTake_none (lit := "]]".toList) W_nil bad (o1 + byteLen w1) ⟨hs, p2⟩
    rw [List.nil_append] at e3
    rw [bind_ok e2]
    simp only
    rw [bind_ok e3]
    simp only
    rw [optionsLoop]
    apply bind_err
    rw [option]
    apply bind_err
    have e4 := Fails_takeWhile (npos := f.positions.length) W_nil hs hb (o1 + byteLen w1 + byteLen [])
    rw [List.nil_append] at e4
    rw [e4]
    refine hfail _ ?_
    rw [byteLen_nil, Nat.add_zero, ho1, hoff, ← byteLen_append]

/-! ## The printed message -/

/-- C92, as it is printed: if the error is at the last character of `d`, the `^` is under it. -/
theorem C92_points (E : Env) (name addr msg shown : Text) (possible : Option (List Text)) {src : Text} {sep : Char} {rs : List (List Csvp.Field)}
    (h : Csvp.parse ⟨sep, (Source.SourceCode.new src).lenCode⟩ (Source.SourceCode.new src).csv = .ok rs)
    {fs : List Csvp.Field} (hrow : fs ∈ rs) {f : Csvp.Field} (hf : f ∈ fs) (hp : f.positions.length = f.value.length) (hn : '\n' ∉ f.value) (hr : '\r' ∉ f.value)
    (row : RowS) {d rest : Text} (hne : d ≠ []) (hv : f.value = d ++ rest) (e : cellParse E f row = .error (.options (d.length - 1))) :
    ∃ o pos, cellParse E f row = .error (.options o) ∧ f.positions[o]? = some pos ∧
      (pos.line = (Source.SourceCode.new src).lenCode → ∃ left right,
        Points (cellHead name addr) (cellErrorText name addr src msg shown possible pos) src pos.line left [d.getLast hne] right) := by
  have h0 := List.length_pos_iff.mpr hne
  have hlt : d.length - 1 < f.positions.length := by
    rw [hp, hv, List.length_append]
    omega
  refine ⟨_, f.positions[d.length - 1], e, List.getElem?_eq_getElem hlt, fun hline => ?_⟩
  refine points_char name addr msg shown possible h hrow hf hp hn hr ?_ (List.getElem?_eq_getElem hlt) hline
  rw [← getLast_at (b := rest) hne, hv]

/-! ## Examples -/

theorem ascii_alnum (E : Env) {t : Text} (h : ∀ c ∈ t, c.toNat < 128 ∧ (c.isAlphanum = true ∨ c = '_')) : ∀ c ∈ t, isIdent E c = true := by
  intro c hc
  obtain ⟨h1, h2⟩ := h c hc
  rw [isIdent, E.alnum_ascii _ h1]
  rcases h2 with h2 | rfl
  · rw [h2]; rfl
  · decide

theorem opened0 (E : Env) (x : Nat) : Opened E x false "[[".toList := ⟨[], [], [], [], .blank W_nil, W_nil, .nil, (fun h => by cases h), by simp, rfl⟩

/-- `1.5` is not a number a validation can have: the error is at the `5`. -/
example (E : Env) : ∃ f, Csvp.parse ⟨',', 0⟩ "[[dv=num_eq(1.5)]]x".toList = .ok [[f]] ∧
    f.value = "[[".toList ++ ("dv=num_eq(".toList ++ "1.5".toList ++ ")]]x".toList) ∧ f.positions.length = f.value.length ∧ Opened E f.addr.x false "[[".toList ∧
    WrongArg E "dv=num_eq(".toList "1.5".toList ")]]x".toList ∧ ("[[".toList ++ "dv=num_eq(".toList ++ "1.5".toList).length - 1 = 14 := by
  refine ⟨_, rfl, rfl, rfl, opened0 E _, ?_, rfl⟩
  refine WrongArg.arg (n := "dv".toList) (q := "=".toList) (names := numberArg) (v := "num_eq".toList) (p := "(".toList) ⟨"dv", by decide, rfl⟩ ⟨[], [], W_nil, W_nil, rfl⟩
    ⟨ascii_alnum E (by decide), "num_eq", by decide, by rw [E.lower_ascii _ (by decide)]; decide⟩
    (.number (w := []) (r := "]]x".toList) ⟨[], [], W_nil, W_nil, rfl⟩ (by decide) (by decide) ?_ W_nil rfl)
  intro i h
  have := parseInt_numText h
  revert this
  rw [show parseInt "1.5".toList = none by decide]
  simp

/-- A quoted value of a list that does not end: the error is at the `(`. -/
example (E : Env) : ∃ f, Csvp.parse ⟨',', 0⟩ "[[dv=in_list(  'abc]]".toList = .ok [[f]] ∧
    f.value = "[[".toList ++ ("dv=in_list(".toList ++ "  'abc]]".toList) ∧ f.positions.length = f.value.length ∧ Opened E f.addr.x false "[[".toList ∧
    WrongArgAt E "dv=in_list(".toList "  'abc]]".toList ∧ ("[[".toList ++ "dv=in_list(".toList).length - 1 = 12 := by
  refine ⟨_, rfl, rfl, rfl, opened0 E _, ?_, rfl⟩
  exact WrongArgAt.arg (n := "dv".toList) (q := "=".toList) (names := ["in_list"]) (v := "in_list".toList) (p := "(".toList) ⟨"dv", by decide, rfl⟩ ⟨[], [], W_nil, W_nil, rfl⟩
    ⟨ascii_alnum E (by decide), "in_list", by decide, by rw [E.lower_ascii _ (by decide)]; decide⟩
    (.value (a := []) (w := "  ".toList) (bad := "'abc]]".toList) W_nil (by unfold AsciiBlanks; decide) (.inr ⟨"abc]]".toList, rfl, by decide⟩))

/-- A note with a quote that does not end: the error is at the `=`. -/
example (E : Env) : ∃ f, Csvp.parse ⟨',', 0⟩ "[[n='it]]".toList = .ok [[f]] ∧
    f.value = "[[".toList ++ ("n=".toList ++ "'it]]".toList) ∧ f.positions.length = f.value.length ∧ Opened E f.addr.x false "[[".toList ∧
    WrongArgAt E "n=".toList "'it]]".toList ∧ ("[[".toList ++ "n=".toList).length - 1 = 3 :=
  ⟨_, rfl, rfl, rfl, opened0 E _, .string (n := "n".toList) (q := "=".toList) ⟨"n", by decide, rfl⟩ ⟨[], [], W_nil, W_nil, rfl⟩ (.inr (.inl ⟨"it]]".toList, rfl, by decide⟩)), rfl⟩

/-- A list that is not closed: the error is at the last character. -/
example (E : Env) : ∃ f, Csvp.parse ⟨',', 0⟩ "[[t=b".toList = .ok [[f]] ∧ f.value = "[[t=b".toList ++ [] ∧ f.positions.length = f.value.length ∧
    Unclosed E f.addr.x false "[[t=b".toList [] ∧ "[[t=b".toList.length - 1 = 4 := by
  refine ⟨_, rfl, rfl, rfl, ?_, rfl⟩
  refine Unclosed.after (lead := []) (w := []) (i := "t=b".toList) (es := [.inl (.textFmt .bold)]) (a := []) (.blank W_nil) (fun h => by cases h) W_nil
    (.one (.setting (.textFmt (n := "t".toList) (q := "=".toList) (v := "b".toList) ⟨"t", by decide, rfl⟩ ⟨[], [], W_nil, W_nil, rfl⟩
      ⟨ascii_alnum E (by decide), "b", by decide, by rw [E.lower_ascii _ (by decide)]; decide⟩))) (by simp) W_nil (fun _ h => by simp at h) (fun _ h => by simp at h) (by simp) (by simp) (by simp)
    (.inr (fun _ h => by simp at h))

end Verif.Cell
