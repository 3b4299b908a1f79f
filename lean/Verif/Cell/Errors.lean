import Verif.Cell.Lists
import Verif.Parser.Message
/-
C92: where an error in the options of a cell is reported.
-/
namespace Verif.Cell
open Verif.Ast Verif.Parser

/-! ## Specification -/

/-- The inside of an option list as far as it is right: options, each followed by a separator. -/
inductive Begun (E : Env) : Text → List Entry → Prop
  | nil : Begun E [] []
  | cons {t e sep r es} (h : EntryText E t e) (hsep : Separator sep) (hr : Begun E r es) : Begun E (t ++ sep ++ r) (e :: es)

/-- What may be before the option list that is wrong: white space and, in the first cell of a row, option lists of the row. -/
inductive Lead (E : Env) (x : Nat) : Text → Prop
  | blank {w} (hw : W w) : Lead E x w
  | row {w l es t} (hx : x = 0) (hw : W w) (hl : RowList E l es) (h : Lead E x t) : Lead E x (w ++ l ++ t)

/-- A cell as far as it is right: an option list of the row (`isRow`) or of the cell has begun, and an option is expected.  `x` is the column of the cell. -/
def Opened (E : Env) (x : Nat) (isRow : Bool) (t : Text) : Prop :=
  ∃ lead w b es, Lead E x lead ∧ W w ∧ Begun E b es ∧ (isRow = true → x = 0) ∧ (isRow = false → ∀ e ∈ es, e.isLeft = true) ∧
    t = lead ++ (if isRow then "![[".toList else "[[".toList) ++ (w ++ b)

/-- The names of options. -/
def optionWords : List String :=
  ["b", "border", "bc", "bordercolor", "bs", "borderstyle", "c", "color", "dv", "validate", "f", "fill", "fc", "fontcolor", "ff", "fontfamily", "fs", "fontsize",
   "ha", "halign", "l", "lock", "n", "note", "nf", "numberformat", "t", "text", "v", "var", "va", "valign", "w", "wrap"]

/-- The options with a fixed choice of values: their names and the values. -/
inductive Choice : List String → List String → Prop
  | border : Choice ["b", "border"] ["a", "all", "t", "top", "b", "bottom", "l", "left", "r", "right"]
  | borderStyle : Choice ["bs", "borderstyle"] ["dash", "dashed", "dot", "dotted", "dbl", "double", "1", "solid", "2", "solid_medium", "3", "solid_thick"]
  | halign : Choice ["ha", "halign"] ["l", "left", "c", "center", "r", "right"]
  | valign : Choice ["va", "valign"] ["t", "top", "c", "center", "b", "bottom"]
  | numFmt : Choice ["nf", "numberformat"]
      ["c", "currency", "d", "date", "dt", "datetime", "n", "number", "p", "percent", "text", "t", "time", "s", "scientific"]
  | textFmt : Choice ["t", "text"] ["b", "bold", "i", "italic", "s", "strikethrough", "u", "underline"]
  | wrap : Choice ["w", "wrap"] ["c", "clip", "o", "overflow", "w", "wrap"]
  | validate : Choice ["dv", "validate"]
      ["c", "custom", "date_gt", "date_after", "date_lt", "date_before", "date_btwn", "date_between", "date_eq", "date_equal_to", "is_date", "date_is_valid",
       "date_nbtwn", "date_not_between", "date_gte", "date_on_or_after", "date_lte", "date_on_or_before", "num_btwn", "number_between", "num_eq", "number_equal_to",
       "num_gt", "number_greater_than", "num_gte", "number_greater_than_or_equal_to", "num_lt", "number_less_than", "num_lte", "number_less_than_or_equal_to",
       "num_nbtwn", "number_not_between", "num_neq", "number_not_equal_to", "text_contains", "text_does_not_contain", "text_eq", "text_equal_to", "in_list",
       "in_range", "is_email", "is_valid_email", "is_url", "is_valid_url"]

/-- Where an option is expected, `pre ++ bad ++ post` follows, and the word or number `bad` is wrong: the name of no option, `fill` outside an option list of a row, a
value that is not among those of the option, or a number that is too large. -/
inductive WrongWord (E : Env) (isRow : Bool) : Text → Text → Text → Prop
  | name {bad post} (hne : bad ≠ []) (hb : ∀ c ∈ bad, E.alnum c = true) (hp : NoMore E.alnum post) (hw : ¬ OneOf optionWords bad) : WrongWord E isRow [] bad post
  | notInRow {bad post} (hr : isRow = false) (hp : NoMore E.alnum post) (hw : OneOf ["f", "fill"] bad) : WrongWord E isRow [] bad post
  | value {names values n q bad post} (hc : Choice names values) (hn : OneOf names n) (hq : EqSign q) (hne : bad ≠ []) (hb : ∀ c ∈ bad, isIdent E c = true)
      (hp : NoMore (isIdent E) post) (hw : ¬ OneOf values (E.lower bad)) : WrongWord E isRow (n ++ q) bad post
  | fontSize {n q bad post} (hn : OneOf ["fs", "fontsize"] n) (hq : EqSign q) (hne : bad ≠ []) (hb : ∀ c ∈ bad, c.isDigit = true) (hp : NoMore Char.isDigit post)
      (hw : 256 ≤ Nat.ofDigitChars 10 bad 0) : WrongWord E isRow (n ++ q) bad post
  | fill {n q bad post} (hr : isRow = true) (hn : OneOf ["f", "fill"] n) (hq : EqSign q) (hne : bad ≠ []) (hb : ∀ c ∈ bad, c.isDigit = true) (hp : NoMore Char.isDigit post)
      (hw : 2 ^ 64 ≤ Nat.ofDigitChars 10 bad 0) : WrongWord E isRow (n ++ q) bad post

/-- Where an option is expected, `pre ++ bad` follows, and `bad` is not what can follow there: the beginning of a name, `=`, the beginning of a value, or a colour. -/
inductive WrongPlace (E : Env) : Text → Text → Prop
  | name {c r} (hc : E.alnum c = false) (h1 : isWs c = false) (h2 : c ≠ '=') (h3 : c ≠ '/') (h4 : c ≠ ']') : WrongPlace E [] (c :: r)
  | equals {n w c r} (hn : OneOf (optionWords.filter fun s => s ∉ ["f", "fill", "l", "lock"]) n) (hw : W w) (h1 : isWs c = false) (h2 : c ≠ '=') (h3 : w ≠ [] ∨ E.alnum c = false) :
      WrongPlace E (n ++ w) (c :: r)
  | value {names values n q c r} (hc : Choice names values) (hn : OneOf names n) (hq : EqSign q) (h1 : isWs c = false) (h2 : isIdent E c = false) : WrongPlace E (n ++ q) (c :: r)
  | fontSize {n q c r} (hn : OneOf ["fs", "fontsize"] n) (hq : EqSign q) (h1 : isWs c = false) (h2 : c.isDigit = false) : WrongPlace E (n ++ q) (c :: r)
  | colour {n q hash m r} (hn : OneOf ["bc", "bordercolor", "c", "color", "fc", "fontcolor"] n) (hq : EqSign q) (hh : hash = [] ∨ hash = ['#']) (hm : ∀ c ∈ m, c.toNat < 128 ∧ c.isAlphanum = true)
      (hne : m ≠ []) (hr : Ends r) (hr' : r ≠ []) (hx : ∀ x, ¬ ColorText (hash ++ m) x) : WrongPlace E (n ++ q) (hash ++ m ++ r)

/-! ## Reading up to the error -/

theorem Begun.length {E : Env} {t : Text} {es : List Entry} (h : Begun E t es) : es.length ≤ t.length := by
  induction h with
  | nil => simp
  | cons h _ _ ih =>
    obtain ⟨c, r, rfl, _⟩ := h.head
    simp; omega

theorem Begun.head {E : Env} {t : Text} {es : List Entry} (h : Begun E t es) {c : Char} {r : Text} (h1 : isWs c = false) (h2 : c ≠ '=') (h3 : c ≠ '/') (h4 : c ≠ ']') :
    ∃ c' r', t ++ c :: r = c' :: r' ∧ isWs c' = false ∧ c' ≠ '=' ∧ c' ≠ '/' ∧ c' ≠ ']' := by
  cases h with
  | nil => exact ⟨c, r, rfl, h1, h2, h3, h4⟩
  | cons h _ _ =>
    obtain ⟨c', r', rfl, h'⟩ := h.head
    exact ⟨c', _, by simp; rfl, h'⟩

/-- The options that are right are read. -/
theorem optionsLoop_begun (E : Env) {npos : Nat} {isRow : Bool} {y : Nat} {w b : Text} {es : List Entry} (hw : W w) (h : Begun E b es)
    (hf : ∀ e ∈ es, e.isRight = true → isRow = true) (t : Target) (n : Nat) {c : Char} {r : Text} (h1 : isWs c = false) (h2 : c ≠ '=') (h3 : c ≠ '/') (h4 : c ≠ ']') (off : Nat) :
    ∃ t' u off', W u ∧ off' + byteLen u = off + byteLen (w ++ b) ∧
      optionsLoop E npos isRow y (n + es.length) t ⟨w ++ b ++ c :: r, off⟩ = optionsLoop E npos isRow y n t' ⟨u ++ c :: r, off'⟩ := by
  induction h generalizing w t off with
  | nil => exact ⟨t, w, off, hw, by simp, by simp⟩
  | @cons i e sep b es h hsep hb ih =>
    obtain ⟨c', r', hcr, hc1, hc2, hc3, hc4⟩ := hb.head (r := r) h1 h2 h3 h4
    have hA : After (sep ++ (b ++ c :: r)) := by
      rcases hsep with ⟨hs, hne⟩ | ⟨a, b', ha, hb', rfl⟩
      · rw [hcr]
        exact .mk ⟨sep, c', _, rfl, hs, hc1, hc2, .inl hne⟩
      · exact .mk ⟨a, '/', b' ++ (b ++ c :: r), by simp, ha, rfl, by decide, .inr (by simp [Brk])⟩
    obtain ⟨u, r0, off', hu, hur, hoff, e1⟩ := option_entry E (npos := npos) (isRow := isRow) (y := y) (t := t) hw h (hf e (by simp)) hA off
    have f : w ++ (i ++ sep ++ b) ++ c :: r = w ++ i ++ (sep ++ (b ++ c :: r)) := by simp
    have hlen : n + (e :: es).length = (n + es.length) + 1 := by simp; omega
    rw [hlen, f, optionsLoop, bind_ok e1]
    rcases hsep with ⟨hs, hne⟩ | ⟨a, b', ha, hb', rfl⟩
    · rw [hcr] at hur
      obtain ⟨w1, hw1, rfl⟩ := ws_prefix hs hu hc1 hur
      have hbu : sep = u ++ w1 := List.append_cancel_right (bs := c' :: r') (by rw [hur]; simp)
      obtain ⟨_, rfl, e2⟩ := Reads_maybeTake_none (lit := "/".toList) hw1 (c' :: r') off' ⟨Solid_cons hc1 _, by simp [List.isPrefixOf, Ne.symm hc3]⟩
      obtain ⟨_, rfl, e3⟩ := Reads_maybeTake_none (lit := "]]".toList) W_nil (c' :: r') (off' + byteLen w1)
        ⟨Solid_cons hc1 _, by simp [List.isPrefixOf, Ne.symm hc4]⟩
      rw [List.nil_append] at e3
      obtain ⟨t', u', off2, hu', hoff2, e4⟩ := ih W_nil (fun e he => hf e (by simp [he])) (applyEntry isRow y t e) (off' + byteLen w1 + byteLen [])
      refine ⟨t', u', off2, hu', by rw [hoff2, hoff, hbu]; simp [byteLen_append, byteLen_nil]; omega, ?_⟩
      rw [bind_ok e2]
      simp only
      rw [bind_ok e3]
      simp only
      rw [List.nil_append, hcr] at e4
      exact e4
    · have hur' : a ++ '/' :: (b' ++ (b ++ c :: r)) = u ++ r0 := by simpa using hur
      obtain ⟨w1, hw1, rfl⟩ := ws_prefix ha hu (c := '/') rfl hur'
      have hbu : a = u ++ w1 := List.append_cancel_right (bs := '/' :: (b' ++ (b ++ c :: r))) (by rw [hur']; simp)
      obtain ⟨o, ho, e2⟩ := Reads_maybeTake (lit := "/".toList) hw1 (by simp) (Solid_cons rfl _) (b' ++ (b ++ c :: r)) off' trivial
      obtain ⟨o, rfl⟩ := Option.isSome_iff_exists.mp ho
      obtain ⟨t', u', off2, hu', hoff2, e4⟩ := ih hb' (fun e he => hf e (by simp [he])) (applyEntry isRow y t e) (off' + byteLen (w1 ++ "/".toList))
      refine ⟨t', u', off2, hu', by rw [hoff2, hoff, hbu]; simp [byteLen_append, byteLen_cons, byteLen_nil]; omega, ?_⟩
      have g : w1 ++ '/' :: (b' ++ (b ++ c :: r)) = w1 ++ "/".toList ++ (b' ++ (b ++ c :: r)) := by simp
      rw [g, bind_ok e2]
      simp only
      rw [← List.append_assoc b']
      exact e4

theorem bind_err {m : P α} {f : α → P β} {l : Lx} {o : Nat} (h : m l = .err o) : (m >>= f) l = .err o := by
  rw [bind_apply, h]

/-- The option lists before are read. -/
theorem listsLoop_lead (E : Env) {npos x y : Nat} {lead : Text} (h : Lead E x lead) (row : RowS) (N off : Nat) (hN : lead.length ≤ N) (rest : Text) :
    ∃ w row' off' n, W w ∧ off' + byteLen w = off + byteLen lead ∧
      listsLoop E npos x y (N + 1) row none ⟨lead ++ rest, off⟩ = listsLoop E npos x y (n + 1) row' none ⟨w ++ rest, off'⟩ := by
  induction h generalizing row off N with
  | @blank w hw => exact ⟨w, row, off, N, hw, rfl, rfl⟩
  | @row w l es t hx hw hl h ih =>
    subst hx
    have hlen : t.length + 1 ≤ N := by
      obtain ⟨a, i, b, _, _, _, rfl⟩ := hl
      simp at hN; omega
    obtain ⟨M, rfl⟩ : ∃ M, N = M + 1 := ⟨N - 1, by omega⟩
    obtain ⟨w', row', off', n, h1, h2, h4⟩ := ih ⟨settled (settings es) row.opts, filled y es row.fill⟩ M (off + byteLen (w ++ l)) (by omega)
    obtain ⟨o, rfl, e⟩ := listsLoop_row E (npos := npos) (y := y) (row := row) (parsed := none) (r := t ++ rest) hw hl (M + 1) off
    exact ⟨w', row', off', n, h1, by rw [h2]; simp [byteLen_append]; omega, by rw [List.append_assoc, e, h4]⟩

/-- Up to where the error is: parsing the cell fails where parsing the option there fails. -/
theorem parseCell_opened (E : Env) (f : Csvp.Field) (row : RowS) {isRow : Bool} {t : Text} (ht : Opened E f.addr.x isRow t) {c : Char} {r : Text} (hv : f.value = t ++ c :: r)
    (h1 : isWs c = false) (h2 : c ≠ '=') (h3 : c ≠ '/') (h4 : c ≠ ']') {o : Nat}
    (he : ∀ (tg : Target) (u : Text) (off : Nat), W u → off + byteLen u = byteLen t → option E f.positions.length isRow f.addr.y tg ⟨u ++ c :: r, off⟩ = .err o) :
    parseCell E f row = .err o := by
  obtain ⟨lead, w, b, es, hlead, hw, hb, hx, hes, rfl⟩ := ht
  rw [parseCell, hv]
  obtain ⟨w', row', off', n, g1, g2, g4⟩ := listsLoop_lead E (npos := f.positions.length) (y := f.addr.y) hlead row
    (lead ++ (if isRow then "![[".toList else "[[".toList) ++ (w ++ b) ++ c :: r).length 0 (by simp)
    ((if isRow then "![[".toList else "[[".toList) ++ (w ++ b ++ c :: r))
  have e0 : lead ++ (if isRow then "![[".toList else "[[".toList) ++ (w ++ b) ++ c :: r = lead ++ ((if isRow then "![[".toList else "[[".toList) ++ (w ++ b ++ c :: r)) := by simp
  rw [e0] at g4 ⊢
  rw [g4, listsLoop]
  have hf : ∀ e ∈ es, e.isRight = true → isRow = true := by
    intro e hm hr
    cases isRow with
    | true => rfl
    | false => have := hes rfl e hm; cases e <;> simp_all
  have key : ∀ (o1 : Nat), o1 = off' + byteLen (w' ++ (if isRow then "![[".toList else "[[".toList)) → ∀ tg,
      optionsLoop E f.positions.length isRow f.addr.y ((w ++ b ++ c :: r).length + 1) tg ⟨w ++ b ++ c :: r, o1⟩ = .err o := by
    intro o1 h1o tg
    have hl := hb.length
    have hlen : (w ++ b ++ c :: r).length + 1 = ((w ++ b ++ c :: r).length - es.length) + 1 + es.length := by simp; omega
    obtain ⟨t', u, o2, hu, ho2, e2⟩ := optionsLoop_begun E (npos := f.positions.length) (isRow := isRow) (y := f.addr.y) hw hb hf tg
      ((w ++ b ++ c :: r).length - es.length + 1) (r := r) h1 h2 h3 h4 o1
    rw [hlen, e2, optionsLoop]
    apply bind_err
    apply he _ _ _ hu
    rw [ho2, h1o]
    simp only [byteLen_append] at g2 ⊢
    omega
  cases isRow with
  | false =>
    obtain ⟨tok, o1, h1o, e1⟩ := maybeStart_cell g1 off' (r := w ++ b ++ c :: r)
    have := key o1 h1o
    simp only [Bool.false_eq_true, if_false]
    rw [← List.append_assoc, bind_ok e1]
    simp only [Bool.false_eq_true, false_and, if_false, Option.isSome_none, and_false]
    exact bind_err (this _)
  | true =>
    obtain ⟨tok, o1, h1o, e1⟩ := maybeStart_row g1 off' (r := w ++ b ++ c :: r)
    have := key o1 h1o
    simp only [if_true]
    rw [← List.append_assoc, bind_ok e1]
    simp only [hx rfl, ne_eq, not_true_eq_false, and_false, if_false, Bool.true_eq_false, false_and]
    exact bind_err (this _)

/-! ## The errors -/

theorem takeWhile_at {npos : Nat} {f : Char → Bool} {w m rest : Text} (hw : W w) (hne : m ≠ []) (hm : ∀ c ∈ m, f c = true) (hf : ∀ c, f c = true → isWs c = false)
    (hr : NoMore f rest) (off : Nat) :
    takeWhile npos f ⟨w ++ m ++ rest, off⟩ = .ok ⟨m, off + byteLen (w ++ m) - 1⟩ ⟨rest, off + byteLen (w ++ m)⟩ := by
  have hs : Solid (m ++ rest) := by
    cases m with
    | nil => exact absurd rfl hne
    | cons c r => exact Solid_cons (hf c (hm c (by simp))) _
  rw [List.append_assoc, takeWhile, bind_ok (takeWhitespace_ws hw hs off)]
  simp only [takeWhile_noMore hm hr, if_neg hne]
  rw [bind_ok (moveInput_append m rest _)]
  simp only [matchToken, Lx.current, byteLen_append, Nat.add_assoc]

theorem takeWhile_err {npos : Nat} {f : Char → Bool} {w : Text} {c : Char} {rest : Text} (hw : W w) (h1 : isWs c = false) (h2 : f c = false) (off : Nat) :
    takeWhile npos f ⟨w ++ c :: rest, off⟩ = failAt npos (off + byteLen w - 1) := by
  rw [takeWhile, bind_ok (takeWhitespace_ws hw (Solid_cons h1 _) off)]
  simp [h2, unknown, Lx.current]

theorem take_eq {npos : Nat} {a rest : Text} (ha : W a) (off : Nat) : ∃ k, take npos "=".toList ⟨a ++ '=' :: rest, off⟩ = .ok k ⟨rest, off + byteLen a + 1⟩ := by
  obtain ⟨k, _, e⟩ := Reads_take (npos := npos) ha (lit := "=".toList) (by simp) (Solid_cons rfl _) rest off trivial
  refine ⟨k, ?_⟩
  have : a ++ '=' :: rest = a ++ "=".toList ++ rest := by simp
  rw [this, e]
  simp [byteLen_append, byteLen_cons, byteLen_nil, Nat.add_assoc]
  rfl

theorem take_eq_err {npos : Nat} {w : Text} {c : Char} {rest : Text} (hw : W w) (h1 : isWs c = false) (h2 : c ≠ '=') (off : Nat) :
    take npos "=".toList ⟨w ++ c :: rest, off⟩ = failAt npos (off + byteLen w - 1) := by
  rw [take, bind_ok (takeWhitespace_ws hw (Solid_cons h1 _) off)]
  simp [List.isPrefixOf, Ne.symm h2, unknown, Lx.current]

theorem bind_fail {m : P α} {f : α → P β} {l : Lx} {npos o : Nat} (h : m l = failAt npos o) : (m >>= f) l = failAt npos o := by
  rw [bind_apply, h]
  by_cases ho : o < npos
  · simp only [failAt, if_pos ho]
  · simp only [failAt, if_neg ho]

/-- The name of an option is read. -/
theorem option_named (E : Env) {npos : Nat} {isRow : Bool} {y : Nat} {names : List String} {k : OKind} {u n rest : Text} (hu : W u) (hn : OneOf names n) (hk : NameOf names k)
    (hr : NoMore E.alnum rest) (tg : Target) (off : Nat) :
    ∃ tok, tok.off = off + byteLen (u ++ n) - 1 ∧ option E npos isRow y tg ⟨u ++ n ++ rest, off⟩ = (match k with
      | .fill => fillOption npos isRow y tok tg
      | k => (do let f ← optionUpdate E npos k; pure (tg.assign isRow f) : P Target)) ⟨rest, off + byteLen (u ++ n)⟩ := by
  obtain ⟨m, hm, rfl⟩ := hn
  obtain ⟨h1, h2, h3⟩ := hk m hm
  have e := takeWhile_at (npos := npos) (f := E.alnum) hu h1 (fun c hc => by rw [E.alnum_ascii c (h2 c hc).1]; exact (h2 c hc).2) E.alnum_ws hr off
  refine ⟨⟨m.toList, off + byteLen (u ++ m.toList) - 1⟩, rfl, ?_⟩
  rw [option, bind_ok e]
  simp only [h3]
  cases k <;> rfl

theorem EqSign.noMore {q : Text} (E : Env) (h : EqSign q) (r : Text) : NoMore E.alnum (q ++ r) := noMore_of (fun _ => alnum_brk E) (h.ends r)

theorem lookup_none {table : List (Text × α)} {values : List String} (h : ∀ p ∈ table, ∃ v ∈ values, p.1 = v.toList) {t : Text} (ht : ¬ OneOf values t) : table.lookup t = none := by
  rw [List.lookup_eq_none_iff]
  intro p hp
  obtain ⟨v, hv, e⟩ := h p hp
  rw [bne_iff_ne]
  rintro rfl
  exact ht ⟨v, hv, e⟩

/-- What an option with a fixed choice of values does with a value that is wrong or missing. -/
def Chooses (E : Env) (npos : Nat) (values : List String) (k : OKind) : Prop :=
  (∀ l tok l', takeRight E npos l = .ok tok l' → ¬ OneOf values (E.lower tok.s) → optionUpdate E npos k l = failAt npos tok.off) ∧
  (∀ l o, takeRight E npos l = failAt npos o → optionUpdate E npos k l = failAt npos o)

theorem chooses_of {α : Type} (E : Env) {npos : Nat} {values : List String} {k : OKind} {table : List (Text × α)} {f : α → Opts → Opts}
    (hk : optionUpdate E npos k = (do let v ← takeEnum E npos table; pure (f v))) (h : ∀ p ∈ table, ∃ v ∈ values, p.1 = v.toList) : Chooses E npos values k := by
  refine ⟨fun l tok l' e hw => ?_, fun l o e => ?_⟩
  · rw [hk]
    apply bind_fail
    rw [takeEnum, bind_ok e]
    simp only [lookup_none h hw]
    rfl
  · rw [hk]
    apply bind_fail
    rw [takeEnum]
    exact bind_fail e

theorem Choice.kind (E : Env) (npos : Nat) {names values : List String} (h : Choice names values) : ∃ k, k ≠ .fill ∧ NameOf names k ∧ Chooses E npos values k := by
  cases h with
  | border => exact ⟨.border, by decide, by decide, chooses_of E (table := borderSides) rfl (by decide)⟩
  | borderStyle => exact ⟨.borderStyle, by decide, by decide, chooses_of E (table := borderStyles) rfl (by decide)⟩
  | halign => exact ⟨.halign, by decide, by decide, chooses_of E (table := hAligns) rfl (by decide)⟩
  | valign => exact ⟨.valign, by decide, by decide, chooses_of E (table := vAligns) rfl (by decide)⟩
  | numFmt => exact ⟨.numFmt, by decide, by decide, chooses_of E (table := numFmts) rfl (by decide)⟩
  | textFmt => exact ⟨.text, by decide, by decide, chooses_of E (table := textFmts) rfl (by decide)⟩
  | wrap => exact ⟨.wrap, by decide, by decide, chooses_of E (table := wraps) rfl (by decide)⟩
  | validate =>
    refine ⟨.validate, by decide, by decide, fun l tok l' e hw => ?_, fun l o e => ?_⟩
    · rw [optionUpdate]
      apply bind_fail
      rw [takeValidation, bind_ok e]
      have h : ∀ p ∈ validators, ∃ v ∈ ["c", "custom", "date_gt", "date_after", "date_lt", "date_before", "date_btwn", "date_between", "date_eq", "date_equal_to", "is_date", "date_is_valid",
       "date_nbtwn", "date_not_between", "date_gte", "date_on_or_after", "date_lte", "date_on_or_before", "num_btwn", "number_between", "num_eq", "number_equal_to",
       "num_gt", "number_greater_than", "num_gte", "number_greater_than_or_equal_to", "num_lt", "number_less_than", "num_lte", "number_less_than_or_equal_to",
       "num_nbtwn", "number_not_between", "num_neq", "number_not_equal_to", "text_contains", "text_does_not_contain", "text_eq", "text_equal_to", "in_list",
       "in_range", "is_email", "is_valid_email", "is_url", "is_valid_url"], p.1 = v.toList := by decide
      simp only [lookup_none h hw]
      rfl
    · rw [optionUpdate]
      apply bind_fail
      rw [takeValidation]
      exact bind_fail e

/-- The offset of the error of a word that is wrong: its last byte. -/
theorem option_wrongWord (E : Env) {npos : Nat} {isRow : Bool} {y : Nat} {pre bad post : Text} (h : WrongWord E isRow pre bad post) (tg : Target) {u : Text} (hu : W u) (off : Nat) :
    option E npos isRow y tg ⟨u ++ (pre ++ bad ++ post), off⟩ = failAt npos (off + byteLen (u ++ pre ++ bad) - 1) := by
  cases h with
  | name hne hb hp hw =>
    rw [List.nil_append, ← List.append_assoc, option, bind_ok (takeWhile_at hu hne hb E.alnum_ws hp off)]
    have : optionNames.lookup bad = none := lookup_none (values := optionWords) (by decide) hw
    simp only [this, List.append_nil]
    rfl
  | notInRow hr hp hw =>
    subst hr
    obtain ⟨tok, ht, e⟩ := option_named E (npos := npos) (isRow := false) (y := y) (k := .fill) hu hw (by decide) hp tg off
    rw [List.nil_append, ← List.append_assoc, e]
    simp only [fillOption, Bool.false_eq_true, if_false, List.append_nil]
    rw [← ht]
    rfl
  | @value names values n q bad post hc hn hq hne hb hp hw =>
    obtain ⟨k, hkf, hk, h1, -⟩ := hc.kind E npos
    obtain ⟨tok, ht, e⟩ := option_named E (npos := npos) (isRow := isRow) (y := y) (k := k) (rest := q ++ (bad ++ post)) hu hn hk (hq.noMore E _) tg off
    have f : u ++ (n ++ q ++ bad ++ post) = u ++ n ++ (q ++ (bad ++ post)) := by simp
    rw [f, e]
    have e2 : optionUpdate E npos k ⟨q ++ (bad ++ post), off + byteLen (u ++ n)⟩ = failAt npos (off + byteLen (u ++ (n ++ q) ++ bad) - 1) := by
      obtain ⟨a, b, ha, hbw, rfl⟩ := hq
      obtain ⟨kk, e3⟩ := take_eq (npos := npos) (rest := b ++ bad ++ post) ha (off + byteLen (u ++ n))
      have e4 := takeWhile_at (npos := npos) (f := isIdent E) hbw hne hb (ident_ws E) hp (off + byteLen (u ++ n) + byteLen a + 1)
      have e5 := e4
      rw [← bind_ok (f := fun _ => takeWhile npos (isIdent E)) e3] at e5
      have : a ++ '=' :: b ++ (bad ++ post) = a ++ '=' :: (b ++ bad ++ post) := by simp
      rw [← this] at e5
      rw [h1 _ _ _ e5 hw]
      simp [byteLen_append, byteLen_cons, byteLen_nil, show ('=' : Char).utf8Size = 1 from rfl, Nat.add_assoc]
    cases k <;> first | exact absurd rfl hkf | exact bind_fail e2
  | @fontSize n q bad post hn hq hne hb hp hw =>
    obtain ⟨tok, ht, e⟩ := option_named E (npos := npos) (isRow := isRow) (y := y) (k := .fontSize) (rest := q ++ (bad ++ post)) hu hn (by decide) (hq.noMore E _) tg off
    have f : u ++ (n ++ q ++ bad ++ post) = u ++ n ++ (q ++ (bad ++ post)) := by simp
    rw [f, e]
    obtain ⟨a, b, ha, hbw, rfl⟩ := hq
    obtain ⟨kk, e3⟩ := take_eq (npos := npos) (rest := b ++ bad ++ post) ha (off + byteLen (u ++ n))
    have e4 := takeWhile_at (npos := npos) (f := Char.isDigit) hbw hne hb (fun _ => digit_not_ws) hp (off + byteLen (u ++ n) + byteLen a + 1)
    have g : a ++ '=' :: b ++ (bad ++ post) = a ++ '=' :: (b ++ bad ++ post) := by simp
    have hpu : parseUInt 256 bad = none := by rw [parseUInt, if_neg (by omega)]
    apply bind_fail
    rw [optionUpdate, g, bind_ok e3, bind_ok e4]
    simp only [hpu]
    simp [tokErr, byteLen_append, byteLen_cons, byteLen_nil, show ('=' : Char).utf8Size = 1 from rfl, Nat.add_assoc]
  | @fill n q bad post hr hn hq hne hb hp hw =>
    subst hr
    obtain ⟨tok, ht, e⟩ := option_named E (npos := npos) (isRow := true) (y := y) (k := .fill) (rest := q ++ (bad ++ post)) hu hn (by decide) (hq.noMore E _) tg off
    have f : u ++ (n ++ q ++ bad ++ post) = u ++ n ++ (q ++ (bad ++ post)) := by simp
    rw [f, e]
    obtain ⟨a, b, ha, hbw, rfl⟩ := hq
    obtain ⟨o, ho, e3⟩ := Reads_maybeTake (lit := "=".toList) ha (by simp) (Solid_cons rfl _) (b ++ bad ++ post) (off + byteLen (u ++ n)) trivial
    obtain ⟨o, rfl⟩ := Option.isSome_iff_exists.mp ho
    have e4 := takeWhile_at (npos := npos) (f := Char.isDigit) hbw hne hb (fun _ => digit_not_ws) hp (off + byteLen (u ++ n) + byteLen (a ++ "=".toList))
    have g : a ++ '=' :: b ++ (bad ++ post) = a ++ "=".toList ++ (b ++ bad ++ post) := by simp
    have hpu : parseUInt (2 ^ 64) bad = none := by rw [parseUInt, if_neg (by omega)]
    simp only [fillOption, if_true]
    rw [g, bind_ok e3]
    simp only
    rw [bind_ok e4]
    simp only [hpu]
    simp [tokErr, byteLen_append, byteLen_cons, byteLen_nil, Nat.add_assoc]

theorem update_equals (E : Env) {npos : Nat} {k : OKind} (h1 : k ≠ .fill) (h2 : k ≠ .lock) {l : Lx} {o : Nat} (e : take npos "=".toList l = failAt npos o) :
    optionUpdate E npos k l = failAt npos o := by
  cases k <;> first | exact absurd rfl h1 | exact absurd rfl h2 | skip
  all_goals first
    | exact bind_fail (bind_fail (bind_fail e))
    | exact bind_fail (bind_fail e)
    | exact bind_fail e

theorem equals_named : ∀ n ∈ optionWords.filter (fun s => s ∉ ["f", "fill", "l", "lock"]),
    (n.toList ≠ [] ∧ (∀ c ∈ n.toList, c.toNat < 128 ∧ c.isAlphanum = true)) ∧ ∃ k ∈ optionNames.lookup n.toList, k ≠ .fill ∧ k ≠ .lock := by decide

theorem hexAt_three {p t r : Text} {i k : Nat} (hi : byteLen p = i) (hk : byteLen t = k) (d : Bool) :
    hexAt (p ++ (t ++ r)) i k d = (match stringToHex t d with | some v => .ok v | none => .err) := by
  subst hi hk
  simp only [hexAt, dropBytes_append, Option.bind_some, takeBytes_append]
  cases stringToHex t d <;> rfl

theorem hexVal_digit {c : Char} {n : Nat} (h : hexVal c = some n) : HexDigit c n := by
  unfold hexVal at h
  have hn : c = Char.ofNat c.toNat := (Char.ofNat_toNat c).symm
  have key : ∀ m : Nat, c.toNat = m → c = Char.ofNat m := fun m hm => by rw [← hm]; exact hn
  split at h
  · rename_i hc
    have h1 : 48 ≤ c.toNat := hc.1
    have h2 : c.toNat ≤ 57 := hc.2
    generalize hm : c.toNat = m at *
    obtain rfl := key m rfl
    interval_cases m <;> (cases h; left; rfl)
  · split at h
    · rename_i hc
      have h1 : 97 ≤ c.toNat := hc.1
      have h2 : c.toNat ≤ 102 := hc.2
      generalize hm : c.toNat = m at *
      obtain rfl := key m rfl
      interval_cases m <;> (cases h; right; rfl)
    · split at h
      · rename_i hc
        have h1 : 65 ≤ c.toNat := hc.1
        have h2 : c.toNat ≤ 70 := hc.2
        generalize hm : c.toNat = m at *
        obtain rfl := key m rfl
        interval_cases m <;> (cases h; left; rfl)
      · cases h

theorem hexByte_pair {a b : Char} {v : UInt8} (h : hexByte [a, b] = some v) : ∃ m n, hexVal a = some m ∧ hexVal b = some n := by
  cases ha : hexVal a with
  | none => simp [hexByte, ha] at h
  | some m =>
    cases hb : hexVal b with
    | none => simp [hexByte, ha, hb] at h
    | some n => exact ⟨m, n, rfl, rfl⟩

theorem rgb_wrong {hash m : Text} (hh : hash = [] ∨ hash = ['#']) (hm : ∀ c ∈ m, c.toNat < 128 ∧ c.isAlphanum = true) (hl : m.length = 3 ∨ m.length = 6)
    (hx : ∀ x, ¬ ColorText (hash ++ m) x) : rgbTryFrom (hash ++ m) = .err := by
  have ha : Ascii m := fun c hc => (hm c hc).1
  have hb : byteLen m = m.length := byteLen_ascii ha
  have h0 : rgbTryFrom (hash ++ m) = rgbParse m := by
    rcases hh with rfl | rfl
    · cases m with
      | nil => simp at hl
      | cons c r =>
        have hc : c ≠ '#' := by rintro rfl; exact absurd (hm '#' (by simp)).2 (by decide)
        simp only [List.nil_append, rgbTryFrom]
        split
        · rename_i heq; cases heq; exact absurd rfl hc
        · rw [hb, if_pos hl]
    · simp only [rgbTryFrom, List.singleton_append, hb]
      rw [if_pos hl]
  rw [h0]
  rcases hl with hl | hl
  · match m, hl with
    | [a, b, c], _ =>
      have ba : byteLen [a] = 1 := byteLen_ascii (fun x hx => ha x (by simp at hx; simp [hx]))
      have bb : byteLen [b] = 1 := byteLen_ascii (fun x hx => ha x (by simp at hx; simp [hx]))
      have bc : byteLen [c] = 1 := byteLen_ascii (fun x hx => ha x (by simp at hx; simp [hx]))
      have bab : byteLen [a, b] = 2 := byteLen_ascii (fun x hx => ha x (by simp at hx; rcases hx with rfl | rfl <;> simp))
      have k1 := hexAt_three (p := []) (t := [a]) (r := [b, c]) (i := 0) rfl ba true
      have k2 := hexAt_three (p := [a]) (t := [b]) (r := [c]) ba bb true
      have k3 := hexAt_three (p := [a, b]) (t := [c]) (r := []) bab bc true
      simp only [List.nil_append, List.cons_append, List.append_nil] at k1 k2 k3
      have hb' : byteLen [a, b, c] = 3 := hb
      simp only [rgbParse, hb', show ¬ (3 = 6) by decide, if_false, Nat.mul_one, k1, k2, k3]
      cases h1 : stringToHex [a] true with
      | none => rfl
      | some v1 =>
        cases h2 : stringToHex [b] true with
        | none => rfl
        | some v2 =>
          cases h3 : stringToHex [c] true with
          | none => rfl
          | some v3 =>
            exfalso
            obtain ⟨n1, _, e1, _⟩ := hexByte_pair (a := a) (b := a) h1
            obtain ⟨n2, _, e2, _⟩ := hexByte_pair (a := b) (b := b) h2
            obtain ⟨n3, _, e3, _⟩ := hexByte_pair (a := c) (b := c) h3
            exact hx _ (.short hh (hexVal_digit e1) (hexVal_digit e2) (hexVal_digit e3) rfl)
  · match m, hl with
    | [a, b, c, d, e, f], _ =>
      have asc : ∀ t : Text, (∀ x ∈ t, x ∈ [a, b, c, d, e, f]) → byteLen t = t.length := fun t ht => byteLen_ascii (fun x hx => ha x (ht x hx))
      have k1 := hexAt_three (p := []) (t := [a, b]) (r := [c, d, e, f]) (i := 0) (k := 2) rfl (asc _ (by simp)) false
      have k2 := hexAt_three (p := [a, b]) (t := [c, d]) (r := [e, f]) (i := 2) (k := 2) (asc _ (by simp)) (asc _ (by simp)) false
      have k3 := hexAt_three (p := [a, b, c, d]) (t := [e, f]) (r := []) (i := 4) (k := 2) (asc _ (by simp)) (asc _ (by simp)) false
      simp only [List.nil_append, List.cons_append, List.append_nil] at k1 k2 k3
      have hb' : byteLen [a, b, c, d, e, f] = 6 := hb
      simp only [rgbParse, hb', if_true, k1, k2, k3, show 2 * 2 = 4 by decide]
      cases h1 : stringToHex [a, b] false with
      | none => rfl
      | some v1 =>
        cases h2 : stringToHex [c, d] false with
        | none => rfl
        | some v2 =>
          cases h3 : stringToHex [e, f] false with
          | none => rfl
          | some v3 =>
            exfalso
            obtain ⟨n1, n2, e1, e2⟩ := hexByte_pair h1
            obtain ⟨n3, n4, e3, e4⟩ := hexByte_pair h2
            obtain ⟨n5, n6, e5, e6⟩ := hexByte_pair h3
            exact hx _ (.long hh (hexVal_digit e1) (hexVal_digit e2) (hexVal_digit e3) (hexVal_digit e4) (hexVal_digit e5) (hexVal_digit e6) rfl)

theorem colorLoop_wrong (E : Env) {hash m r : Text} (hh : hash = [] ∨ hash = ['#']) (hm : ∀ c ∈ m, E.alnum c = true ∧ c ≠ '#') (hl : ¬ (m.length = 3 ∨ m.length = 6)) (hr : Ends r) (hr' : r ≠ []) :
    colorLoop E.alnum 0 false [] (hash ++ m ++ r) = none := by
  obtain ⟨c, r, rfl⟩ := List.exists_cons_of_ne_nil hr'
  have hb : Brk c := hr c (by simp)
  have hc : c ≠ '#' := by
    rintro rfl
    rcases hb with h | h | h | h | h | h <;> cases h
  have key : ∀ b acc, colorLoop E.alnum 0 b acc (m ++ c :: r) = none := by
    intro b acc
    by_cases h7 : m.length ≤ 7
    · rw [colorLoop_run _ _ _ _ _ hm (by omega), colorLoop, if_neg (by simp [hc]), if_neg (by simp [alnum_brk E hb]), if_neg (by omega)]
    · have hsplit : m = m.take 7 ++ m.drop 7 := (List.take_append_drop 7 m).symm
      have ht : (m.take 7).length = 7 := by rw [List.length_take]; omega
      cases hd : m.drop 7 with
      | nil => rw [List.drop_eq_nil_iff] at hd; omega
      | cons x xs =>
        rw [hd] at hsplit
        rw [hsplit, List.append_assoc, colorLoop_run _ _ _ _ _ (fun y hy => hm y (List.mem_of_mem_take hy)) (by omega), ht, List.cons_append, colorLoop]
        have hx := hm x (by rw [hsplit]; simp)
        rw [if_neg (by simp [hx.2]), if_pos hx.1, if_pos (by omega)]
  rcases hh with rfl | rfl
  · rw [List.nil_append, key]
  · rw [List.append_assoc, List.singleton_append, colorLoop, if_pos ⟨rfl, rfl⟩, key]

theorem takeRgb_wrong (E : Env) {npos : Nat} {q hash m r : Text} (hq : EqSign q) (hh : hash = [] ∨ hash = ['#']) (hm : ∀ c ∈ m, c.toNat < 128 ∧ c.isAlphanum = true) (hne : m ≠ []) (hr : Ends r) (hr' : r ≠ [])
    (hx : ∀ x, ¬ ColorText (hash ++ m) x) (off : Nat) : takeRgb E npos ⟨q ++ (hash ++ m ++ r), off⟩ = failAt npos (off + byteLen q - 1) := by
  obtain ⟨a, b, ha, hb, rfl⟩ := hq
  obtain ⟨kk, e3⟩ := take_eq (npos := npos) (rest := b ++ (hash ++ m ++ r)) ha off
  have hal : ∀ c ∈ m, E.alnum c = true ∧ c ≠ '#' := fun c hc => ⟨by rw [E.alnum_ascii c (hm c hc).1]; exact (hm c hc).2, by rintro rfl; exact absurd (hm '#' hc).2 (by decide)⟩
  have hs : Solid (hash ++ m ++ r) := by
    rcases hh with rfl | rfl
    · cases m with
      | nil => exact absurd rfl hne
      | cons c m => exact Solid_cons (E.alnum_ws c (hal c (by simp)).1) _
    · exact Solid_cons rfl _
  have h1 := takeWhitespace_ws hb hs (off + byteLen a + 1)
  have g : a ++ '=' :: b ++ (hash ++ m ++ r) = a ++ '=' :: (b ++ (hash ++ m ++ r)) := by simp
  have hoff : off + byteLen a + 1 + byteLen b - 1 = off + byteLen (a ++ '=' :: b) - 1 := by
    simp [byteLen_append, byteLen_cons, show ('=' : Char).utf8Size = 1 from rfl, Nat.add_assoc]
  rw [takeRgb, g, bind_ok e3]
  by_cases hl : m.length = 3 ∨ m.length = 6
  · have e4 : takeColor E npos ⟨b ++ (hash ++ m ++ r), off + byteLen a + 1⟩ = .ok ⟨hash ++ m, off + byteLen a + 1 + byteLen b - 1⟩ ⟨r, off + byteLen a + 1 + byteLen b + byteLen (hash ++ m)⟩ := by
      rw [takeColor, bind_ok h1]
      simp only [colorLoop_digits E hh hal hl hr]
      rw [bind_apply]
      simp only [matchToken]
      rw [bind_ok (moveInput_append (hash ++ m) r _)]
      rfl
    rw [bind_ok e4]
    simp only [rgb_wrong hh hm hl hx, tokErr, hoff]
  · apply bind_fail
    rw [takeColor, bind_ok h1]
    simp only [colorLoop_wrong E hh hal hl hr hr', unknown, Lx.current, hoff]

/-- The offset of the error of text that is not what can follow: the byte before it. -/
theorem option_wrongPlace (E : Env) {npos : Nat} {isRow : Bool} {y : Nat} {pre bad : Text} (h : WrongPlace E pre bad) (tg : Target) {u : Text} (hu : W u) (off : Nat) :
    option E npos isRow y tg ⟨u ++ (pre ++ bad), off⟩ = failAt npos (off + byteLen (u ++ pre) - 1) := by
  cases h with
  | name hc h1 h2 h3 h4 =>
    rw [List.nil_append, option]
    apply bind_fail
    rw [takeWhile_err hu h1 hc, List.append_nil]
  | @equals n w c r hn hw h1 h2 h3 =>
    obtain ⟨m, hm, rfl⟩ := hn
    obtain ⟨⟨g1, g2⟩, k, g3, g4, g5⟩ := equals_named m hm
    have hk : NameOf [m] k := by
      intro x hx
      simp only [List.mem_singleton] at hx
      subst hx
      exact ⟨g1, g2, g3⟩
    have hnm : NoMore E.alnum (w ++ c :: r) := by
      cases w with
      | nil =>
        intro d hd
        simp at hd
        subst hd
        simpa using h3
      | cons x w =>
        intro d hd
        simp at hd
        subst hd
        exact alnum_brk E (.inl (hw _ (by simp)))
    obtain ⟨tok, ht, e⟩ := option_named E (npos := npos) (isRow := isRow) (y := y) (k := k) hu ⟨m, by simp, rfl⟩ hk hnm tg off
    have f : u ++ (m.toList ++ w ++ c :: r) = u ++ m.toList ++ (w ++ c :: r) := by simp
    rw [f, e]
    have e2 := update_equals E g4 g5 (take_eq_err (npos := npos) (rest := r) hw h1 h2 (off + byteLen (u ++ m.toList)))
    have hoff : off + byteLen (u ++ m.toList) + byteLen w - 1 = off + byteLen (u ++ (m.toList ++ w)) - 1 := by simp [byteLen_append, Nat.add_assoc]
    rw [← hoff]
    cases k <;> first | exact absurd rfl g4 | exact bind_fail e2
  | @value names values n q c r hc hn hq h1 h2 =>
    obtain ⟨k, hkf, hk, -, g⟩ := hc.kind E npos
    obtain ⟨tok, ht, e⟩ := option_named E (npos := npos) (isRow := isRow) (y := y) (k := k) (rest := q ++ c :: r) hu hn hk (hq.noMore E _) tg off
    have f : u ++ (n ++ q ++ c :: r) = u ++ n ++ (q ++ c :: r) := by simp
    rw [f, e]
    have e2 : optionUpdate E npos k ⟨q ++ c :: r, off + byteLen (u ++ n)⟩ = failAt npos (off + byteLen (u ++ (n ++ q)) - 1) := by
      apply g
      obtain ⟨a, b, ha, hbw, rfl⟩ := hq
      obtain ⟨kk, e3⟩ := take_eq (npos := npos) (rest := b ++ c :: r) ha (off + byteLen (u ++ n))
      have g : a ++ '=' :: b ++ c :: r = a ++ '=' :: (b ++ c :: r) := by simp
      rw [takeRight, g, bind_ok e3, takeWhile_err hbw h1 h2]
      simp [byteLen_append, byteLen_cons, show ('=' : Char).utf8Size = 1 from rfl, Nat.add_assoc]
    cases k <;> first | exact absurd rfl hkf | exact bind_fail e2
  | @fontSize n q c r hn hq h1 h2 =>
    obtain ⟨tok, ht, e⟩ := option_named E (npos := npos) (isRow := isRow) (y := y) (k := .fontSize) (rest := q ++ c :: r) hu hn (by decide) (hq.noMore E _) tg off
    have f : u ++ (n ++ q ++ c :: r) = u ++ n ++ (q ++ c :: r) := by simp
    rw [f, e]
    apply bind_fail
    obtain ⟨a, b, ha, hbw, rfl⟩ := hq
    obtain ⟨kk, e3⟩ := take_eq (npos := npos) (rest := b ++ c :: r) ha (off + byteLen (u ++ n))
    have g : a ++ '=' :: b ++ c :: r = a ++ '=' :: (b ++ c :: r) := by simp
    rw [optionUpdate, g, bind_ok e3]
    apply bind_fail
    rw [takeWhile_err hbw h1 h2]
    simp [byteLen_append, byteLen_cons, show ('=' : Char).utf8Size = 1 from rfl, Nat.add_assoc]
  | @colour n q hash m r hn hq hh hm hne hr hr' hx =>
    obtain ⟨s, hs, rfl⟩ := hn
    have hk : ∃ k, NameOf [s] k ∧ (k = .borderColor ∨ k = .color ∨ k = .fontColor) := by
      simp only [List.mem_cons, List.not_mem_nil, or_false] at hs
      rcases hs with rfl | rfl | rfl | rfl | rfl | rfl
      · exact ⟨.borderColor, by decide, by simp⟩
      · exact ⟨.borderColor, by decide, by simp⟩
      · exact ⟨.color, by decide, by simp⟩
      · exact ⟨.color, by decide, by simp⟩
      · exact ⟨.fontColor, by decide, by simp⟩
      · exact ⟨.fontColor, by decide, by simp⟩
    obtain ⟨k, hk, hkk⟩ := hk
    obtain ⟨tok, ht, e⟩ := option_named E (npos := npos) (isRow := isRow) (y := y) (k := k) (rest := q ++ (hash ++ m ++ r)) hu ⟨s, by simp, rfl⟩ hk (hq.noMore E _) tg off
    have f : u ++ (s.toList ++ q ++ (hash ++ m ++ r)) = u ++ s.toList ++ (q ++ (hash ++ m ++ r)) := by simp
    rw [f, e]
    have e2 := takeRgb_wrong E (npos := npos) hq hh hm hne hr hr' hx (off + byteLen (u ++ s.toList))
    have hoff : off + byteLen (u ++ s.toList) + byteLen q - 1 = off + byteLen (u ++ (s.toList ++ q)) - 1 := by simp [byteLen_append, Nat.add_assoc]
    rw [← hoff]
    rcases hkk with rfl | rfl | rfl <;> exact bind_fail (bind_fail e2)

theorem WrongWord.head {E : Env} {isRow : Bool} {pre bad post : Text} (h : WrongWord E isRow pre bad post) :
    ∃ c r, pre ++ bad ++ post = c :: r ∧ isWs c = false ∧ c ≠ '=' ∧ c ≠ '/' ∧ c ≠ ']' := by
  have key : ∀ (names : List String) (n v : Text), OneOf names n → (∀ m ∈ names, m.toList ≠ [] ∧ ∀ c ∈ m.toList, c.toNat < 128 ∧ c.isAlphanum = true) →
      ∃ c r, n ++ v = c :: r ∧ isWs c = false ∧ c ≠ '=' ∧ c ≠ '/' ∧ c ≠ ']' := by
    rintro names n v ⟨m, hm, rfl⟩ hk
    obtain ⟨h1, h2⟩ := hk m hm
    cases hx : m.toList with
    | nil => exact absurd hx h1
    | cons c r =>
      have hc := h2 c (by rw [hx]; simp)
      refine ⟨c, r ++ v, rfl, E.alnum_ws c (by rw [E.alnum_ascii c hc.1]; exact hc.2), ?_, ?_, ?_⟩ <;>
        (rintro rfl; have := hc.2; revert this; decide)
  cases h with
  | name hne hb hp hw =>
    cases bad with
    | nil => exact absurd rfl hne
    | cons c r =>
      have hc := hb c (by simp)
      refine ⟨c, r ++ post, rfl, E.alnum_ws c hc, ?_, ?_, ?_⟩ <;> (rintro rfl; rw [E.alnum_ascii _ (by decide)] at hc; revert hc; decide)
  | notInRow hr hp hw => exact key _ _ _ hw (by decide)
  | @value names values n q bad post hc hn hq hne hb hp hw =>
    obtain ⟨k, _, hk, _⟩ := hc.kind E 0
    have := key _ n (q ++ bad ++ post) hn (fun m hm => ⟨(hk m hm).1, (hk m hm).2.1⟩)
    simpa using this
  | @fontSize n q bad post hn hq hne hb hp hw =>
    have := key _ n (q ++ bad ++ post) hn (by decide)
    simpa using this
  | @fill n q bad post hr hn hq hne hb hp hw =>
    have := key _ n (q ++ bad ++ post) hn (by decide)
    simpa using this

theorem WrongPlace.head {E : Env} {pre bad : Text} (h : WrongPlace E pre bad) :
    ∃ c r, pre ++ bad = c :: r ∧ isWs c = false ∧ c ≠ '=' ∧ c ≠ '/' ∧ c ≠ ']' := by
  have key : ∀ (names : List String) (n v : Text), OneOf names n → (∀ m ∈ names, m.toList ≠ [] ∧ ∀ c ∈ m.toList, c.toNat < 128 ∧ c.isAlphanum = true) →
      ∃ c r, n ++ v = c :: r ∧ isWs c = false ∧ c ≠ '=' ∧ c ≠ '/' ∧ c ≠ ']' := by
    rintro names n v ⟨m, hm, rfl⟩ hk
    obtain ⟨h1, h2⟩ := hk m hm
    cases hx : m.toList with
    | nil => exact absurd hx h1
    | cons c r =>
      have hc := h2 c (by rw [hx]; simp)
      refine ⟨c, r ++ v, rfl, E.alnum_ws c (by rw [E.alnum_ascii c hc.1]; exact hc.2), ?_, ?_, ?_⟩ <;>
        (rintro rfl; have := hc.2; revert this; decide)
  cases h with
  | @name c r hc h1 h2 h3 h4 => exact ⟨c, r, rfl, h1, h2, h3, h4⟩
  | @equals n w c r hn hw h1 h2 h3 =>
    have := key _ n (w ++ c :: r) hn (fun m hm => (equals_named m hm).1)
    simpa using this
  | @value names values n q c r hc hn hq h1 h2 =>
    obtain ⟨k, _, hk, _⟩ := hc.kind E 0
    have := key _ n (q ++ c :: r) hn (fun m hm => ⟨(hk m hm).1, (hk m hm).2.1⟩)
    simpa using this
  | @fontSize n q c r hn hq h1 h2 =>
    have := key _ n (q ++ c :: r) hn (by decide)
    simpa using this
  | @colour n q hash m r hn hq hh hm hne hr hr' hx =>
    have := key _ n (q ++ hash ++ m ++ r) hn (by decide)
    simpa using this

/-! ## C92 -/

/-- C92, words and numbers.  If a word or number in the options of an ASCII cell is wrong, the cell is rejected, with an error at the last character of the word.
(`positions` are the reported positions of the characters, C05.) -/
theorem C92_word_partial (E : Env) (f : Csvp.Field) (row : RowS) (hp : f.positions.length = f.value.length) (ha : Ascii f.value) {isRow : Bool} {t pre bad post : Text}
    (ht : Opened E f.addr.x isRow t) (hw : WrongWord E isRow pre bad post) (hv : f.value = t ++ (pre ++ bad ++ post)) :
    bad ≠ [] ∧ cellParse E f row = .error (.options ((t ++ pre ++ bad).length - 1)) := by
  have hne : bad ≠ [] := by
    cases hw with
    | notInRow _ _ h =>
      obtain ⟨m, hm, rfl⟩ := h
      clear hv
      revert m
      decide
    | name h => exact h
    | value _ _ _ h => exact h
    | fontSize _ _ h => exact h
    | fill _ _ _ h => exact h
  refine ⟨hne, ?_⟩
  obtain ⟨c, r, hcr, h1, h2, h3, h4⟩ := hw.head
  have hA : ∀ s : Text, (∀ c ∈ s, c ∈ f.value) → byteLen s = s.length := fun s hs => byteLen_ascii (fun c hc => ha c (hs c hc))
  have h0 : 0 < bad.length := List.length_pos_iff.mpr hne
  have e := parseCell_opened E f row ht (c := c) (r := r) (o := (t ++ pre ++ bad).length - 1) (by rw [hv, hcr]) h1 h2 h3 h4 (fun tg u off hu hoff => by
    rw [← hcr, option_wrongWord E hw tg hu off, List.append_assoc, byteLen_append, ← Nat.add_assoc, hoff, ← byteLen_append, hA _ (fun c hc => by rw [hv]; simp at hc ⊢; tauto),
      List.append_assoc, failAt, if_pos]
    rw [hp, hv]
    simp only [List.length_append]
    omega)
  rw [cellParse, e]

/-- C92, the rest.  If in the options of an ASCII cell something stands where a name, `=` or a value is expected, or a colour is wrong, the cell is rejected, but with an error at the character
before. -/
theorem C92_violated_place (E : Env) (f : Csvp.Field) (row : RowS) (hp : f.positions.length = f.value.length) (ha : Ascii f.value) {isRow : Bool} {t pre bad : Text}
    (ht : Opened E f.addr.x isRow t) (hw : WrongPlace E pre bad) (hv : f.value = t ++ (pre ++ bad)) :
    cellParse E f row = .error (.options ((t ++ pre).length - 1)) := by
  obtain ⟨c, r, hcr, h1, h2, h3, h4⟩ := hw.head
  have hA : ∀ s : Text, (∀ c ∈ s, c ∈ f.value) → byteLen s = s.length := fun s hs => byteLen_ascii (fun c hc => ha c (hs c hc))
  have hlen : 0 < (pre ++ bad).length := by rw [hcr]; simp
  have hlt : 0 < t.length := by
    obtain ⟨lead, w, b, es, -, -, -, -, -, rfl⟩ := ht
    cases isRow <;> simp
  have hbad : bad ≠ [] := by
    cases hw <;> simp_all
  have e := parseCell_opened E f row ht (c := c) (r := r) (o := (t ++ pre).length - 1) (by rw [hv, hcr]) h1 h2 h3 h4 (fun tg u off hu hoff => by
    rw [← hcr, option_wrongPlace E hw tg hu off, byteLen_append, ← Nat.add_assoc, hoff, ← byteLen_append, hA _ (fun c hc => by rw [hv]; simp at hc ⊢; tauto), failAt, if_pos]
    have := List.length_pos_iff.mpr hbad
    rw [hp, hv]
    simp only [List.length_append]
    omega)
  rw [cellParse, e]

/-! ## The printed message -/

/-- A message at the position of the character `c` of a cell: on the first line of the csv section the `^` is under it. -/
theorem points_char (name addr msg bad : Text) (possible : Option (List Text)) {src : Text} {sep : Char} {rs : List (List Csvp.Field)}
    (h : Csvp.parse ⟨sep, (Source.SourceCode.new src).lenCode⟩ (Source.SourceCode.new src).csv = .ok rs)
    {row : List Csvp.Field} (hrow : row ∈ rs) {f : Csvp.Field} (hf : f ∈ row) (hp : f.positions.length = f.value.length) (hn : '\n' ∉ f.value) (hr : '\r' ∉ f.value) {k : Nat} {c : Char} {pos : Csvp.SrcPos}
    (hc : f.value[k]? = some c) (hpk : f.positions[k]? = some pos) (hline : pos.line = (Source.SourceCode.new src).lenCode) :
    ∃ left right, Points (cellHead name addr) (cellErrorText name addr src msg bad possible pos) src pos.line left [c] right := by
  have hin : c ∈ f.value := List.mem_of_getElem? hc
  obtain ⟨l, h1, h2⟩ := field_char h hrow hf hp hc hpk (fun e => hn (e ▸ hin)) (fun e => hr (e ▸ hin))
  rw [if_pos hline] at h2
  obtain ⟨h3, h4⟩ := List.getElem?_eq_some_iff.mp h2
  simp only [Nat.sub_zero] at h3 h4
  have hsplit : l = l.take pos.off ++ c :: l.drop (pos.off + 1) := by rw [← h4, List.getElem_cons_drop, List.take_append_drop]
  refine ⟨l.take pos.off, l.drop (pos.off + 1), ?_⟩
  have : (Source.rlines src)[pos.line]? = some (l.take pos.off ++ [c] ++ l.drop (pos.off + 1)) := by rw [h1]; simp [← hsplit]
  refine points_message (head := cellHead name addr) (tail := []) this ?_
  rw [List.length_take]; omega

theorem getLast_at {a b : Text} (h : a ≠ []) : (a ++ b)[a.length - 1]? = some (a.getLast h) := by
  have := List.length_pos_iff.mpr h
  rw [List.getElem?_append_left (by omega), List.getElem?_eq_getElem (by omega), List.getLast_eq_getElem]

/-- C92, as it is printed.  If a word or number in the options of an ASCII cell of one line without surrounding white space on the first line of the csv section is wrong, then the `^` of the printed
message is under the last character of the word. -/
theorem C92_message_partial (E : Env) (name addr msg shown : Text) (possible : Option (List Text)) {src : Text} {sep : Char} {rs : List (List Csvp.Field)}
    (h : Csvp.parse ⟨sep, (Source.SourceCode.new src).lenCode⟩ (Source.SourceCode.new src).csv = .ok rs)
    {fs : List Csvp.Field} (hrow : fs ∈ rs) {f : Csvp.Field} (hf : f ∈ fs) (hp : f.positions.length = f.value.length) (ha : Ascii f.value) (hn : '\n' ∉ f.value) (hr : '\r' ∉ f.value)
    (row : RowS) {isRow : Bool} {t pre bad post : Text} (ht : Opened E f.addr.x isRow t) (hw : WrongWord E isRow pre bad post) (hv : f.value = t ++ (pre ++ bad ++ post)) :
    ∃ o pos, cellParse E f row = .error (.options o) ∧ f.positions[o]? = some pos ∧
      (pos.line = (Source.SourceCode.new src).lenCode → ∃ hne : bad ≠ [], ∃ left right,
        Points (cellHead name addr) (cellErrorText name addr src msg shown possible pos) src pos.line left [bad.getLast hne] right) := by
  obtain ⟨hne, e⟩ := C92_word_partial E f row hp ha ht hw hv
  have h0 : 0 < bad.length := List.length_pos_iff.mpr hne
  have hlt : (t ++ pre ++ bad).length - 1 < f.positions.length := by
    rw [hp, hv]
    simp only [List.length_append]
    omega
  refine ⟨_, f.positions[(t ++ pre ++ bad).length - 1], e, List.getElem?_eq_getElem hlt, fun hline => ⟨hne, ?_⟩⟩
  refine points_char name addr msg shown possible h hrow hf hp hn hr ?_ (List.getElem?_eq_getElem hlt) hline
  have hne' : t ++ pre ++ bad ≠ [] := by simp [hne]
  have g := getLast_at (b := post) hne'
  rw [List.getLast_append_of_ne_nil _ hne] at g
  rw [← g, hv]
  simp

/-- The same for text that is not what can follow: the `^` is under the character before it. -/
theorem C92_violated_message (E : Env) (name addr msg shown : Text) (possible : Option (List Text)) {src : Text} {sep : Char} {rs : List (List Csvp.Field)}
    (h : Csvp.parse ⟨sep, (Source.SourceCode.new src).lenCode⟩ (Source.SourceCode.new src).csv = .ok rs)
    {fs : List Csvp.Field} (hrow : fs ∈ rs) {f : Csvp.Field} (hf : f ∈ fs) (hp : f.positions.length = f.value.length) (ha : Ascii f.value) (hn : '\n' ∉ f.value) (hr : '\r' ∉ f.value)
    (row : RowS) {isRow : Bool} {t pre bad : Text} (ht : Opened E f.addr.x isRow t) (hw : WrongPlace E pre bad) (hv : f.value = t ++ (pre ++ bad)) :
    ∃ o pos, cellParse E f row = .error (.options o) ∧ f.positions[o]? = some pos ∧
      (pos.line = (Source.SourceCode.new src).lenCode → ∃ hne : t ++ pre ≠ [], ∃ left right,
        Points (cellHead name addr) (cellErrorText name addr src msg shown possible pos) src pos.line left [(t ++ pre).getLast hne] right) := by
  have e := C92_violated_place E f row hp ha ht hw hv
  have hne : t ++ pre ≠ [] := by
    obtain ⟨lead, w, b, es, -, -, -, -, -, rfl⟩ := ht
    cases isRow <;> simp
  have h0 := List.length_pos_iff.mpr hne
  have hlt : (t ++ pre).length - 1 < f.positions.length := by
    have : (t ++ pre ++ bad).length = (t ++ pre).length + bad.length := List.length_append
    rw [hp, hv, ← List.append_assoc]
    omega
  refine ⟨_, f.positions[(t ++ pre).length - 1], e, List.getElem?_eq_getElem hlt, fun hline => ⟨hne, ?_⟩⟩
  refine points_char name addr msg shown possible h hrow hf hp hn hr ?_ (List.getElem?_eq_getElem hlt) hline
  rw [← getLast_at (b := bad) hne, hv]
  simp

/-! ## Examples -/

/-- A cell with a wrong value of its second option: the theorems apply, and the `^` is under the `d` of `bld`. -/
example (E : Env) : ∃ f, Csvp.parse ⟨',', (Source.SourceCode.new "[[ha=l / t=bld]]x".toList).lenCode⟩ (Source.SourceCode.new "[[ha=l / t=bld]]x".toList).csv = .ok [[f]] ∧
    f.value = "[[ha=l / ".toList ++ ("t=".toList ++ "bld".toList ++ "]]x".toList) ∧ f.positions.length = f.value.length ∧ f.positions[13]? = some ⟨0, 13⟩ ∧
    Opened E f.addr.x false "[[ha=l / ".toList ∧ WrongWord E false "t=".toList "bld".toList "]]x".toList ∧ ("[[ha=l / ".toList ++ "t=".toList ++ "bld".toList).length - 1 = 13 ∧
    cellErrorText "\"f\"".toList "A1".toList "[[ha=l / t=bld]]x".toList "M".toList "`bld`".toList none ⟨0, 13⟩ =
      "Syntax error in cell A1 of \"f\"\nOn line 1 M but saw `bld`\n\n 1: [[ha=l / t=bld]]x\n  : -------------^\n\n".toList := by
  refine ⟨_, rfl, rfl, rfl, rfl, ⟨[], [], "ha=l / ".toList, [.inl (.halign .left)], .blank W_nil, W_nil, ?_, by simp, by simp, rfl⟩, ?_, rfl, by decide⟩
  · refine Begun.cons (t := "ha=l".toList) (sep := " / ".toList) (r := []) (.setting (.halign (n := "ha".toList) (q := "=".toList) (v := "l".toList) ⟨"ha", by decide, rfl⟩ ⟨[], [], W_nil, W_nil, rfl⟩
      ⟨by intro c hc; simp at hc; subst hc; rw [isIdent, E.alnum_ascii _ (by decide)]; decide, "l", by decide, by rw [E.lower_ascii _ (by decide)]; decide⟩)) (.inr ⟨" ".toList, " ".toList, by unfold W; decide, by unfold W; decide, rfl⟩) .nil
  · refine WrongWord.value (names := ["t", "text"]) (n := ['t']) (q := ['=']) .textFmt ⟨"t", by decide, rfl⟩ ⟨[], [], W_nil, W_nil, rfl⟩ (by decide) ?_ ?_ ?_
    · intro c hc
      have h : c.toNat < 128 ∧ c.isAlphanum = true := by revert c; decide
      rw [isIdent, E.alnum_ascii _ h.1, h.2]; rfl
    · intro c hc
      simp at hc
      subst hc
      rw [isIdent, E.alnum_ascii _ (by decide)]; decide
    · rw [E.lower_ascii _ (by decide)]
      rintro ⟨n, hn, e⟩
      revert n
      decide

/-- A cell with a wrong colour: the error is at the `=` before it. -/
example (E : Env) : ∃ f, Csvp.parse ⟨',', (Source.SourceCode.new "![[f / c=#1234 ]]x".toList).lenCode⟩ (Source.SourceCode.new "![[f / c=#1234 ]]x".toList).csv = .ok [[f]] ∧
    f.value = "![[f / ".toList ++ ("c=".toList ++ "#1234 ]]x".toList) ∧ f.positions.length = f.value.length ∧ f.positions[8]? = some ⟨0, 8⟩ ∧
    Opened E f.addr.x true "![[f / ".toList ∧ WrongPlace E "c=".toList "#1234 ]]x".toList ∧ ("![[f / ".toList ++ "c=".toList).length - 1 = 8 := by
  refine ⟨_, rfl, rfl, rfl, rfl, ⟨[], [], "f / ".toList, [.inr none], .blank W_nil, W_nil, ?_, fun _ => rfl, (fun h => by cases h), rfl⟩, ?_, rfl⟩
  · exact Begun.cons (t := "f".toList) (sep := " / ".toList) (r := []) (.fillRest ⟨"f", by decide, rfl⟩) (.inr ⟨" ".toList, " ".toList, by unfold W; decide, by unfold W; decide, rfl⟩) .nil
  · refine WrongPlace.colour (n := ['c']) (q := ['=']) (hash := ['#']) (m := "1234".toList) (r := " ]]x".toList) ⟨"c", by decide, rfl⟩ ⟨[], [], W_nil, W_nil, rfl⟩ (.inr rfl) (by decide) (by decide)
      (Ends_cons (.inl rfl) _) (by simp) ?_
    intro x hx
    have : ∀ t : Text, ColorText t x → t.length = 3 ∨ t.length = 4 ∨ t.length = 6 ∨ t.length = 7 := by
      intro t ht
      cases ht with
      | long hh => rcases hh with rfl | rfl <;> simp
      | short hh => rcases hh with rfl | rfl <;> simp
    have := this _ hx
    revert this
    decide

end Verif.Cell
