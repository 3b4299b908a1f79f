import Verif.Parser.CodeSpec
import Verif.Parser.Props
/-
C48, C49: code sections.
-/
namespace Verif.Parser
open Verif.Ast

/-! ### lexing -/

theorem LexTo_skip {u : Uni} {p rest : Text} {k b full} {ts : List Tok}
    (h : firstMatch u p = some (k, b, full, rest)) (hk : k = .newline ∨ k = .comment)
    (hts : LexTo u rest ts) : LexTo u p ts := by
  intro off line
  obtain ⟨n, e, pts, h1, h2⟩ := hts (if k = .newline then 0 else off + byteLen full)
    (if k = .newline then line + 1 else line)
  by_cases ht : trim rest = []
  · have hts' : ts = [] := LexTo_ws ht hts
    subst hts'
    exact ⟨1, _, [], by rw [lexLoop, h]; simp only [hk, if_true]; rw [if_pos ht], rfl⟩
  · exact ⟨n + 1, e, pts, by rw [lexLoop, h]; simp only [hk, if_true]; rw [if_neg ht, h1]; rfl, by simp [h2]⟩

theorem LexTo_newline {u : Uni} {rest : Text} {ts : List Tok} (h : LexTo u rest ts) : LexTo u ('\n' :: rest) ts :=
  LexTo_skip (k := .newline) (b := 0) (full := ['\n']) rfl (.inl rfl) h

theorem LexTo_comment {u : Uni} {t rest : Text} {ts : List Tok} (ht : '\n' ∉ t) (hr : ∀ c, rest.head? = some c → c = '\n')
    (h : LexTo u rest ts) : LexTo u ('#' :: (t ++ rest)) ts := by
  refine LexTo_skip (k := .comment) (b := 0) (full := '#' :: t) ?_ (.inr rfl) h
  have hw := takeWhile_stop (f := (· != '\n')) (m := t) (rest := rest)
    (by intro c hc; simp; rintro rfl; exact ht hc) (by intro c hc; simp [hr c hc])
  rw [firstMatch_nonblank u rfl]
  have h1 : mComment ('#' :: (t ++ rest)) = some ('#' :: t, rest) := by simp [mComment, hw.1, hw.2]
  have h2 : mLit "\n".toList ('#' :: (t ++ rest)) = none := rfl
  simp only [matchers, List.findSome?_cons, h1, h2, Option.map_none, Option.map_some]

theorem LexTo_blanks {u : Uni} {b rest : Text} {ts : List Tok} (hb : ∀ c ∈ b, isBlank c = true)
    (h : LexTo u rest ts) : LexTo u (b ++ rest) ts := by
  induction b with
  | nil => exact h
  | cons c b ih => exact LexTo_blank (hb c (by simp)) (ih fun d hd => hb d (by simp [hd]))

theorem LexTo_use {u : Uni} {rest : Text} {ts : List Tok} (h : LexTo u rest ts) :
    LexTo u ("use".toList ++ rest) (⟨.useModule, "use".toList⟩ :: ts) := by
  have := LexTo_step (u := u) (p := "use".toList ++ rest) (k := .useModule) (b := 0) (full := "use".toList) rfl
    ⟨by decide, by decide⟩ h
  rwa [show trim "use".toList = "use".toList from by decide] at this

theorem LexTo_assign {u : Uni} {rest : Text} {ts : List Tok} (h : LexTo u rest ts) :
    LexTo u (":=".toList ++ rest) (⟨.varAssign, ":=".toList⟩ :: ts) := by
  have := LexTo_step (u := u) (p := ":=".toList ++ rest) (k := .varAssign) (b := 0) (full := ":=".toList) rfl
    ⟨by decide, by decide⟩ h
  rwa [show trim ":=".toList = ":=".toList from by decide] at this

theorem LexTo_fn {u : Uni} {rest : Text} {ts : List Tok} (hr : ∀ c, rest.head? = some c → isWs c = false)
    (h : LexTo u rest ts) : LexTo u ("fn ".toList ++ rest) (⟨.fnDef, "fn".toList⟩ :: ts) := by
  have hf : firstMatch u ("fn ".toList ++ rest) = some (.fnDef, 0, "fn ".toList, rest) := by
    have h1 : mFn ("fn ".toList ++ rest) = some ("fn ".toList, rest) := by
      have hp : mPlus isWs ([' '] ++ rest) = some ([' '], rest) := mPlus_stop (by simp) (by simp; rfl) hr
      have hl : mLit "fn".toList ("fn ".toList ++ rest) = some ("fn".toList, [' '] ++ rest) := rfl
      rw [mFn, hl]; simp only [hp]; rfl
    rw [show "fn ".toList ++ rest = 'f' :: 'n' :: ' ' :: rest from rfl] at h1 ⊢
    rw [firstMatch_nonblank u rfl]
    have h2 : mLit "\n".toList ('f' :: 'n' :: ' ' :: rest) = none := rfl
    have h3 : mComment ('f' :: 'n' :: ' ' :: rest) = none := rfl
    have h4 : mQuoted ('f' :: 'n' :: ' ' :: rest) = none := rfl
    simp only [matchers, List.findSome?_cons, h1, h2, h3, h4, Option.map_none, Option.map_some]
  have := LexTo_step hf ⟨by decide, by decide⟩ h
  rwa [show trim "fn ".toList = "fn".toList from by decide] at this

/-- The tokens of parameters. -/
def paramToks : List Text → List Tok
  | [] => []
  | [p] => [⟨.reference, p⟩]
  | p :: ps => ⟨.reference, p⟩ :: ⟨.comma, [',']⟩ :: paramToks ps

/-- The tokens of a statement. -/
def Stmt.toks : Stmt → List Tok
  | .use m => [⟨.useModule, "use".toList⟩, ⟨.reference, m⟩]
  | .fn n ps b => ⟨.fnDef, "fn".toList⟩ :: ⟨.reference, n⟩ :: ⟨.openParen, ['(']⟩ ::
      (paramToks ps ++ ⟨.closeParen, [')']⟩ :: toksOf b)
  | .var n v => ⟨.reference, n⟩ :: ⟨.varAssign, ":=".toList⟩ :: toksOf v

theorem LexTo_params {u : Uni} {ps : List Text} {rest : Text} {ts : List Tok} (hp : ∀ p ∈ ps, Name u p)
    (h : LexTo u (')' :: rest) ts) : LexTo u (joinText ", ".toList ps ++ ')' :: rest) (paramToks ps ++ ts) := by
  induction ps with
  | nil => exact h
  | cons p ps ih =>
    have hn := hp p (by simp)
    cases ps with
    | nil => exact LexTo_ref hn.1 hn.2 (Stop_cons (by simp) _) h
    | cons q qs =>
      have h1 := ih fun x hx => hp x (by simp [hx])
      have h2 := LexTo_ref hn.1 hn.2 (Stop_cons (c := ',') (by simp) _) (LexTo_comma (LexTo_blank (c := ' ') rfl h1))
      simpa [joinText_cons, paramToks] using h2

theorem Name.head_ws {u : Uni} {n : Text} (h : Name u n) (rest : Text) (c : Char) (hc : (n ++ rest).head? = some c) :
    isWs c = false := by
  obtain ⟨d, r, rfl, _⟩ := ref_cons h.1
  simp at hc; subst hc
  exact ref_no_ws h.1 _ (by simp)

theorem LexTo_stmt {u : Uni} {F : F64} {s : Stmt} (h : s.Ok u F) {rest : Text} {ts : List Tok} (hs : Stop rest)
    (hts : LexTo u rest ts) : LexTo u (s.text ++ rest) (s.toks ++ ts) := by
  cases s with
  | use m =>
    have := LexTo_use (LexTo_blank (c := ' ') rfl (LexTo_ref h.1 h.2 hs hts))
    simpa [Stmt.text, Stmt.toks] using this
  | fn n ps b =>
    obtain ⟨hn, hp, hb⟩ := h
    have h1 := LexTo_display hb hs hts
    have h2 := LexTo_params hp (LexTo_close (LexTo_blank (c := ' ') rfl h1))
    have h3 := LexTo_ref hn.1 hn.2 (Stop_cons (c := '(') (by simp) _) (LexTo_open h2)
    have h4 := LexTo_fn (hn.head_ws _) h3
    simpa [Stmt.text, Stmt.toks] using h4
  | var n v =>
    obtain ⟨hn, hv⟩ := h
    have h1 := LexTo_assign (LexTo_blank (c := ' ') rfl (LexTo_display hv hs hts))
    have h2 := LexTo_ref hn.1 hn.2 (Stop_cons (c := ' ') (by simp) _) (LexTo_blank (c := ' ') rfl h1)
    simpa [Stmt.text, Stmt.toks] using h2

theorem LexTo_line {u : Uni} {F : F64} {l : Line} (h : l.Ok u F) {rest : Text} {ts : List Tok}
    (hr : ∀ c, rest.head? = some c → c = '\n') (hts : LexTo u rest ts) :
    LexTo u (l.text ++ rest) ((l.stmt.elim [] Stmt.toks) ++ ts) := by
  obtain ⟨indent, st, cm⟩ := l
  obtain ⟨hi, hs, hc⟩ := h
  simp only at hi hs hc
  have hR : Stop (commentText cm ++ rest) ∧
      LexTo u (commentText cm ++ rest) ts := by
    cases cm with
    | none => exact ⟨fun c hc => by simp [hr c hc], hts⟩
    | some t =>
      exact ⟨Stop_cons (c := ' ') (by simp) _, LexTo_blank (c := ' ') rfl (LexTo_comment (hc t rfl) hr hts)⟩
  simp only [Line.text, List.append_assoc]
  refine LexTo_blanks hi ?_
  cases st with
  | none => exact hR.2
  | some s => exact LexTo_stmt (hs s rfl) hR.1 hR.2

/-- The tokens of a list of statements. -/
def stmtToks (ss : List Stmt) : List Tok := ss.flatMap Stmt.toks

theorem LexTo_code {u : Uni} {F : F64} {ls : List Line} (h : ∀ l ∈ ls, l.Ok u F) :
    LexTo u (codeText ls) (stmtToks (stmts ls)) := by
  induction ls with
  | nil => exact LexTo_nil u
  | cons l ls ih =>
    have ih := ih fun x hx => h x (by simp [hx])
    have key : ∀ rest, (∀ c, rest.head? = some c → c = '\n') → LexTo u rest (stmtToks (stmts ls)) →
        LexTo u (l.text ++ rest) (stmtToks (stmts (l :: ls))) := by
      intro rest h1 h2
      have := LexTo_line (h l (by simp)) h1 h2
      cases hs : l.stmt with
      | none => simpa [stmts, stmtToks, hs] using this
      | some s => simpa [stmts, stmtToks, hs] using this
    cases ls with
    | nil =>
      have := key [] (by simp) ih
      simpa [codeText, joinText] using this
    | cons m ms =>
      have := key ('\n' :: codeText (m :: ms)) (by simp) (LexTo_newline ih)
      simpa [codeText, joinText_cons] using this

theorem codeText_head {u : Uni} {F : F64} {ls : List Line} (h : ∀ l ∈ ls, l.Ok u F) :
    (codeText ls).head? ≠ some '=' := by
  have hne : ∀ c, u.isRef c = true → c ≠ '=' := by rintro c hc rfl; cases hc
  have name : ∀ n, Name u n → ∀ r, (n ++ r).head? ≠ some '=' := by
    intro n hn r
    obtain ⟨d, r', rfl, hd⟩ := ref_cons hn.1
    simpa using hne d hd
  cases ls with
  | nil => simp [codeText, joinText]
  | cons l ls =>
    obtain ⟨R, hR, hR'⟩ : ∃ R, codeText (l :: ls) = l.text ++ R ∧ R.head? ≠ some '=' := by
      cases ls with
      | nil => exact ⟨[], by simp [codeText, joinText], by simp⟩
      | cons m ms => exact ⟨'\n' :: codeText (m :: ms), by simp [codeText, joinText_cons], by simp⟩
    obtain ⟨indent, st, cm⟩ := l
    obtain ⟨hi, hs, hc⟩ := h ⟨indent, st, cm⟩ (by simp)
    simp only at hi hs
    rw [hR]
    simp only [Line.text, List.append_assoc]
    cases indent with
    | cons c i =>
      have := hi c (by simp)
      simp only [List.cons_append, List.head?_cons, ne_eq, Option.some.injEq]
      rintro rfl; cases this
    | nil =>
      cases st with
      | some s =>
        cases s with
        | use m => simp [stmtText, Stmt.text]
        | fn n ps b => simp [stmtText, Stmt.text]
        | var n v =>
          simp only [stmtText, Stmt.text, List.nil_append, List.append_assoc]
          exact name n (hs _ rfl).1 _
      | none =>
        cases cm with
        | none => simpa [stmtText, commentText] using hR'
        | some t => simp [stmtText, commentText]

/-! ### parsing -/

theorem fnParams_toks (ps : List Text) (s : Text) (r : List Tok) :
    fnParams (paramToks ps ++ ⟨.closeParen, s⟩ :: r) = .ok (ps, r) := by
  induction ps with
  | nil => simp [paramToks, fnParams, Except.map]
  | cons p ps ih =>
    cases ps with
    | nil => simp [paramToks, fnParams, Except.map]
    | cons q qs =>
      simp only [paramToks, List.cons_append, fnParams]
      simp [ih, Except.map]

/-- The statement as the parser reports it. -/
def Stmt.item : Stmt → Item
  | .use m => .use (modulePath m)
  | .fn n ps b => .fn n ps b
  | .var n v => .var n v

theorem parseToks_display {u : Uni} {F : F64} {single : Bool} {a : Ast} (h : Printable u F a) {rest : List Tok}
    (hr : Ends single rest) : parseToks F single (toksOf a ++ rest) = .ok (a, rest) := by
  obtain ⟨n, hn⟩ := Parses.display (single := single) h (bp := 0) (by omega) (.inl hr) (.ends hr)
  exact parseToks_of F single hn

/-- The parser on the tokens of one statement followed by `rest`. -/
theorem parseItems_step {u : Uni} {F : F64} {s : Stmt} (h : s.Ok u F) {rest : List Tok} {n : Nat}
    (hr : (∃ m, s = .use m) ∨ Ends true rest) :
    parseItems F (n + 1) (s.toks ++ rest) =
      match parseItems F n rest with
      | .error e => .error e
      | .ok is => .ok (s.item :: is) := by
  cases s with
  | use m => rfl
  | fn f ps b =>
    have hr : Ends true rest := by simpa using hr
    have hb := parseToks_display h.2.2 hr
    simp only [Stmt.toks, List.cons_append, parseItems, List.append_assoc, fnParams_toks, hb, Stmt.item]
    simp only [ne_eq, not_true_eq_false, if_false]
    rfl
  | var x v =>
    have hr : Ends true rest := by simpa using hr
    have hb := parseToks_display h.2 hr
    simp only [Stmt.toks, List.cons_append, parseItems, hb, Stmt.item]
    simp only [ne_eq, not_true_eq_false, if_false]
    rfl

theorem stmtToks_ends {ss : List Stmt} (h : ∀ m, Stmt.use m ∉ ss) : Ends true (stmtToks ss) := by
  cases ss with
  | nil => trivial
  | cons s ss =>
    cases s with
    | use m => exact absurd (by simp) (h m)
    | fn n ps b => exact .inr (.inr ⟨rfl, .inr rfl⟩)
    | var n v => exact .inr (.inr ⟨rfl, .inl rfl⟩)

theorem toks_pos (s : Stmt) : 0 < s.toks.length := by cases s <;> simp [Stmt.toks]

theorem parseItems_ok {u : Uni} {F : F64} {ss : List Stmt} (h : ∀ s ∈ ss, s.Ok u F) (hu : UsesFirst ss) {n : Nat}
    (hn : (stmtToks ss).length < n) : parseItems F n (stmtToks ss) = .ok (ss.map Stmt.item) := by
  induction ss generalizing n with
  | nil =>
    cases n with
    | zero => omega
    | succ n => rfl
  | cons s ss ih =>
    obtain ⟨n, rfl⟩ : ∃ k, n = k + 1 := ⟨n - 1, by omega⟩
    have hlen : (stmtToks (s :: ss)).length = s.toks.length + (stmtToks ss).length := by simp [stmtToks]
    have hp := toks_pos s
    have hu' : UsesFirst ss := by cases s <;> first | exact hu | exact hu.2
    have hr : (∃ m, s = .use m) ∨ Ends true (stmtToks ss) := by
      cases s with
      | use m => exact .inl ⟨m, rfl⟩
      | fn _ _ _ => exact .inr (stmtToks_ends hu.1)
      | var _ _ => exact .inr (stmtToks_ends hu.1)
    have := parseItems_step (F := F) (h s (by simp)) (rest := stmtToks ss) (n := n) hr
    rw [ih (fun x hx => h x (by simp [hx])) hu' (by omega)] at this
    simpa [stmtToks] using this

theorem loop_use (F : F64) (n bp lhs) (r : List Tok) (s : Text) :
    loop F true (n + 1) bp lhs (⟨.useModule, s⟩ :: r) = .error (.at (.unexpected .useModule) (⟨.useModule, s⟩ :: r)) := by
  rw [loop]; simp

/-- Reading an expression, or going on after an operand, ends in the error for an unexpected `use`. -/
def Fails (F : F64) (bp : Nat) (ts rest : List Tok) : Prop :=
  ∃ n, exprBp F true n bp ts = .error (.at (.unexpected .useModule) rest)
def FailsLoop (F : F64) (bp : Nat) (lhs : Ast) (ts rest : List Tok) : Prop :=
  ∃ n, loop F true n bp lhs ts = .error (.at (.unexpected .useModule) rest)

section
variable {F : F64}

theorem Fails.of {bp ts lhs ts' rest} (h1 : PrimTo F true ts lhs ts') (h2 : FailsLoop F bp lhs ts' rest) : Fails F bp ts rest := by
  obtain ⟨n, h1⟩ := h1
  obtain ⟨m, h2⟩ := h2
  refine ⟨max n m + 1, ?_⟩
  rw [exprBp, prim_mono h1 (by simp) (Nat.le_max_left n m)]
  exact loop_mono h2 (by simp) (Nat.le_max_right n m)

theorem Fails.sign {bp s ts rest} (hs : s = ['+'] ∨ s = ['-']) (h : Fails F 170 ts rest) : Fails F bp (⟨.operator, s⟩ :: ts) rest := by
  obtain ⟨n, h⟩ := h
  have hp : prefixPower s = some 170 := by rcases hs with rfl | rfl <;> rfl
  refine ⟨n + 2, ?_⟩
  have : prim F true (n + 1) (⟨.operator, s⟩ :: ts) = .error (.at (.unexpected .useModule) rest) := by
    rw [prim]; simp [hp, h]
  rw [exprBp, this]

theorem FailsLoop.use {bp lhs s r} : FailsLoop F bp lhs (⟨.useModule, s⟩ :: r) (⟨.useModule, s⟩ :: r) := ⟨1, loop_use F 0 bp lhs r s⟩

theorem FailsLoop.pct {bp lhs a' ts rest} (hbp : bp ≤ 160) (hl : setPercent lhs = some a')
    (h : FailsLoop F bp a' ts rest) : FailsLoop F bp lhs (⟨.operator, ['%']⟩ :: ts) rest := by
  obtain ⟨n, h⟩ := h
  refine ⟨n + 1, ?_⟩
  have hp : postfixPower ['%'] = some 160 := rfl
  rw [loop]
  simp [hp, Nat.not_lt.mpr hbp, hl, h]

theorem FailsLoop.call {bp id ts as r rest} (hbp : bp ≤ 210) (h1 : ArgsTo F true ts as r)
    (h : FailsLoop F bp (.call id as) r rest) : FailsLoop F bp (.ref id) (⟨.openParen, ['(']⟩ :: ts) rest := by
  obtain ⟨n, h1⟩ := h1
  obtain ⟨m, h⟩ := h
  refine ⟨max n m + 1, ?_⟩
  have hp : postfixPower ['('] = some 210 := rfl
  rw [loop]
  simp [hp, Nat.not_lt.mpr hbp, callee, callArgs_mono h1 (by simp) (Nat.le_max_left n m),
    loop_mono h (by simp) (Nat.le_max_right n m)]

theorem ArgsTo.display {u : Uni} {args : List Ast} (h : ∀ a ∈ args, Printable u F a) (rest : List Tok) :
    ArgsTo F true (argToks args ++ ⟨.closeParen, [')']⟩ :: rest) args rest := by
  induction args with
  | nil => exact .close
  | cons a as ih =>
    have hk : ∀ ts t, (toksOf a ++ ts).head? = some t → t.kind ≠ .closeParen ∧ t.kind ≠ .comma := by
      intro ts t ht
      obtain ⟨t', r, he, h1, h2⟩ := toksOf_head (h a (by simp)) ts
      rw [he] at ht; cases ht; exact ⟨h1, h2⟩
    cases as with
    | nil =>
      have hE : Ends true (⟨.closeParen, [')']⟩ :: rest) := .inr (.inl rfl)
      exact .arg (hk _) (Parses.display (h a (by simp)) (by omega) (.inl hE) (.ends hE)) .close
    | cons b bs =>
      have h1 := ih fun x hx => h x (by simp [hx])
      have hE : ∀ l, Ends true (⟨.comma, [',']⟩ :: l) := fun l => .inl rfl
      have := ArgsTo.arg (hk _) (Parses.display (h a (by simp)) (by omega) (.inl (hE _)) (.ends (hE _))) (.comma h1)
      simpa [argToks] using this

theorem Fails.number {t : Tok} {num : Bool → Option Sign → Ast} {pct : Bool} {s : Option Sign}
    (hk : t.kind = .integer ∨ t.kind = .float) (ht : terminal F t = some (num false none))
    (hsign : ∀ p s' s, setSign s (num p s') = some (num p (some s)))
    (hpct : ∀ p s, setPercent (num p s) = some (num true s)) {bp m r} (hbp : bp ≤ 160) :
    Fails F bp (signToks s ++ t :: pctToks pct ++ ⟨.useModule, m⟩ :: r) (⟨.useModule, m⟩ :: r) := by
  have hk' : t.kind = .boolean ∨ t.kind = .dqString ∨ t.kind = .float ∨ t.kind = .integer ∨
      t.kind = .reference := by
    rcases hk with h | h <;> simp [h]
  have hprim : ∀ ts, PrimTo F true (t :: ts) (num false none) ts := fun ts => .terminal hk' ht
  have hloop : ∀ {bp}, bp ≤ 160 → FailsLoop F bp (num false none) (pctToks pct ++ ⟨.useModule, m⟩ :: r) (⟨.useModule, m⟩ :: r) := by
    intro bp hbp
    cases pct with
    | false => exact .use
    | true => exact .pct hbp (hpct _ _) .use
  cases s with
  | none => simpa [signToks] using Fails.of (hprim _) (hloop hbp)
  | some s =>
    have key : ∀ c : Text, c = ['+'] ∨ c = ['-'] →
        Fails F bp (⟨.operator, c⟩ :: t :: (pctToks pct ++ ⟨.useModule, m⟩ :: r)) (⟨.useModule, m⟩ :: r) := by
      intro c hc
      cases pct with
      | false => exact .sign hc (.of (hprim _) .use)
      | true =>
        have h3 : Parses F true 170 (t :: (pctToks true ++ ⟨.useModule, m⟩ :: r)) (num false none)
            (pctToks true ++ ⟨.useModule, m⟩ :: r) :=
          .of (hprim _) ⟨1, by rw [pctToks, if_pos rfl, List.cons_append, loop]; simp [postfixPower]⟩
        exact .of (PrimTo.sign hc h3 (hsign false none _)) (.pct hbp (hpct _ _) .use)
    cases s with
    | positive => simpa [signToks] using key _ (.inl rfl)
    | negative => simpa [signToks] using key _ (.inr rfl)

/-- A printed formula followed by `use` is not read. -/
theorem Fails.display {u : Uni} {a : Ast} (h : Printable u F a) {bp : Nat} (hbp : bp ≤ 150) (m : Text) (r : List Tok) :
    Fails F bp (toksOf a ++ ⟨.useModule, m⟩ :: r) (⟨.useModule, m⟩ :: r) := by
  cases h with
  | @int pct s v hv =>
    simp only [toksOf, intText_nat]
    exact Fails.number (num := fun p s => .int p s v) (.inl rfl)
      (by simp [terminal, parseI64_natText hv]) (fun _ _ _ => rfl) (fun _ _ => rfl) (by omega)
  | @float pct s v hv hF =>
    simp only [toksOf]
    exact Fails.number (num := fun p s => .float p s v) (.inr rfl)
      (by simp [terminal, hF]) (fun _ _ _ => rfl) (fun _ _ => rfl) (by omega)
  | ref hr hf => exact .of (.terminal (by simp) rfl) .use
  | @text t ht => exact .of (lhs := .text t) (.terminal (by simp) (by simp [terminal, textUnquote_plain ht])) .use
  | @call n args hn hf hargs =>
    have := Fails.of (F := F) (.terminal (t := ⟨.reference, n⟩) (by simp) rfl)
      (FailsLoop.call (bp := bp) (by omega) (ArgsTo.display hargs _) (.use (s := m) (r := r)))
    simpa [toksOf] using this
  | @«infix» l op r' hop hl hr =>
    obtain ⟨_, _, h1, h5⟩ := infixOps_power hop
    have hE : ∀ rest, Ends true (⟨.closeParen, [')']⟩ :: rest) := fun _ => .inr (.inl rfl)
    have hR := Parses.display (single := true) hr (bp := 10 * (prec op + 10)) (by omega) (.inl (hE (⟨.useModule, m⟩ :: r)))
      (.ends (hE _))
    have hL := Parses.display (single := true) hl (bp := 0) (by omega) (.inr ⟨op, _, rfl, hop⟩)
      (LoopTo.infix hop (by omega) hR (.ends (hE _)))
    have := Fails.of (bp := bp) (PrimTo.paren (s := ['(']) hL) .use
    simpa [toksOf] using this
end

theorem parseToks_use {u : Uni} {F : F64} {a : Ast} (h : Printable u F a) (m : Text) (r : List Tok) :
    parseToks F true (toksOf a ++ ⟨.useModule, m⟩ :: r) = .error (.at (.unexpected .useModule) (⟨.useModule, m⟩ :: r)) := by
  obtain ⟨n, hn⟩ := Fails.display h (bp := 0) (by omega) m r
  generalize hts : toksOf a ++ ⟨.useModule, m⟩ :: r = ts at hn ⊢
  rcases Nat.le_total n (3 * ts.length + 2) with hle | hle
  · exact exprBp_mono hn (by simp) hle
  · have := exprBp_mono (r := parseToks F true ts) rfl (parseToks_ne_fuel F true ts) hle
    rw [← this, hn]

theorem parseItems_use {u : Uni} {F : F64} {ss : List Stmt} (h : ∀ s ∈ ss, s.Ok u F) (hu : ¬ UsesFirst ss) {n : Nat}
    (hn : (stmtToks ss).length < n) :
    ∃ m r, parseItems F n (stmtToks ss) = .error (.expr (.at (.unexpected .useModule) (⟨.useModule, m⟩ :: r))) := by
  induction ss generalizing n with
  | nil => exact absurd trivial hu
  | cons s ss ih =>
    obtain ⟨n, rfl⟩ : ∃ k, n = k + 1 := ⟨n - 1, by omega⟩
    have hlen : (stmtToks (s :: ss)).length = s.toks.length + (stmtToks ss).length := by simp [stmtToks]
    have hp := toks_pos s
    have hcons : stmtToks (s :: ss) = s.toks ++ stmtToks ss := by simp [stmtToks]
    have hs := h s (by simp)
    have step : ((∃ m, s = .use m) ∨ Ends true (stmtToks ss)) → ¬ UsesFirst ss →
        ∃ m r, parseItems F (n + 1) (stmtToks (s :: ss)) = .error (.expr (.at (.unexpected .useModule) (⟨.useModule, m⟩ :: r))) := by
      intro h1 h2
      have := parseItems_step (F := F) hs (n := n) h1
      obtain ⟨m, r, hmr⟩ := ih (fun x hx => h x (by simp [hx])) h2 (n := n) (by omega)
      rw [hmr] at this
      exact ⟨m, r, by rw [hcons, this]⟩
    -- the next statement is a `use`, or it is not
    by_cases hnext : (∃ m, s = .use m) ∨ Ends true (stmtToks ss)
    · refine step hnext fun h2 => hu ?_
      cases s with
      | use m => exact h2
      | fn f ps b =>
        refine ⟨?_, h2⟩
        have hE : Ends true (stmtToks ss) := by simpa using hnext
        cases ss with
        | nil => simp
        | cons t ss =>
          cases t with
          | use m => simp [stmtToks, Stmt.toks, Ends] at hE
          | fn _ _ _ => intro m hm; simp at hm; exact h2.1 m hm
          | var _ _ => intro m hm; simp at hm; exact h2.1 m hm
      | var x v =>
        refine ⟨?_, h2⟩
        have hE : Ends true (stmtToks ss) := by simpa using hnext
        cases ss with
        | nil => simp
        | cons t ss =>
          cases t with
          | use m => simp [stmtToks, Stmt.toks, Ends] at hE
          | fn _ _ _ => intro m hm; simp at hm; exact h2.1 m hm
          | var _ _ => intro m hm; simp at hm; exact h2.1 m hm
    · push Not at hnext
      obtain ⟨h1, h2⟩ := hnext
      obtain ⟨m, r, hr⟩ : ∃ m r, stmtToks ss = ⟨.useModule, m⟩ :: r := by
        cases ss with
        | nil => exact absurd trivial h2
        | cons t ss =>
          cases t with
          | use m => exact ⟨_, _, rfl⟩
          | fn _ _ _ => exact absurd (.inr (.inr ⟨rfl, .inr rfl⟩)) h2
          | var _ _ => exact absurd (.inr (.inr ⟨rfl, .inl rfl⟩)) h2
      refine ⟨m, r, ?_⟩
      rw [hcons, hr]
      cases s with
      | use m => exact absurd rfl (h1 m)
      | fn f ps b =>
        have hb := parseToks_use hs.2.2 m r
        simp only [Stmt.toks, List.cons_append, parseItems, List.append_assoc, fnParams_toks, hb]
        simp only [ne_eq, not_true_eq_false, if_false]
      | var x v =>
        have hb := parseToks_use hs.2 m r
        simp only [Stmt.toks, List.cons_append, parseItems, hb]
        simp only [ne_eq, not_true_eq_false, if_false]

theorem parseCode_lexed {u : Uni} {F : F64} {ls : List Line} (h : ∀ l ∈ ls, l.Ok u F) :
    parseCode u F (codeText ls) =
      match parseItems F ((stmtToks (stmts ls)).length + 1) (stmtToks (stmts ls)) with
      | .error e => .error e
      | .ok is => .ok (runItems is (Scope.empty, [])) := by
  obtain ⟨e, pts, h1, h2⟩ := lex_of_LexTo' (LexTo_code h) (codeText_head h)
  rw [parseCode, h1]
  simp only [h2]
  have : pts.length = (stmtToks (stmts ls)).length := by rw [← h2]; simp
  rw [this]
  rfl

theorem stmts_ok {u : Uni} {F : F64} {ls : List Line} (h : ∀ l ∈ ls, l.Ok u F) : ∀ s ∈ stmts ls, s.Ok u F := by
  intro s hs
  obtain ⟨l, hl, hs⟩ := List.mem_filterMap.mp hs
  exact (h l hl).2.1 s hs

theorem modulePath_name {u : Uni} {m : Text} (h : Name u m) : modulePath m = [m] := by
  have hc : '/' ∉ m := by
    intro hm
    rcases ref_chars h.1 _ hm with h | h <;> cases h
  rw [modulePath, List.splitOn_eq_splitOnP]
  refine List.splitOnP_eq_singleton ?_
  intro c hc'
  simp
  rintro rfl
  exact hc hc'

theorem getLast?_cons_or {α : Type} (x : α) (l : List α) : (x :: l).getLast? = l.getLast?.or (some x) := by
  induction l generalizing x with
  | nil => rfl
  | cons y l ih => rw [List.getLast?_cons_cons, ih y]; cases l.getLast? <;> rfl

theorem runItems_spec {u : Uni} {F : F64} {ss : List Stmt} (h : ∀ s ∈ ss, s.Ok u F) (sc : Scope) (ms : List (List Text)) :
    (runItems (ss.map Stmt.item) (sc, ms)).2 = ms ++ ss.filterMap Stmt.module? ∧
    (∀ n, (runItems (ss.map Stmt.item) (sc, ms)).1.functions n =
      ((ss.filterMap (Stmt.function? n)).getLast?).or (sc.functions n)) ∧
    (∀ n, (runItems (ss.map Stmt.item) (sc, ms)).1.variables n =
      ((ss.filterMap (Stmt.variable? n)).getLast?).or (sc.variables n)) ∧
    (∀ n, n ∈ (runItems (ss.map Stmt.item) (sc, ms)).1.exports ↔
      (∃ s ∈ ss, s.name? = some n) ∨ n ∈ sc.exports) := by
  induction ss generalizing sc ms with
  | nil => simp [runItems]
  | cons s ss ih =>
    have ih := ih fun x hx => h x (by simp [hx])
    have hs := h s (by simp)
    cases s with
    | use m =>
      have := ih sc (ms ++ [modulePath m])
      simp only [List.map_cons, Stmt.item, runItems]
      refine ⟨?_, ?_, ?_, ?_⟩
      · rw [this.1, modulePath_name hs]; simp [Stmt.module?]
      · intro n; rw [this.2.1]; simp [Stmt.function?]
      · intro n; rw [this.2.2.1]; simp [Stmt.variable?]
      · intro n; rw [this.2.2.2]; simp [Stmt.name?]
    | fn f ps b =>
      have := ih (sc.defineFunction f (.fn f ps b)) ms
      simp only [List.map_cons, Stmt.item, runItems]
      refine ⟨?_, ?_, ?_, ?_⟩
      · rw [this.1]; simp [Stmt.module?, List.filterMap_cons]
      · intro n; rw [this.2.1]
        by_cases hn : f = n
        · subst hn
          simp [Stmt.function?, List.filterMap_cons, Scope.defineFunction, getLast?_cons_or, Option.or_assoc]
        · simp [Stmt.function?, Scope.defineFunction, List.filterMap_cons, hn, Ne.symm hn]
      · intro n; rw [this.2.2.1]; simp [Stmt.variable?, Scope.defineFunction, List.filterMap_cons]
      · intro n; rw [this.2.2.2]; simp [Stmt.name?, Scope.defineFunction, eq_comm, or_left_comm, or_assoc]
    | var x v =>
      have := ih (sc.defineVariable x (.var x v)) ms
      simp only [List.map_cons, Stmt.item, runItems]
      refine ⟨?_, ?_, ?_, ?_⟩
      · rw [this.1]; simp [Stmt.module?, List.filterMap_cons]
      · intro n; rw [this.2.1]; simp [Stmt.function?, Scope.defineVariable, List.filterMap_cons]
      · intro n; rw [this.2.2.1]
        by_cases hn : x = n
        · subst hn
          simp [Stmt.variable?, List.filterMap_cons, Scope.defineVariable, getLast?_cons_or, Option.or_assoc]
        · simp [Stmt.variable?, Scope.defineVariable, List.filterMap_cons, hn, Ne.symm hn]
      · intro n; rw [this.2.2.2]; simp [Stmt.name?, Scope.defineVariable, eq_comm, or_left_comm, or_assoc]

/-! ## C48, C49 -/

/-- C48: a code section of statements one to a line, in which `use` statements come first, requires
exactly the modules named, in order, and defines exactly the functions and variables written, where of
several definitions of a name the last one counts; all defined names are exported.  Comments, blank lines and indentation do not matter. -/
theorem C48_code_section_partial (u : Uni) (F : F64) (ls : List Line) (h : ∀ l ∈ ls, l.Ok u F)
    (hu : UsesFirst (stmts ls)) :
    ∃ sc, parseCode u F (codeText ls) = .ok (sc, (stmts ls).filterMap Stmt.module?) ∧
      (∀ n, sc.functions n = ((stmts ls).filterMap (Stmt.function? n)).getLast?) ∧
      (∀ n, sc.variables n = ((stmts ls).filterMap (Stmt.variable? n)).getLast?) ∧
      (∀ n, n ∈ sc.exports ↔ ∃ s ∈ stmts ls, s.name? = some n) := by
  have hok := stmts_ok h
  have hspec := runItems_spec hok Scope.empty []
  refine ⟨(runItems ((stmts ls).map Stmt.item) (Scope.empty, [])).1, ?_, ?_, ?_, ?_⟩
  · rw [parseCode_lexed h, parseItems_ok hok hu (Nat.lt_succ_self _)]
    have := hspec.1
    simp only [List.nil_append] at this
    rw [← this]
  · intro n; rw [hspec.2.1]; simp [Scope.empty]
  · intro n; rw [hspec.2.2.1]; simp [Scope.empty]
  · intro n; rw [hspec.2.2.2]; simp [Scope.empty]

/-- C49: a code section of well-formed statements is accepted exactly when no `use` statement follows a
definition; otherwise the error is about the `use`. -/
theorem C49_accepted_iff (u : Uni) (F : F64) (ls : List Line) (h : ∀ l ∈ ls, l.Ok u F) :
    ((∃ r, parseCode u F (codeText ls) = .ok r) ↔ UsesFirst (stmts ls)) ∧
    (¬ UsesFirst (stmts ls) →
      ∃ m r, parseCode u F (codeText ls) = .error (.expr (.at (.unexpected .useModule) (⟨.useModule, m⟩ :: r)))) := by
  have hok := stmts_ok h
  have hno : ¬ UsesFirst (stmts ls) →
      ∃ m r, parseCode u F (codeText ls) = .error (.expr (.at (.unexpected .useModule) (⟨.useModule, m⟩ :: r))) := by
    intro hu
    obtain ⟨m, r, hmr⟩ := parseItems_use hok hu (Nat.lt_succ_self _)
    exact ⟨m, r, by rw [parseCode_lexed h, hmr]⟩
  refine ⟨⟨?_, ?_⟩, hno⟩
  · rintro ⟨r, hr⟩
    by_contra hu
    obtain ⟨m, r', hmr⟩ := hno hu
    rw [hmr] at hr; cases hr
  · intro hu
    obtain ⟨sc, hsc, _⟩ := C48_code_section_partial u F ls h hu
    exact ⟨_, hsc⟩

theorem parseCode_of {u : Uni} {F : F64} {p : Text} {ts : List Tok} (h : LexTo u p ts) (hp : p.head? ≠ some '=') :
    parseCode u F p =
      match parseItems F (ts.length + 1) ts with
      | .error e => .error e
      | .ok is => .ok (runItems is (Scope.empty, [])) := by
  obtain ⟨e, pts, h1, h2⟩ := lex_of_LexTo' h hp
  rw [parseCode, h1]
  simp only [h2]
  have : pts.length = ts.length := by rw [← h2]; simp
  rw [this]
  rfl

/-- Why C48 is partial: a definition of a variable whose name begins with `use` (`user := 1`) is read as
a `use` statement, whatever its value, and rejected. -/
theorem C48_violated_use_prefix (u : Uni) (F : F64) (n : Text) (v : Ast) (hn : Name u n) (hv : Printable u F v) :
    parseCode u F ("use".toList ++ n ++ " := ".toList ++ display v) =
      .error (.at .expectedDefinition (⟨.varAssign, ":=".toList⟩ :: toksOf v)) := by
  have h1 := LexTo_assign (LexTo_blank (c := ' ') rfl (LexTo_display hv (rest := []) (by intro c hc; cases hc) (LexTo_nil u)))
  have h2 := LexTo_use (LexTo_ref hn.1 hn.2 (Stop_cons (c := ' ') (by simp) _) (LexTo_blank (c := ' ') rfl h1))
  have h3 : LexTo u ("use".toList ++ n ++ " := ".toList ++ display v) (⟨.useModule, "use".toList⟩ :: ⟨.reference, n⟩ ::
      ⟨.varAssign, ":=".toList⟩ :: toksOf v) := by simpa using h2
  rw [parseCode_of h3 (by simp)]
  rfl

/-- C73 is violated: `use a/b` is rejected for all module names, so a module in a subdirectory cannot be
required. -/
theorem C73_violated (u : Uni) (F : F64) (a b : Text) (ha : Name u a) (hb : Name u b) :
    parseCode u F ("use ".toList ++ a ++ ['/'] ++ b) = .error (.at .expectedDefinition [⟨.operator, ['/']⟩, ⟨.reference, b⟩]) := by
  have h1 := LexTo_ref hb.1 hb.2 (rest := []) (by intro c hc; cases hc) (LexTo_nil u)
  have h2 : LexTo u ('/' :: (b ++ [])) (⟨.operator, ['/']⟩ :: ⟨.reference, b⟩ :: []) :=
    LexTo_char rfl ⟨by decide, by decide⟩ rfl h1
  have h3 := LexTo_use (LexTo_blank (c := ' ') rfl (LexTo_ref ha.1 ha.2 (Stop_cons (c := '/') (by simp) _) h2))
  have h4 : LexTo u ("use ".toList ++ a ++ ['/'] ++ b) (⟨.useModule, "use".toList⟩ :: ⟨.reference, a⟩ ::
      ⟨.operator, ['/']⟩ :: ⟨.reference, b⟩ :: []) := by simpa using h3
  rw [parseCode_of h4 (by simp)]
  rfl

/-- C73, the part that holds: `use a` requires the module `a`. -/
theorem C73_use_partial (u : Uni) (F : F64) (a : Text) (ha : Name u a) :
    parseCode u F ("use ".toList ++ a) = .ok (Scope.empty, [[a]]) := by
  have h1 := LexTo_ref ha.1 ha.2 (rest := []) (by intro c hc; cases hc) (LexTo_nil u)
  have h3 := LexTo_use (LexTo_blank (c := ' ') rfl h1)
  have h4 : LexTo u ("use ".toList ++ a) (⟨.useModule, "use".toList⟩ :: ⟨.reference, a⟩ :: []) := by simpa using h3
  rw [parseCode_of h4 (by simp)]
  have : parseItems F 3 [⟨.useModule, "use".toList⟩, ⟨.reference, a⟩] = .ok [.use (modulePath a)] := rfl
  simp only [List.length_cons, List.length_nil, this, modulePath_name ha]
  rfl

/-! ### the hypotheses are met -/

theorem name_ascii (u : Uni) {n : Text} (h : n ≠ [] ∧ n.all (fun c => c.isLower) = true ∧
    ¬ "true".toList <+: n ∧ ¬ "false".toList <+: n ∧ ¬ "use".toList <+: n ∧ n ≠ "fn".toList) : Name u n := by
  obtain ⟨h1, h2, h3, h4, h5, h6⟩ := h
  have hl : ∀ c ∈ n, c.isLower = true := by simpa using h2
  have hx : ∀ c : Char, c.isLower = true → c.toNat < 128 ∧ c.isDigit = false := by
    intro c hc
    simp only [Char.isLower, Char.isDigit, ge_iff_le, Bool.and_eq_true, decide_eq_true_eq, UInt32.le_iff_toNat_le] at *
    have e1 : (97 : UInt32).toNat = 97 := rfl
    have e2 : (122 : UInt32).toNat = 122 := rfl
    have e3 : (48 : UInt32).toNat = 48 := rfl
    have e4 : (57 : UInt32).toNat = 57 := rfl
    constructor
    · show c.val.toNat < 128
      have := hc.2
      have h122 : ('z' : Char).val.toNat = 122 := rfl
      omega
    · have := hc.1
      have h97 : ('a' : Char).val.toNat = 97 := rfl
      simp only [Bool.and_eq_false_iff, decide_eq_false_iff_not]
      right
      have h57 : ('9' : Char).val.toNat = 57 := rfl
      omega
  refine ⟨⟨⟨n, h1, ?_, .inl rfl⟩, ?_, h3, h4, h5⟩, h6⟩
  · intro c hc
    have := hx c (hl c hc)
    have hal : c.isAlphanum = true := by simp [Char.isAlphanum, Char.isAlpha, hl c hc]
    simp [Uni.isRef, Uni.isW, this.1, hal]
  · intro c hc
    have := hx c (hl c (List.mem_of_mem_head? hc))
    simp [Uni.isD, this.1, this.2]

/-- A code section with a comment, two `use` statements, a function, a variable and its redefinition. -/
def exampleCode : List Line :=
  [⟨[], none, some " settings".toList⟩,
   ⟨[], some (.use "math".toList), none⟩,
   ⟨"  ".toList, some (.use "dates".toList), some " helpers".toList⟩,
   ⟨[], none, none⟩,
   ⟨[], some (.fn "add".toList ["a".toList, "b".toList] (.infix (.ref "a".toList) "+".toList (.ref "b".toList))), none⟩,
   ⟨[], some (.var "x".toList (.int false none 1)), none⟩,
   ⟨[], some (.var "x".toList (.call "add".toList [.int false none 2, .ref "x".toList])), some " again".toList⟩]

theorem exampleCode_ok (u : Uni) (F : F64) : ∀ l ∈ exampleCode, l.Ok u F := by
  have nm : ∀ n ∈ ["math".toList, "dates".toList, "add".toList, "a".toList, "b".toList, "x".toList], Name u n := by
    intro n hn
    simp only [List.mem_cons, List.not_mem_nil, or_false] at hn
    rcases hn with rfl | rfl | rfl | rfl | rfl | rfl <;> exact name_ascii u (by decide)
  have rf : ∀ n, Name u n → Printable u F (.ref n) := fun n h => .ref h.1 h.2
  intro l hl
  simp only [exampleCode, List.mem_cons, List.not_mem_nil, or_false] at hl
  rcases hl with rfl | rfl | rfl | rfl | rfl | rfl | rfl
  · exact ⟨by simp, by simp, by intro t ht; cases ht; decide⟩
  · exact ⟨by simp, by intro s hs; cases hs; exact nm _ (by decide), by simp⟩
  · exact ⟨by intro c hc; simp at hc; subst hc; decide, by intro s hs; cases hs; exact nm _ (by decide),
      by intro t ht; cases ht; decide⟩
  · exact ⟨by simp, by simp, by simp⟩
  · refine ⟨by simp, ?_, by simp⟩
    intro s hs; cases hs
    refine ⟨nm _ (by decide), ?_, .infix (by decide) (rf _ (nm _ (by decide))) (rf _ (nm _ (by decide)))⟩
    intro p hp
    simp only [List.mem_cons, List.not_mem_nil, or_false] at hp
    rcases hp with rfl | rfl <;> exact nm _ (by decide)
  · refine ⟨by simp, ?_, by simp⟩
    intro s hs; cases hs
    exact ⟨nm _ (by decide), .int (v := 1) (by decide)⟩
  · refine ⟨by simp, ?_, by intro t ht; cases ht; decide⟩
    intro s hs; cases hs
    refine ⟨nm _ (by decide), .call (nm _ (by decide)).1 (nm _ (by decide)).2 ?_⟩
    intro a ha
    simp only [List.mem_cons, List.not_mem_nil, or_false] at ha
    rcases ha with rfl | rfl
    · exact .int (v := 2) (by decide)
    · exact rf _ (nm _ (by decide))

/-- The text of the example section is what one expects to write. -/
example : codeText exampleCode =
    (" # settings\nuse math\n  use dates # helpers\n\nfn add(a, b) (a + b)\n" ++
     "x := 1\nx := add(2, x) # again").toList := by decide +kernel

/-- C48 on the example: both modules in order, the function, and the second value of `x`. -/
example (u : Uni) (F : F64) : ∃ sc, parseCode u F (codeText exampleCode) =
      .ok (sc, [["math".toList], ["dates".toList]]) ∧
    sc.variables "x".toList = some (.var "x".toList (.call "add".toList [.int false none 2, .ref "x".toList])) ∧
    sc.functions "x".toList = none := by
  obtain ⟨sc, h1, h2, h3, _⟩ := C48_code_section_partial u F exampleCode (exampleCode_ok u F) (by
    simp [exampleCode, stmts, UsesFirst])
  exact ⟨sc, h1, by rw [h3]; rfl, by rw [h2]; rfl⟩

/-- C49 on the example with the first `use` moved to the end. -/
example (u : Uni) (F : F64) : ∃ m r, parseCode u F (codeText (exampleCode ++ [⟨[], some (.use "math".toList), none⟩])) =
    .error (.expr (.at (.unexpected .useModule) (⟨.useModule, m⟩ :: r))) := by
  refine (C49_accepted_iff u F _ ?_).2 ?_
  · intro l hl
    rcases List.mem_append.mp hl with hl | hl
    · exact exampleCode_ok u F l hl
    · simp only [List.mem_cons, List.not_mem_nil, or_false] at hl
      subst hl
      exact ⟨by simp, by intro s hs; cases hs; exact name_ascii u (by decide), by simp⟩
  · simp [exampleCode, stmts, UsesFirst]

example (u : Uni) (F : F64) : parseCode u F ("user := 1".toList) = .error (.at .expectedDefinition [⟨.varAssign, ":=".toList⟩, ⟨.integer, "1".toList⟩]) :=
  C48_violated_use_prefix u F "r".toList (.int false none 1) (name_ascii u (by decide)) (.int (v := 1) (by decide))

example (u : Uni) (F : F64) : parseCode u F ("use lib/math".toList) = .error (.at .expectedDefinition [⟨.operator, ['/']⟩, ⟨.reference, "math".toList⟩]) :=
  C73_violated u F "lib".toList "math".toList (name_ascii u (by decide)) (name_ascii u (by decide))

end Verif.Parser
