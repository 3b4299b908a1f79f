import Verif.Parser.Print
/-
How the Pratt parser reads the tokens of printed formulas and of operator chains.
-/
namespace Verif.Parser
open Verif.Ast

section
variable (F : F64) (single : Bool)

def Parses (bp : Nat) (ts : List Tok) (a : Ast) (r : List Tok) : Prop := ∃ n, exprBp F single n bp ts = .ok (a, r)
def PrimTo (ts : List Tok) (a : Ast) (r : List Tok) : Prop := ∃ n, prim F single n ts = .ok (a, r)
def LoopTo (bp : Nat) (lhs : Ast) (ts : List Tok) (a : Ast) (r : List Tok) : Prop :=
  ∃ n, loop F single n bp lhs ts = .ok (a, r)
def ArgsTo (ts : List Tok) (as : List Ast) (r : List Tok) : Prop := ∃ n, callArgs F single n ts = .ok (as, r)

variable {F single}

theorem Parses.of {bp ts lhs ts' a r} (h1 : PrimTo F single ts lhs ts') (h2 : LoopTo F single bp lhs ts' a r) :
    Parses F single bp ts a r := by
  obtain ⟨n, h1⟩ := h1
  obtain ⟨m, h2⟩ := h2
  refine ⟨max n m + 1, ?_⟩
  rw [exprBp, prim_mono h1 (by simp) (Nat.le_max_left n m)]
  exact loop_mono h2 (by simp) (Nat.le_max_right n m)

theorem PrimTo.paren {s s' ts a r} (h : Parses F single 0 ts a (⟨.closeParen, s'⟩ :: r)) :
    PrimTo F single (⟨.openParen, s⟩ :: ts) a r := by
  obtain ⟨n, h⟩ := h
  exact ⟨n + 1, by rw [prim]; simp [h]⟩

theorem PrimTo.sign {s ts a a' r} (hs : s = ['+'] ∨ s = ['-']) (h : Parses F single 170 ts a r)
    (ha : setSign (signOf s) a = some a') : PrimTo F single (⟨.operator, s⟩ :: ts) a' r := by
  obtain ⟨n, h⟩ := h
  have hp : prefixPower s = some 170 := by rcases hs with rfl | rfl <;> rfl
  exact ⟨n + 1, by rw [prim]; simp [hp, h, ha]⟩

theorem PrimTo.terminal {t : Tok} {ts : List Tok} {a : Ast} (hk : t.kind = .boolean ∨ t.kind = .dqString ∨ t.kind = .float ∨
    t.kind = .integer ∨ t.kind = .reference) (h : terminal F t = some a) : PrimTo F single (t :: ts) a ts := by
  refine ⟨1, ?_⟩
  rw [prim, if_neg (by rcases hk with h | h | h | h | h <;> simp [h]),
    if_neg (by rcases hk with h | h | h | h | h <;> simp [h]), if_pos hk, h]

theorem LoopTo.pct {bp lhs a' ts a r} (hbp : bp ≤ 160) (hl : setPercent lhs = some a')
    (h : LoopTo F single bp a' ts a r) : LoopTo F single bp lhs (⟨.operator, ['%']⟩ :: ts) a r := by
  obtain ⟨n, h⟩ := h
  refine ⟨n + 1, ?_⟩
  have hp : postfixPower ['%'] = some 160 := rfl
  rw [loop]
  simp [hp, Nat.not_lt.mpr hbp, hl, h]

theorem LoopTo.call {bp id ts as r a r'} (hbp : bp ≤ 210) (h1 : ArgsTo F single ts as r)
    (h : LoopTo F single bp (.call id as) r a r') :
    LoopTo F single bp (.ref id) (⟨.openParen, ['(']⟩ :: ts) a r' := by
  obtain ⟨n, h1⟩ := h1
  obtain ⟨m, h⟩ := h
  refine ⟨max n m + 1, ?_⟩
  have hp : postfixPower ['('] = some 210 := rfl
  rw [loop]
  simp [hp, Nat.not_lt.mpr hbp, callee, callArgs_mono h1 (by simp) (Nat.le_max_left n m),
    loop_mono h (by simp) (Nat.le_max_right n m)]

theorem infixOps_power {op : Text} (h : op ∈ infixOps) :
    postfixPower op = none ∧ infixPower op = some (10 * (prec op + 10) + 1, 10 * (prec op + 10)) ∧
    1 ≤ prec op ∧ prec op ≤ 5 := by
  revert op
  decide

theorem LoopTo.infix {bp lhs op ts rhs r a r'} (hop : op ∈ infixOps) (hbp : bp ≤ 10 * (prec op + 10) + 1)
    (h1 : Parses F single (10 * (prec op + 10)) ts rhs r) (h2 : LoopTo F single bp (.infix lhs op rhs) r a r') :
    LoopTo F single bp lhs (⟨.operator, op⟩ :: ts) a r' := by
  obtain ⟨n, h1⟩ := h1
  obtain ⟨m, h2⟩ := h2
  refine ⟨max n m + 1, ?_⟩
  obtain ⟨hp, hi, _⟩ := infixOps_power hop
  rw [loop]
  simp [hp, hi, Nat.not_lt.mpr hbp, exprBp_mono h1 (by simp) (Nat.le_max_left n m),
    loop_mono h2 (by simp) (Nat.le_max_right n m)]

/-- Tokens that end an expression. -/
def Ends (single : Bool) : List Tok → Prop
  | [] => True
  | t :: _ => t.kind = .comma ∨ t.kind = .closeParen ∨
      (single = true ∧ (t.kind = .reference ∨ t.kind = .fnDef))

/-- Tokens that may follow an operand: the end of the expression or an infix operator. -/
def Brk (single : Bool) (ts : List Tok) : Prop :=
  Ends single ts ∨ ∃ op r, ts = ⟨.operator, op⟩ :: r ∧ op ∈ infixOps

theorem LoopTo.ends {bp lhs ts} (h : Ends single ts) : LoopTo F single bp lhs ts lhs ts := by
  refine ⟨1, ?_⟩
  cases ts with
  | nil => rfl
  | cons t ts =>
    rw [loop]
    rcases h with h | h | h
    · simp [h]
    · simp [h]
    · rw [if_pos h]

theorem LoopTo.brk {bp lhs op ts} (hop : op ∈ infixOps) (h : 10 * (prec op + 10) + 1 < bp) :
    LoopTo F single bp lhs (⟨.operator, op⟩ :: ts) lhs (⟨.operator, op⟩ :: ts) := by
  refine ⟨1, ?_⟩
  obtain ⟨hp, hi, _⟩ := infixOps_power hop
  rw [loop]
  simp [hp, hi, h]

theorem LoopTo.brk170 {lhs ts} (h : Brk single ts) : LoopTo F single 170 lhs ts lhs ts := by
  rcases h with h | ⟨op, r, rfl, hop⟩
  · exact .ends h
  · obtain ⟨_, _, _, h5⟩ := infixOps_power hop
    exact .brk hop (by omega)

theorem ArgsTo.close {s r} : ArgsTo F single (⟨.closeParen, s⟩ :: r) [] r := ⟨1, by rw [callArgs]; simp⟩

theorem ArgsTo.comma {s ts as r} (h : ArgsTo F single ts as r) : ArgsTo F single (⟨.comma, s⟩ :: ts) as r := by
  obtain ⟨n, h⟩ := h
  exact ⟨n + 1, by rw [callArgs]; simp [h]⟩

theorem ArgsTo.arg {ts a r as r'} (hk : ∀ t, ts.head? = some t → t.kind ≠ .closeParen ∧ t.kind ≠ .comma)
    (h1 : Parses F single 0 ts a r) (h2 : ArgsTo F single r as r') : ArgsTo F single ts (a :: as) r' := by
  obtain ⟨n, h1⟩ := h1
  obtain ⟨m, h2⟩ := h2
  refine ⟨max n m + 1, ?_⟩
  have e1 : ts.head?.map (·.kind) ≠ some .closeParen := by
    intro h
    rw [Option.map_eq_some_iff] at h
    obtain ⟨t, ht, hk'⟩ := h
    exact (hk t ht).1 hk'
  have e2 : ts.head?.map (·.kind) ≠ some .comma := by
    intro h
    rw [Option.map_eq_some_iff] at h
    obtain ⟨t, ht, hk'⟩ := h
    exact (hk t ht).2 hk'
  rw [callArgs, if_neg e1, if_neg e2, exprBp_mono h1 (by simp) (Nat.le_max_left n m)]
  simp only [callArgs_mono h2 (by simp) (Nat.le_max_right n m)]

theorem unquoteLoop_plain {t acc : Text} (h : '"' ∉ t) (rest : Text) :
    unquoteLoop true false acc (t ++ rest) = unquoteLoop true false (acc ++ t) rest := by
  induction t generalizing acc with
  | nil => simp
  | cons c t ih =>
    have hc : c ≠ '"' := by rintro rfl; simp at h
    rw [List.cons_append, unquoteLoop]
    simp only [hc, if_false, Bool.false_eq_true]
    rw [ih (by intro h'; exact h (by simp [h']))]
    simp

theorem textUnquote_plain {t : Text} (h : '"' ∉ t) : textUnquote ('"' :: (t ++ ['"'])) = some t := by
  simp only [textUnquote, unquoteLoop]
  simp [unquoteLoop_plain h, unquoteLoop]

theorem toksOf_head {u : Uni} {a : Ast} (h : Printable u F a) (ts : List Tok) :
    ∃ t r, toksOf a ++ ts = t :: r ∧ t.kind ≠ .closeParen ∧ t.kind ≠ .comma := by
  cases h with
  | @int pct s v _ =>
    cases s with
    | none => exact ⟨_, _, rfl, by simp, by simp⟩
    | some s => cases s <;> exact ⟨_, _, rfl, by simp, by simp⟩
  | @float pct s v _ _ =>
    cases s with
    | none => exact ⟨_, _, rfl, by simp, by simp⟩
    | some s => cases s <;> exact ⟨_, _, rfl, by simp, by simp⟩
  | ref _ _ => exact ⟨_, _, rfl, by simp, by simp⟩
  | text _ => exact ⟨_, _, rfl, by simp, by simp⟩
  | call _ _ _ => exact ⟨_, _, rfl, by simp, by simp⟩
  | «infix» _ _ _ => exact ⟨_, _, rfl, by simp, by simp⟩

/-- Reading a number with its sign and percent mark. -/
theorem Parses.number {t : Tok} {num : Bool → Option Sign → Ast} {pct : Bool} {s : Option Sign}
    (hk : t.kind = .integer ∨ t.kind = .float) (ht : terminal F t = some (num false none))
    (hsign : ∀ p s' s, setSign s (num p s') = some (num p (some s)))
    (hpct : ∀ p s, setPercent (num p s) = some (num true s))
    {bp rest b r'} (hbp : bp ≤ 160) (hb : Brk single rest) (h : LoopTo F single bp (num pct s) rest b r') :
    Parses F single bp (signToks s ++ t :: pctToks pct ++ rest) b r' := by
  have hk' : t.kind = .boolean ∨ t.kind = .dqString ∨ t.kind = .float ∨ t.kind = .integer ∨
      t.kind = .reference := by
    rcases hk with h | h <;> simp [h]
  have hprim : ∀ ts, PrimTo F single (t :: ts) (num false none) ts := fun ts => .terminal hk' ht
  have h2 : LoopTo F single bp (num false s) (pctToks pct ++ rest) b r' := by
    cases pct with
    | false => exact h
    | true => exact LoopTo.pct hbp (hpct _ _) h
  have h170 : ∀ lhs, LoopTo F single 170 lhs (pctToks pct ++ rest) lhs (pctToks pct ++ rest) := by
    intro lhs
    cases pct with
    | false => exact .brk170 hb
    | true => exact ⟨1, by rw [pctToks, if_pos rfl, List.cons_append, loop]; simp [postfixPower]⟩
  cases s with
  | none => simpa [signToks] using Parses.of (hprim _) h2
  | some s =>
    have h3 := Parses.of (hprim _) (h170 (num false none))
    cases s with
    | positive =>
      have := Parses.of (PrimTo.sign (s := ['+']) (.inl rfl) h3 (hsign false none .positive)) h2
      simpa [signToks] using this
    | negative =>
      have := Parses.of (PrimTo.sign (s := ['-']) (.inr rfl) h3 (hsign false none .negative)) h2
      simpa [signToks] using this

/-- Reading a printed formula: the parser takes exactly its tokens as one operand. -/
theorem Parses.display {u : Uni} {a : Ast} (h : Printable u F a) :
    ∀ {bp rest b r'}, bp ≤ 150 → Brk single rest → LoopTo F single bp a rest b r' →
      Parses F single bp (toksOf a ++ rest) b r' := by
  induction h with
  | @int pct s v hv =>
    intro bp rest b r' hbp hb h
    simp only [toksOf, intText_nat]
    exact Parses.number (num := fun p s => .int p s v) (.inl rfl)
      (by simp [terminal, parseI64_natText hv]) (fun _ _ _ => rfl) (fun _ _ => rfl) (by omega) hb h
  | @float pct s v hv hF =>
    intro bp rest b r' hbp hb h
    simp only [toksOf]
    exact Parses.number (num := fun p s => .float p s v) (.inr rfl)
      (by simp [terminal, hF]) (fun _ _ _ => rfl) (fun _ _ => rfl) (by omega) hb h
  | ref hr hf =>
    intro bp rest b r' hbp hb h
    exact .of (.terminal (by simp) rfl) h
  | @text t ht =>
    intro bp rest b r' hbp hb h
    exact .of (.terminal (by simp) (by simp [terminal, textUnquote_plain ht])) h
  | @call n args hn hf hargs ih =>
    intro bp rest b r' hbp hb h
    have hA : ArgsTo F single (argToks args ++ ⟨.closeParen, [')']⟩ :: rest) args rest := by
      clear hn hf h
      induction args with
      | nil => exact .close
      | cons a as ih' =>
        have hk : ∀ ts t, (toksOf a ++ ts).head? = some t → t.kind ≠ .closeParen ∧ t.kind ≠ .comma := by
          intro ts t ht
          obtain ⟨t', r, he, h1, h2⟩ := toksOf_head (hargs a (by simp)) ts
          rw [he] at ht; cases ht; exact ⟨h1, h2⟩
        cases as with
        | nil =>
          have hE : Ends single (⟨.closeParen, [')']⟩ :: rest) := .inr (.inl rfl)
          exact .arg (hk _) (ih a (by simp) (by omega) (.inl hE) (.ends hE)) .close
        | cons b bs =>
          have h1 := ih' (fun x hx => hargs x (by simp [hx])) (fun x hx => ih x (by simp [hx]))
          have hE : ∀ l, Ends single (⟨.comma, [',']⟩ :: l) := fun l => .inl rfl
          have := ArgsTo.arg (hk _) (ih a (by simp) (by omega) (.inl (hE _)) (.ends (hE _))) (.comma h1)
          simpa [argToks] using this
    have := Parses.of (F := F) (single := single) (.terminal (t := ⟨.reference, n⟩) (by simp) rfl)
      (LoopTo.call (by omega) hA h)
    simpa [toksOf] using this
  | @«infix» l op r hop hl hr ihl ihr =>
    intro bp rest b r' hbp hb h
    obtain ⟨_, _, h1, h5⟩ := infixOps_power hop
    have hE : Ends single (⟨.closeParen, [')']⟩ :: rest) := .inr (.inl rfl)
    have hR := ihr (bp := 10 * (prec op + 10)) (by omega) (.inl hE) (.ends hE)
    have hL := ihl (bp := 0) (by omega) (.inr ⟨op, _, rfl, hop⟩)
      (LoopTo.infix hop (by omega) hR (.ends hE))
    have := Parses.of (PrimTo.paren (s := ['(']) hL) h
    simpa [toksOf] using this

/-! ### chains -/

/-- The tokens of a chain. -/
def chainToks (a : Ast) (rest : List (Text × Ast)) : List Tok :=
  toksOf a ++ rest.flatMap fun p => ⟨.operator, p.1⟩ :: toksOf p.2

theorem Tree.chainToks_node (l : Tree) (op : Text) (r : Tree) :
    chainToks (Tree.node l op r).first (Tree.node l op r).rest =
      chainToks l.first l.rest ++ ⟨.operator, op⟩ :: chainToks r.first r.rest := by
  simp [chainToks, Tree.first, Tree.rest]

/-- What follows a grouped chain: the end, or an operator of lower precedence than its root. -/
def Tree.Follows (single : Bool) (t : Tree) (rest : List Tok) : Prop :=
  Ends single rest ∨ ∃ op r, rest = ⟨.operator, op⟩ :: r ∧ op ∈ infixOps ∧ t.rootOp (fun o => prec op < prec o)

theorem Parses.tree {u : Uni} : ∀ (t : Tree), GroupedRight t → Tree.Ok u F t → ∀ {bp rest b r'},
    bp ≤ 150 → t.rootOp (fun o => bp ≤ 10 * (prec o + 10) + 1) → t.Follows single rest →
    LoopTo F single bp t.toAst rest b r' → Parses F single bp (chainToks t.first t.rest ++ rest) b r' := by
  intro t
  induction t with
  | leaf a =>
    intro _ hok bp rest b r' hbp _ hf h
    have : chainToks (Tree.leaf a).first (Tree.leaf a).rest = toksOf a := by
      simp [chainToks, Tree.first, Tree.rest]
    rw [this]
    refine Parses.display hok hbp ?_ h
    rcases hf with hf | ⟨op, r, rfl, hop, _⟩
    · exact .inl hf
    · exact .inr ⟨op, r, rfl, hop⟩
  | node l op r ihl ihr =>
    intro hg hok bp rest b r' hbp hroot hf h
    obtain ⟨hgl, hgr, hpl, hpr⟩ := hg
    obtain ⟨hol, hop, hor⟩ := hok
    obtain ⟨_, _, h1, h5⟩ := infixOps_power hop
    have hroot' : bp ≤ 10 * (prec op + 10) + 1 := hroot
    rw [Tree.chainToks_node, List.append_assoc, List.cons_append]
    -- the right operand
    have hfr : r.Follows single rest := by
      rcases hf with hf | ⟨op', r'', rfl, hop', hlt⟩
      · exact .inl hf
      · refine .inr ⟨op', r'', rfl, hop', ?_⟩
        have hlt' : prec op' < prec op := hlt
        cases r with
        | leaf _ => trivial
        | node _ o _ =>
          have : prec op ≤ prec o := hpr
          show prec op' < prec o
          omega
    have hstop : LoopTo F single (10 * (prec op + 10)) r.toAst rest r.toAst rest := by
      rcases hf with hf | ⟨op', r'', rfl, hop', hlt⟩
      · exact .ends hf
      · have hlt' : prec op' < prec op := hlt
        exact .brk hop' (by omega)
    have hR := ihr hgr hor (bp := 10 * (prec op + 10)) (by omega)
      (by cases r with
          | leaf _ => trivial
          | node _ o _ => have : prec op ≤ prec o := hpr
                          show _ ≤ 10 * (prec o + 10) + 1
                          omega) hfr hstop
    refine ihl hgl hol hbp ?_ (.inr ⟨op, _, rfl, hop, hpl⟩) (.infix hop hroot' hR h)
    cases l with
    | leaf _ => trivial
    | node _ o _ =>
      have : prec op < prec o := hpl
      show bp ≤ 10 * (prec o + 10) + 1
      omega
end
end Verif.Parser
