import Verif.Parser.Result
/-
C12-C15: printing and parsing formulas.
-/
namespace Verif.Parser
open Verif.Ast

/-- No non-ASCII letters or digits: a table for the examples. -/
def asciiOnly : Uni := ⟨fun _ => false, fun _ => false, by simp, by simp⟩

/-- A float reading for the examples: decimal texts are already in shortest form. -/
def idF : F64 := some

/-! ## C12 -/

/-- C12 for formulas given as trees: the printed form of a printable formula parses to the same formula. -/
theorem C12_display_parses (u : Uni) (F : F64) (a : Ast) (h : Printable u F a) :
    parse u F (displayFormula a) = .ok a := by
  have h1 : LexTo u (display a) (toksOf a) := by
    have := LexTo_display h (rest := []) (ts := []) (by intro c hc; cases hc) (LexTo_nil u)
    simpa using this
  have h2 : Parses F false 0 (toksOf a) a [] := by
    have := Parses.display (F := F) (single := false) h (bp := 0) (rest := []) (by omega) (.inl trivial)
      (.ends trivial)
    simpa using this
  exact parse_of h1 h2

/-- C12 (partial: formulas without booleans, texts with quotes, floats printed without a point and the
name `fn`): whatever text a formula was parsed from, its printed form parses to the same formula. -/
theorem C12_roundtrip_partial (u : Uni) (F : F64) (input : Text) (a : Ast) (h : parse u F input = .ok a)
    (hf : ¬ Unfaithful F a) : parse u F (displayFormula a) = .ok a := by
  obtain ⟨ts, r, hts, hp, _⟩ := parse_some h
  exact C12_display_parses u F a (((parsed F false u _).1 _ _ _ _ hts hp).printable F hf)

/-- Hence printing and parsing again changes nothing more: the second printed form is the first. -/
theorem C12_stable_partial (u : Uni) (F : F64) (input : Text) (a b : Ast) (h : parse u F input = .ok a)
    (hf : ¬ Unfaithful F a) (h2 : parse u F (displayFormula a) = .ok b) : displayFormula b = displayFormula a := by
  rw [C12_roundtrip_partial u F input a h hf] at h2
  cases h2; rfl

/-- A formula is parsed by lexing it and parsing the tokens. -/
theorem parse_lexed {u : Uni} {F : F64} {input : Text} {pts : List PTok} {e : Nat × Nat} {ts : List Tok} {a : Ast}
    {r : List Tok} (h : lex u input = .ok (pts, e)) 
    (ht : pts.map (·.tok) = ts) (hp : parseToks F false ts = .ok (a, r)) :
    parse u F input = .ok a := by
  subst ht; simp only [parse, h, hp]
theorem parse_lexed_err {u : Uni} {F : F64} {input : Text} {pts : List PTok} {e : Nat × Nat} {ts : List Tok} {a : PErr}
    (h : lex u input = .ok (pts, e)) 
    (ht : pts.map (·.tok) = ts) (hp : parseToks F false ts = .error a) :
    parse u F input = .error a := by
  subst ht; simp only [parse, h, hp]

/-- C12 fails for booleans: `=true` prints as `=TRUE`, which is read as a reference. -/
theorem C12_violated_boolean (u : Uni) (F : F64) :
    parse u F "=true".toList = .ok (.bool true) ∧
    parse u F (displayFormula (.bool true)) = .ok (.ref "TRUE".toList) := ⟨rfl, rfl⟩

/-- C12 fails for floats without a fractional part: `=2.0` prints as `=2`, which is read as an integer. -/
theorem C12_violated_float (u : Uni) (F : F64) (hF : F "2.0".toList = some "2".toList) :
    parse u F "=2.0".toList = .ok (.float false none "2".toList) ∧
    parse u F (displayFormula (.float false none "2".toList)) = .ok (.int false none 2) := by
  refine ⟨?_, rfl⟩
  have : terminal F ⟨.float, "2.0".toList⟩ = some (.float false none "2".toList) := by
    simp only [terminal, hF, Option.map_some]
  have h2 : LexTo u "2.0".toList [⟨.float, "2.0".toList⟩] := by
    have := LexTo_float (u := u) (v := "2.0".toList) (rest := []) (ts := [])
      ⟨['2'], ['0'], by decide, by decide, by decide, rfl⟩ (by intro c hc; cases hc) (LexTo_nil u)
    exact this
  exact parse_of h2 (.of (.terminal (by simp) this) (.ends trivial))

/-- C12 fails for the name `fn`: `=fn+1` prints as `=(fn + 1)`, which is rejected. -/
theorem C12_violated_fn (u : Uni) (F : F64) :
    parse u F "=fn+1".toList = .ok (.infix (.ref "fn".toList) "+".toList (.int false none 1)) ∧
    parse u F (displayFormula (.infix (.ref "fn".toList) "+".toList (.int false none 1))) =
      .error (.at .expectedExpr [⟨.fnDef, "fn".toList⟩, ⟨.operator, "+".toList⟩, ⟨.integer, "1".toList⟩, ⟨.closeParen, ")".toList⟩]) := by
  refine ⟨parse_lexed (ts := [⟨.reference, "fn".toList⟩, ⟨.operator, "+".toList⟩, ⟨.integer, "1".toList⟩])
    (e := _) rfl rfl rfl, ?_⟩
  have : displayFormula (.infix (.ref "fn".toList) "+".toList (.int false none 1)) = "=(fn + 1)".toList := rfl
  rw [this]
  exact parse_lexed_err (ts := [⟨.openParen, "(".toList⟩, ⟨.fnDef, "fn".toList⟩, ⟨.operator, "+".toList⟩,
    ⟨.integer, "1".toList⟩, ⟨.closeParen, ")".toList⟩]) (e := _) rfl rfl rfl

example : parse asciiOnly idF "=SUM(A1:B2, -2.5%) * rate".toList =
    .ok (.infix (.call "SUM".toList [.ref "A1:B2".toList, .float true (some .negative) "2.5".toList])
      "*".toList (.ref "rate".toList)) :=
  parse_lexed (e := _) (ts := [⟨.reference, "SUM".toList⟩, ⟨.openParen, "(".toList⟩, ⟨.reference, "A1:B2".toList⟩,
    ⟨.comma, ",".toList⟩, ⟨.operator, "-".toList⟩, ⟨.float, "2.5".toList⟩, ⟨.operator, "%".toList⟩,
    ⟨.closeParen, ")".toList⟩, ⟨.operator, "*".toList⟩, ⟨.reference, "rate".toList⟩]) rfl rfl rfl
example : ¬ Unfaithful idF (.infix (.call "SUM".toList [.ref "A1:B2".toList, .float true (some .negative) "2.5".toList])
      "*".toList (.ref "rate".toList)) := by
  simp only [Unfaithful, UnfaithfulL, not_or, Classical.not_not, or_false]
  exact ⟨⟨by decide, by decide, ⟨['2'], ['5'], by decide, by decide, by decide, rfl⟩, rfl⟩, by decide⟩

/-! ## C13 -/

theorem LexTo_chain {u : Uni} {F : F64} {a : Ast} (ha : Printable u F a) (rest : List (Text × Ast))
    (hr : ∀ p ∈ rest, p.1 ∈ infixOps ∧ Printable u F p.2) : LexTo u (chainText a rest) (chainToks a rest) := by
  induction rest generalizing a with
  | nil =>
    have := LexTo_display ha (rest := []) (ts := []) (by intro c hc; cases hc) (LexTo_nil u)
    simpa [chainText, chainToks] using this
  | cons p rest ih =>
    obtain ⟨hop, hp⟩ := hr p (by simp)
    have h1 := ih hp (fun q hq => hr q (by simp [hq]))
    have h2 := LexTo_op hop (LexTo_blank rfl h1)
    have h3 := LexTo_display ha (Stop_cons (c := ' ') (by simp) _) (LexTo_blank rfl h2)
    simpa [chainText, chainToks] using h3

theorem Tree.ok_chain {u : Uni} {F : F64} {t : Tree} (h : t.Ok u F) :
    Printable u F t.first ∧ ∀ p ∈ t.rest, p.1 ∈ infixOps ∧ Printable u F p.2 := by
  induction t with
  | leaf a => exact ⟨h, by simp [Tree.rest]⟩
  | node l op r ihl ihr =>
    obtain ⟨hl, hop, hr⟩ := h
    refine ⟨(ihl hl).1, fun p hp => ?_⟩
    simp only [Tree.rest, List.mem_append, List.mem_cons] at hp
    rcases hp with hp | rfl | hp
    · exact (ihl hl).2 p hp
    · exact ⟨hop, (ihr hr).1⟩
    · exact (ihr hr).2 p hp

theorem Tree.ok_of_chain {u : Uni} {F : F64} {t : Tree} (h : Printable u F t.first ∧
    ∀ p ∈ t.rest, p.1 ∈ infixOps ∧ Printable u F p.2) : t.Ok u F := by
  induction t with
  | leaf a => exact h.1
  | node l op r ihl ihr =>
    obtain ⟨h1, h2⟩ := h
    simp only [Tree.rest, List.mem_append, List.mem_cons] at h2
    have h3 := h2 (op, r.first) (.inr (.inl rfl))
    exact ⟨ihl ⟨h1, fun p hp => h2 p (.inl hp)⟩, h3.1, ihr ⟨h3.2, fun p hp => h2 p (.inr (.inr hp))⟩⟩

/-- C13, what the code does: a chain is grouped by precedence with equal precedence to the right. -/
theorem C13_groups_right (u : Uni) (F : F64) (t : Tree) (hg : GroupedRight t) (hok : t.Ok u F) :
    parse u F ('=' :: chainText t.first t.rest) = .ok t.toAst := by
  have h1 := LexTo_chain (Tree.ok_chain hok).1 t.rest (Tree.ok_chain hok).2
  refine parse_of h1 (r := []) ?_
  have := Parses.tree (F := F) (single := false) (u := u) t hg hok (bp := 0) (rest := []) (by omega)
    (by cases t with
        | leaf _ => trivial
        | node _ _ _ => exact Nat.zero_le _) (.inl trivial) (.ends trivial)
  simpa using this

/-- Put an operand and operator in front of a grouped chain. -/
def Tree.push (a : Ast) (op : Text) : Tree → Tree
  | .leaf b => .node (.leaf a) op (.leaf b)
  | .node l o r => if prec op ≤ prec o then .node (.leaf a) op (.node l o r) else .node (Tree.push a op l) o r

theorem Tree.push_chain (a : Ast) (op : Text) (t : Tree) :
    (t.push a op).first = a ∧ (t.push a op).rest = (op, t.first) :: t.rest := by
  induction t with
  | leaf b => exact ⟨rfl, rfl⟩
  | node l o r ih _ =>
    rw [Tree.push]
    split
    · exact ⟨rfl, rfl⟩
    · simp [Tree.first, Tree.rest, ih]

theorem Tree.push_grouped (a : Ast) (op : Text) (t : Tree) (h : GroupedRight t) : GroupedRight (t.push a op) := by
  induction t with
  | leaf b => exact ⟨trivial, trivial, trivial, trivial⟩
  | node l o r ih _ =>
    rw [Tree.push]
    split
    · rename_i hle
      exact ⟨trivial, h, trivial, hle⟩
    · rename_i hlt
      refine ⟨ih h.1, h.2.1, ?_, h.2.2.2⟩
      cases l with
      | leaf b => exact Nat.lt_of_not_le hlt
      | node l' o' r' =>
        rw [Tree.push]
        split
        · exact Nat.lt_of_not_le hlt
        · exact h.2.2.1

theorem GroupedRight.all_ge {t : Tree} (h : GroupedRight t) {n : Nat} (hr : t.rootOp (fun o => n ≤ prec o)) :
    ∀ p ∈ t.rest, n ≤ prec p.1 := by
  induction t with
  | leaf a => simp [Tree.rest]
  | node l op r ihl ihr =>
    intro p hp
    have hop : n ≤ prec op := hr
    obtain ⟨hl, hr', hpl, hpr⟩ := h
    simp only [Tree.rest, List.mem_append, List.mem_cons] at hp
    rcases hp with hp | rfl | hp
    · refine ihl hl ?_ p hp
      cases l with
      | leaf _ => trivial
      | node _ o _ => have : prec op < prec o := hpl; show n ≤ prec o; omega
    · exact hop
    · refine ihr hr' ?_ p hp
      cases r with
      | leaf _ => trivial
      | node _ o _ => have : prec op ≤ prec o := hpr; show n ≤ prec o; omega

theorem GroupedRight.unique {t t' : Tree} (h : GroupedRight t) (h' : GroupedRight t')
    (hf : t.first = t'.first) (hr : t.rest = t'.rest) : t = t' := by
  induction t generalizing t' with
  | leaf a =>
    cases t' with
    | leaf b => simp only [Tree.first] at hf; rw [hf]
    | node l o r => simp [Tree.rest] at hr
  | node l op r ihl ihr =>
    cases t' with
    | leaf b => simp [Tree.rest] at hr
    | node l' op' r' =>
      simp only [Tree.first] at hf
      simp only [Tree.rest] at hr
      obtain ⟨hl, hrr, hpl, hpr⟩ := h
      obtain ⟨hl', hrr', hpl', hpr'⟩ := h'
      have lge : ∀ p ∈ l.rest, prec op + 1 ≤ prec p.1 := hl.all_ge (by
        cases l with
        | leaf _ => trivial
        | node _ o _ => exact hpl)
      have lge' : ∀ p ∈ l'.rest, prec op' + 1 ≤ prec p.1 := hl'.all_ge (by
        cases l' with
        | leaf _ => trivial
        | node _ o _ => exact hpl')
      have rge : ∀ p ∈ r.rest, prec op ≤ prec p.1 := hrr.all_ge hpr
      have rge' : ∀ p ∈ r'.rest, prec op' ≤ prec p.1 := hrr'.all_ge hpr'
      rcases List.append_eq_append_iff.mp hr with ⟨w, h1, h2⟩ | ⟨w, h1, h2⟩
      · cases w with
        | nil =>
          simp at h1 h2
          obtain ⟨⟨rfl, hfr⟩, hrr2⟩ := h2
          rw [ihl hl hl' hf h1.symm, ihr hrr hrr' hfr hrr2]
        | cons p w =>
          simp only [List.cons_append, List.cons.injEq] at h2
          have e1 := lge' p (by rw [h1]; simp)
          have e2 := rge (op', r'.first) (by rw [h2.2]; simp)
          rw [← h2.1] at e1
          simp only at e1 e2
          omega
      · cases w with
        | nil =>
          simp at h1 h2
          obtain ⟨⟨rfl, hfr⟩, hrr2⟩ := h2
          rw [ihl hl hl' hf h1, ihr hrr hrr' hfr.symm hrr2.symm]
        | cons p w =>
          simp only [List.cons_append, List.cons.injEq] at h2
          have e1 := lge p (by rw [h1]; simp)
          have e2 := rge' (op, r.first) (by rw [h2.2]; simp)
          rw [← h2.1] at e1
          simp only at e1 e2
          omega

/-- C13: for every chain there is exactly one grouping of this kind, so `C13_groups_right` says what
every chain of operators parses to. -/
theorem C13_grouping_unique (a : Ast) (rest : List (Text × Ast)) :
    ∃ t, (GroupedRight t ∧ t.first = a ∧ t.rest = rest) ∧
      ∀ t', GroupedRight t' → t'.first = a → t'.rest = rest → t' = t := by
  have hex : ∃ t, GroupedRight t ∧ t.first = a ∧ t.rest = rest := by
    induction rest generalizing a with
    | nil => exact ⟨.leaf a, trivial, rfl, rfl⟩
    | cons p rest ih =>
      obtain ⟨t, hg, hf, hr⟩ := ih p.2
      refine ⟨t.push a p.1, t.push_grouped a p.1 hg, (t.push_chain a p.1).1, ?_⟩
      rw [(t.push_chain a p.1).2, hf, hr]
  obtain ⟨t, hg, hf, hr⟩ := hex
  exact ⟨t, ⟨hg, hf, hr⟩, fun t' hg' hf' hr' => hg'.unique hg (hf'.trans hf.symm) (hr'.trans hr.symm)⟩

theorem GroupedLeft.right {t : Tree} (h : GroupedLeft t) (hn : NoLeftRun t) : GroupedRight t := by
  induction t with
  | leaf => trivial
  | node l op r ihl ihr =>
    obtain ⟨h1, h2, h3, h4⟩ := h
    obtain ⟨n1, n2, n3⟩ := hn
    refine ⟨ihl h1 n1, ihr h2 n2, ?_, ?_⟩
    · cases l with
      | leaf => trivial
      | node => exact Nat.lt_of_le_of_ne h3 (Ne.symm n3)
    · cases r with
      | leaf => trivial
      | node => exact Nat.le_of_lt h4

theorem GroupedRight.noLeftRun {t : Tree} (h : GroupedRight t) : NoLeftRun t := by
  induction t with
  | leaf => trivial
  | node l op r ihl ihr =>
    obtain ⟨h1, h2, h3, h4⟩ := h
    refine ⟨ihl h1, ihr h2, ?_⟩
    cases l with
    | leaf => trivial
    | node => exact Ne.symm (Nat.ne_of_lt h3)

theorem Tree.first_size (t : Tree) : sizeOf t.first ≤ sizeOf t.toAst := by
  induction t with
  | leaf => exact Nat.le_refl _
  | node l op r ihl _ =>
    simp only [Tree.first, Tree.toAst, Ast.infix.sizeOf_spec]
    omega

/-- A grouping is determined by the chain and the formula it denotes. -/
theorem Tree.toAst_inj {t t' : Tree} (hf : t.first = t'.first) {X Y : List (Text × Ast)}
    (hr : t.rest ++ X = t'.rest ++ Y) (ha : t.toAst = t'.toAst) : t = t' := by
  induction t generalizing t' X Y with
  | leaf a =>
    cases t' with
    | leaf b => exact congrArg Tree.leaf ha
    | node l op r =>
      have h1 := l.first_size
      have h2 := congrArg sizeOf (hf.symm.trans ha)
      simp only [Tree.first, Tree.toAst, Ast.infix.sizeOf_spec] at h2
      omega
  | node l op r ihl ihr =>
    cases t' with
    | leaf b =>
      have h1 := l.first_size
      have h2 := congrArg sizeOf (hf.trans ha.symm)
      simp only [Tree.first, Tree.toAst, Ast.infix.sizeOf_spec] at h2
      omega
    | node l' op' r' =>
      simp only [Tree.toAst, Ast.infix.injEq] at ha
      obtain ⟨a1, rfl, a2⟩ := ha
      simp only [Tree.rest, List.append_assoc, List.cons_append] at hr
      obtain rfl := ihl (t' := l') hf hr a1
      have h2 := List.append_cancel_left hr
      simp only [List.cons.injEq, Prod.mk.injEq, true_and] at h2
      obtain rfl := ihr (t' := r') h2.1 h2.2 a2
      rfl

/-- C13, exactly when the code groups as spreadsheets do: a chain parses to its conventional grouping if
and only if no two operators of equal precedence meet in it. -/
theorem C13_conventional_iff (u : Uni) (F : F64) (t : Tree) (hg : GroupedLeft t) (hok : t.Ok u F) :
    parse u F ('=' :: chainText t.first t.rest) = .ok t.toAst ↔ NoLeftRun t := by
  constructor
  · intro h
    obtain ⟨t', ⟨hg', hf', hr'⟩, _⟩ := C13_grouping_unique t.first t.rest
    have hc := Tree.ok_chain hok
    have h' := C13_groups_right u F t' hg' (Tree.ok_of_chain (by rw [hf', hr']; exact hc))
    rw [hf', hr', h] at h'
    have : t.toAst = t'.toAst := Except.ok.inj h'
    rw [Tree.toAst_inj hf'.symm (X := []) (Y := []) (by rw [hr']) this]
    exact hg'.noLeftRun
  · intro h
    exact C13_groups_right u F t (hg.right h) hok

/-- C13 (partial: chains in which no two operators of equal precedence meet): the chain parses to its
conventional grouping. -/
theorem C13_conventional_partial (u : Uni) (F : F64) (t : Tree) (hg : GroupedLeft t) (hok : t.Ok u F)
    (hn : NoLeftRun t) : parse u F ('=' :: chainText t.first t.rest) = .ok t.toAst :=
  (C13_conventional_iff u F t hg hok).2 hn

/-- C13 fails: `=10 - 2 - 3` parses to `10 - (2 - 3)`, not to the conventional `(10 - 2) - 3`. -/
theorem C13_violated (u : Uni) (F : F64) :
    let n (v : Nat) : Tree := .leaf (.int false none v)
    let t : Tree := .node (.node (n 10) "-".toList (n 2)) "-".toList (n 3)
    GroupedLeft t ∧ t.Ok u F ∧ chainText t.first t.rest = "10 - 2 - 3".toList ∧
    parse u F "=10 - 2 - 3".toList =
      .ok (.infix (.int false none 10) "-".toList (.infix (.int false none 2) "-".toList (.int false none 3))) := by
  have hi : ∀ v : Nat, v < 2 ^ 63 → Printable u F (.int false none v) := fun v hv => .int hv
  refine ⟨⟨⟨trivial, trivial, trivial, trivial⟩, trivial, Nat.le_refl _, trivial⟩,
    ⟨⟨hi 10 (by decide), by decide, hi 2 (by decide)⟩, by decide, hi 3 (by decide)⟩, rfl, ?_⟩
  exact C13_groups_right u F (.node (.leaf (.int false none (10 : Nat))) "-".toList
    (.node (.leaf (.int false none (2 : Nat))) "-".toList (.leaf (.int false none (3 : Nat)))))
    ⟨trivial, ⟨trivial, trivial, trivial, trivial⟩, trivial, Nat.le_refl _⟩
    ⟨hi 10 (by decide), by decide, hi 2 (by decide), by decide, hi 3 (by decide)⟩

example : parse asciiOnly idF "=1 + a * b ^ 2 & c".toList =
    .ok (.infix (.infix (.int false none 1) "+".toList (.infix (.ref "a".toList) "*".toList
      (.infix (.ref "b".toList) "^".toList (.int false none 2)))) "&".toList (.ref "c".toList)) :=
  parse_lexed (e := _) (ts := [⟨.integer, "1".toList⟩, ⟨.operator, "+".toList⟩, ⟨.reference, "a".toList⟩,
    ⟨.operator, "*".toList⟩, ⟨.reference, "b".toList⟩, ⟨.operator, "^".toList⟩, ⟨.integer, "2".toList⟩,
    ⟨.operator, "&".toList⟩, ⟨.reference, "c".toList⟩]) rfl rfl rfl

/-! ## C14 -/

/-- C14, what the code does: the parser uses a prefix of the tokens, whose operands are exactly the
operands of the result in order; it ignores the rest, which is empty or starts with `)` or `,`. -/
theorem C14_prefix (u : Uni) (F : F64) (input : Text) (a : Ast) (h : parse u F input = .ok a) :
    ∃ pts e used rest, lex u input = .ok (pts, e) ∧ pts.map (·.tok) = used ++ rest ∧
      tokenOperands F used = operands a ∧
      (rest = [] ∨ ∃ t r, rest = t :: r ∧ (t.kind = .comma ∨ t.kind = .closeParen)) := by
  obtain ⟨ts, r, hts, hp, pts, e, hl, rfl⟩ := parse_some h
  obtain ⟨us, h1, h2⟩ := (used F false _).1 _ _ _ _ hp
  refine ⟨pts, e, us, r, hl, h1, h2, ?_⟩
  have := exprBp_ends F false hts hp
  cases r with
  | nil => exact .inl rfl
  | cons t r =>
    rcases this with h | h | h
    · exact .inr ⟨t, r, rfl, .inl h⟩
    · exact .inr ⟨t, r, rfl, .inr h⟩
    · cases h.1

/-- C14 (partial: no `)` or `,` outside parentheses is left over — here: the formula has none at all):
a formula without parentheses and commas is accepted only if every operand is in the result. -/
theorem C14_complete_partial (u : Uni) (F : F64) (input : Text) (a : Ast) (pts : List PTok) (e : Nat × Nat)
    (h : parse u F input = .ok a) (hl : lex u input = .ok (pts, e))
    (hno : ∀ t ∈ pts, t.tok.kind ≠ .comma ∧ t.tok.kind ≠ .closeParen) :
    tokenOperands F (pts.map (·.tok)) = operands a := by
  obtain ⟨pts', e', us, rest, hl', h1, h2, h3⟩ := C14_prefix u F input a h
  rw [hl] at hl'; cases hl'
  rcases h3 with rfl | ⟨t, r, rfl, hk⟩
  · rw [h1, List.append_nil, h2]
  · have : t ∈ pts.map (·.tok) := by rw [h1]; simp
    rw [List.mem_map] at this
    obtain ⟨pt, hpt, rfl⟩ := this
    rcases hk with hk | hk
    · exact absurd hk (hno pt hpt).1
    · exact absurd hk (hno pt hpt).2

/-- C14 fails: `=1) + x` is accepted as `1`; everything after the first operand is dropped. -/
theorem C14_violated (u : Uni) (F : F64) : parse u F "=1) + x".toList = .ok (.int false none 1) ∧
    parse u F "=1, 2, 3".toList = .ok (.int false none 1) :=
  ⟨parse_lexed (e := _) (ts := [⟨.integer, "1".toList⟩, ⟨.closeParen, ")".toList⟩, ⟨.operator, "+".toList⟩,
      ⟨.reference, "x".toList⟩]) rfl rfl rfl,
   parse_lexed (e := _) (ts := [⟨.integer, "1".toList⟩, ⟨.comma, ",".toList⟩, ⟨.integer, "2".toList⟩,
      ⟨.comma, ",".toList⟩, ⟨.integer, "3".toList⟩]) rfl rfl rfl⟩

/-- Doubled prefix signs lose a sign: `=--1` is `-1`. -/
theorem C14_sign_overwritten (u : Uni) (F : F64) :
    parse u F "=--1".toList = .ok (.int false (some .negative) 1) :=
  parse_lexed (e := _) (ts := [⟨.operator, "-".toList⟩, ⟨.operator, "-".toList⟩, ⟨.integer, "1".toList⟩]) rfl rfl rfl

example : parse asciiOnly idF "=1 + x".toList = .ok (.infix (.int false none 1) "+".toList (.ref "x".toList)) :=
  parse_lexed (e := _) (ts := [⟨.integer, "1".toList⟩, ⟨.operator, "+".toList⟩, ⟨.reference, "x".toList⟩]) rfl rfl rfl

/-! ## C15 -/

/-- The doubled quotes of a literal. -/
def doubled (t : Text) : Text := t.flatMap fun c => if c = '"' then ['"', '"'] else [c]

theorem mQuoteRest_doubled (t : Text) : mQuoteRest (doubled t ++ ['"']) = some (doubled t ++ ['"'], []) := by
  induction t with
  | nil => rfl
  | cons c t ih =>
    by_cases hc : c = '"'
    · subst hc
      have : doubled ('"' :: t) = '"' :: '"' :: doubled t := rfl
      rw [this, List.cons_append, List.cons_append, mQuoteRest.eq_def]
      simp [ih]
    · have : doubled (c :: t) = c :: doubled t := by simp [doubled, hc]
      rw [this, List.cons_append, mQuoteRest.eq_def]
      simp [hc, ih]

theorem unquoteLoop_doubled (t acc : Text) (rest : Text) :
    unquoteLoop true false acc (doubled t ++ rest) = unquoteLoop true false (acc ++ t) rest := by
  induction t generalizing acc with
  | nil => simp [doubled]
  | cons c t ih =>
    by_cases hc : c = '"'
    · subst hc
      have : doubled ('"' :: t) = '"' :: '"' :: doubled t := rfl
      rw [this, List.cons_append, List.cons_append]
      simp [unquoteLoop, ih]
    · have : doubled (c :: t) = c :: doubled t := by simp [doubled, hc]
      rw [this, List.cons_append, unquoteLoop]
      simp [hc, ih]

/-- C15, reading: a string literal denotes its text, for every text. -/
theorem C15_literal (u : Uni) (F : F64) (t : Text) : parse u F ('=' :: quoteText t) = .ok (.text t) := by
  have h1 : LexTo u (quoteText t) [⟨.dqString, quoteText t⟩] :=
    LexTo_quoted (mQuoteRest_doubled t) (LexTo_nil u)
  refine parse_of h1 (.of (.terminal (by simp) ?_) (.ends trivial))
  have : textUnquote (quoteText t) = some t := by
    show unquoteLoop false false [] ('"' :: (doubled t ++ ['"'])) = some t
    rw [unquoteLoop]
    simp [unquoteLoop_doubled, unquoteLoop]
  simp [terminal, this]

/-- C15 (partial: texts without double quotes): a text written into the spreadsheet reads as itself. -/
theorem C15_printed_partial (u : Uni) (F : F64) (t : Text) (h : '"' ∉ t) :
    parse u F (displayFormula (.text t)) = .ok (.text t) :=
  C12_display_parses u F _ (.text h)

theorem unquoteLoop_length (last : Bool) (acc s w : Text) (h : unquoteLoop true last acc s = some w) :
    s.length + (if last then 1 else 0) + acc.length + acc.count '"' = w.length + w.count '"' + 1 := by
  induction s generalizing last acc with
  | nil =>
    rw [unquoteLoop] at h
    split at h
    · rename_i hl; cases h; simp [hl]; omega
    · cases h
  | cons c s ih =>
    rw [unquoteLoop] at h
    split at h
    · rename_i hc
      split at h
      · rename_i hl
        have := ih _ _ h
        subst hc
        simp [hl] at this ⊢; omega
      · rename_i hl
        have hl' : last = false := by simpa using hl
        simp at h
        have := ih _ _ h
        simp [hl'] at this ⊢; omega
    · rename_i hc
      split at h
      · cases h
      · rename_i hl
        have hl' : last = false := by simpa using hl
        have := ih _ _ h
        have hcount : [c].count '"' = 0 := by simp [List.count_cons, hc]
        simp [hl', List.count_append, hcount] at this ⊢; omega

theorem mQuoteRest_isSome {p : Text} (h : '"' ∈ p) : ∃ s r, mQuoteRest p = some (s ++ ['"'], r) := by
  fun_induction mQuoteRest p with
  | case1 => simp at h
  | case2 r m rest hm ih =>
    by_cases hq : '"' ∈ r
    · obtain ⟨s, r', hs⟩ := ih hq
      rw [hm] at hs; cases hs
      exact ⟨'"' :: '"' :: s, _, rfl⟩
    · exfalso
      have : ∀ p : Text, '"' ∉ p → mQuoteRest p = none := by
        intro p hp
        induction p with
        | nil => rfl
        | cons c p ih =>
          have hc : c ≠ '"' := by rintro rfl; simp at hp
          rw [mQuoteRest.eq_def]
          simp [hc, ih (by intro h'; exact hp (by simp [h']))]
      rw [this r hq] at hm; cases hm
  | case3 => exact ⟨[], _, rfl⟩
  | case4 => exact ⟨[], _, rfl⟩
  | case5 => exact ⟨[], _, rfl⟩
  | case6 c r hc ih =>
    have : '"' ∈ r := by
      rcases List.mem_cons.mp h with h | h
      · exact absurd h.symm hc
      · exact h
    obtain ⟨s, r', hs⟩ := ih this
    exact ⟨c :: s, r', by simp [hs]⟩

theorem loop_text {F : F64} {single : Bool} {n bp lhs ts a r} (h : loop F single n bp lhs ts = .ok (a, r))
    (hl : (∃ t, lhs = .text t) ∨ ∃ x o y, lhs = .infix x o y) : a = lhs ∨ ∃ x o y, a = .infix x o y := by
  have hcal : callee lhs = none := by rcases hl with ⟨t, rfl⟩ | ⟨x, o, y, rfl⟩ <;> rfl
  have hpct : setPercent lhs = none := by rcases hl with ⟨t, rfl⟩ | ⟨x, o, y, rfl⟩ <;> rfl
  induction n generalizing lhs ts with
  | zero => cases h
  | succ n ih =>
    cases ts with
    | nil => rw [loop] at h; cases h; exact .inl rfl
    | cons t ts =>
      rw [loop] at h
      split at h
      · cases h; exact .inl rfl
      split at h
      · cases h; exact .inl rfl
      split at h
      · split at h
        · split at h
          · cases h; exact .inl rfl
          split at h
          · rw [hcal] at h; cases h
          split at h
          · rw [hpct] at h; cases h
          · cases h
        · split at h
          · split at h
            · cases h; exact .inl rfl
            · split at h
              · cases h
              · rcases ih h (.inr ⟨_, _, _, rfl⟩) rfl rfl with h | h
                · exact .inr ⟨_, _, _, h⟩
                · exact .inr h
          · cases h; exact .inl rfl
      · cases h

/-- C15 fails for every text with a double quote: what is written into the spreadsheet does not read as
that text. -/
theorem C15_violated (u : Uni) (F : F64) (t : Text) (h : '"' ∈ t) :
    parse u F (displayFormula (.text t)) ≠ .ok (.text t) := by
  intro hp
  obtain ⟨ts, r, _, hpt, pts, e, hl, rfl⟩ := parse_some hp
  have hdisp : displayFormula (.text t) = '=' :: '"' :: (t ++ ['"']) := rfl
  obtain ⟨s, rest, hs⟩ := mQuoteRest_isSome (p := t ++ ['"']) (by simp)
  have hlen := mQuoteRest_some hs
  -- the first token
  have hfirst : ∃ pt pts', pts = pt :: pts' ∧ pt.tok = ⟨.dqString, '"' :: (s ++ ['"'])⟩ := by
    rw [hdisp] at hl
    simp only [lex] at hl
    rw [lexLoop, firstMatch_quoted hs] at hl
    have htrim : trim ('"' :: (s ++ ['"'])) = '"' :: (s ++ ['"']) :=
      trim_self (by intro c hc; simp at hc; subst hc; rfl) (by
        intro c hc
        rw [← List.cons_append, List.getLast?_append] at hc
        simp at hc; subst hc; rfl)
    simp only [htrim] at hl
    split at hl
    · cases hl; exact ⟨_, _, rfl, rfl⟩
    · split at hl
      · cases hl; exact ⟨_, _, rfl, rfl⟩
      · cases hl
  obtain ⟨pt, pts', rfl, htok⟩ := hfirst
  rw [parseToks, List.map_cons, htok] at hpt
  simp only [List.length_cons, Nat.mul_add] at hpt
  rw [exprBp] at hpt
  split at hpt
  · cases hpt
  · rename_i lhs ts' hprim
    rw [prim] at hprim
    simp only [if_false, reduceCtorEq, or_true, true_or, if_true, terminal] at hprim
    split at hprim
    · rename_i a' ha'
      cases hprim
      rw [Option.map_eq_some_iff] at ha'
      obtain ⟨w, hw, rfl⟩ := ha'
      rcases loop_text hpt (.inl ⟨w, rfl⟩) with h1 | ⟨x, o, y, h1⟩
      · cases h1
        have hw' : unquoteLoop true false [] (s ++ ['"']) = some t := by
          have : unquoteLoop false false [] ('"' :: (s ++ ['"'])) = some t := hw
          rw [unquoteLoop] at this
          simpa using this
        have h2 := unquoteLoop_length _ _ _ _ hw'
        have h3 : 0 < t.count '"' := List.count_pos_iff.mpr h
        have h4 := congrArg List.length hlen
        simp at h2 h4
        omega
      · cases h1
    · cases hprim

example : ∃ e, parse asciiOnly idF (displayFormula (.text "a\"b".toList)) = .error (.lex e) := ⟨_, rfl⟩

end Verif.Parser
