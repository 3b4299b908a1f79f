import Verif.Parser.Fuel
/-
Which token a syntax error is reported at (C87).
-/
namespace Verif.Parser
open Verif.Ast

/-! ## The parser by cases -/

/-- What the token `t` means at the start of an operand. -/
inductive PAct where
  | paren | sign (s : Sign) (rbp : Nat) | term (a : Ast) | fail (m : PMsg)

/-- What the token `t` means after an operand. -/
inductive LAct where
  | stop | fail (m : PMsg) | call (id : Text) | go (a : Ast) | «infix» (rbp : Nat)

def pact (F : F64) (t : Tok) : PAct :=
  if t.kind = .openParen then .paren
  else if t.kind = .operator then
    match prefixPower t.s with
    | none => .fail .invalidPrefix
    | some rbp => .sign (signOf t.s) rbp
  else if t.kind = .boolean ∨ t.kind = .dqString ∨ t.kind = .float ∨ t.kind = .integer ∨ t.kind = .reference then
    match terminal F t with
    | some a => .term a
    | none => .fail .badLiteral
  else .fail .expectedExpr

def lact (single : Bool) (bp : Nat) (lhs : Ast) (t : Tok) : LAct :=
  if single ∧ (t.kind = .reference ∨ t.kind = .fnDef) then .stop
  else if t.kind = .comma ∨ t.kind = .closeParen ∨ t.kind = .eof then .stop
  else if t.kind = .operator ∨ t.kind = .openParen then
    match postfixPower t.s with
    | some lbp =>
      if lbp < bp then .stop
      else if t.s = "(".toList then
        match callee lhs with
        | some id => .call id
        | none => .fail .notCallable
      else if t.s = "%".toList then
        match setPercent lhs with
        | some a => .go a
        | none => .fail .notPercentable
      else .fail .unexpectedPostfix
    | none =>
      match infixPower t.s with
      | some (lbp, rbp) => if lbp < bp then .stop else .infix rbp
      | none => .stop
  else .fail (.unexpected t.kind)

section
variable (F : F64) (single : Bool)

theorem prim_cons (n : Nat) (t : Tok) (ts : List Tok) : prim F single (n + 1) (t :: ts) =
    match pact F t with
    | .paren =>
      match exprBp F single n 0 ts with
      | .error e => .error e
      | .ok (_, []) => .error (.at .expectedClose [])
      | .ok (a, c :: r) => if c.kind = .closeParen then .ok (a, r) else .error (.at .expectedClose (c :: r))
    | .sign s rbp =>
      match exprBp F single n rbp ts with
      | .error e => .error e
      | .ok (a, r) =>
        match setSign s a with
        | some a' => .ok (a', r)
        | none => .error (.at .prefixNotNumber (t :: ts))
    | .term a => .ok (a, ts)
    | .fail m => .error (.at m (t :: ts)) := by
  rw [prim]
  unfold pact
  by_cases h1 : t.kind = .openParen
  · simp only [if_pos h1]; rfl
  simp only [if_neg h1]
  by_cases h2 : t.kind = .operator
  · simp only [if_pos h2]
    cases prefixPower t.s <;> rfl
  simp only [if_neg h2]
  split
  · cases terminal F t <;> rfl
  · rfl

theorem loop_cons (n bp : Nat) (lhs : Ast) (t : Tok) (r : List Tok) : loop F single (n + 1) bp lhs (t :: r) =
    match lact single bp lhs t with
    | .stop => .ok (lhs, t :: r)
    | .fail m => .error (.at m (t :: r))
    | .call id =>
      match callArgs F single n r with
      | .error e => .error e
      | .ok (as, r') => loop F single n bp (.call id as) r'
    | .go a => loop F single n bp a r
    | .infix rbp =>
      match exprBp F single n rbp r with
      | .error e => .error e
      | .ok (rhs, r') => loop F single n bp (.infix lhs t.s rhs) r' := by
  rw [loop]
  unfold lact
  split
  · rfl
  split
  · rfl
  split
  · cases postfixPower t.s with
    | some lbp =>
      dsimp only
      split
      · rfl
      split
      · cases callee lhs <;> rfl
      split
      · cases setPercent lhs <;> rfl
      · rfl
    | none =>
      cases infixPower t.s with
      | some p => dsimp only; split <;> rfl
      | none => rfl
  · rfl

variable {F single}

theorem lact_close {bp lhs t} (h : t.kind = .closeParen) : lact single bp lhs t = .stop := by
  simp [lact, h]

theorem pact_fail {t m} (h : pact F t = .fail m) : m ≠ .prefixNotNumber := by
  unfold pact at h
  split at h
  · cases h
  split at h
  · split at h <;> cases h; simp
  split at h
  · split at h <;> cases h; simp
  · cases h; simp

theorem lact_fail {bp lhs t m} (h : lact single bp lhs t = .fail m) : m ≠ .prefixNotNumber := by
  unfold lact at h
  split at h
  · cases h
  split at h
  · cases h
  split at h
  · split at h
    · split at h
      · cases h
      split at h
      · split at h <;> cases h; simp
      split at h
      · split at h <;> cases h; simp
      · cases h; simp
    · split at h
      · split at h <;> cases h
      · cases h
  · cases h; simp

/-! ## Runs of any fuel -/

variable (F single)
/-- With some fuel, the functions end like this. -/
def RE (bp : Nat) (ts : List Tok) (r : Except PErr (Ast × List Tok)) : Prop := ∃ n, exprBp F single n bp ts = r ∧ r ≠ .error .fuel
def RP (ts : List Tok) (r : Except PErr (Ast × List Tok)) : Prop := ∃ n, prim F single n ts = r ∧ r ≠ .error .fuel
def RL (bp : Nat) (lhs : Ast) (ts : List Tok) (r : Except PErr (Ast × List Tok)) : Prop := ∃ n, loop F single n bp lhs ts = r ∧ r ≠ .error .fuel
def RA (ts : List Tok) (r : Except PErr (List Ast × List Tok)) : Prop := ∃ n, callArgs F single n ts = r ∧ r ≠ .error .fuel
variable {F single}

theorem RE.prim {bp ts e} (h : RP F single ts (.error e)) : RE F single bp ts (.error e) := by
  obtain ⟨n, h, hf⟩ := h
  exact ⟨n + 1, by rw [exprBp, h], by simpa using hf⟩

theorem RE.loop {bp ts lhs ts' r} (h : RP F single ts (.ok (lhs, ts'))) (h2 : RL F single bp lhs ts' r) : RE F single bp ts r := by
  obtain ⟨n, h, hf⟩ := h
  obtain ⟨m, h2, hf2⟩ := h2
  refine ⟨max n m + 1, ?_, hf2⟩
  rw [exprBp, prim_mono h hf (Nat.le_max_left n m)]
  exact loop_mono h2 hf2 (Nat.le_max_right n m)

theorem RP.fail {t ts m} (h : pact F t = .fail m) : RP F single (t :: ts) (.error (.at m (t :: ts))) := ⟨1, by rw [prim_cons, h], by simp⟩
theorem RP.term {t ts a} (h : pact F t = .term a) : RP F single (t :: ts) (.ok (a, ts)) := ⟨1, by rw [prim_cons, h], by simp⟩
theorem RP.parenErr {t ts e} (h : pact F t = .paren) (h2 : RE F single 0 ts (.error e)) : RP F single (t :: ts) (.error e) := by
  obtain ⟨n, h2, hf⟩ := h2
  exact ⟨n + 1, by rw [prim_cons, h]; simp only [h2], by simpa using hf⟩
theorem RP.parenEnd {t ts a} (h : pact F t = .paren) (h2 : RE F single 0 ts (.ok (a, []))) : RP F single (t :: ts) (.error (.at .expectedClose [])) := by
  obtain ⟨n, h2, -⟩ := h2
  exact ⟨n + 1, by rw [prim_cons, h]; simp only [h2], by simp⟩
theorem RP.parenBad {t ts a c r} (h : pact F t = .paren) (h2 : RE F single 0 ts (.ok (a, c :: r))) (hc : c.kind ≠ .closeParen) :
    RP F single (t :: ts) (.error (.at .expectedClose (c :: r))) := by
  obtain ⟨n, h2, -⟩ := h2
  exact ⟨n + 1, by rw [prim_cons, h]; simp only [h2, if_neg hc], by simp⟩
theorem RP.paren {t ts a c r} (h : pact F t = .paren) (h2 : RE F single 0 ts (.ok (a, c :: r))) (hc : c.kind = .closeParen) :
    RP F single (t :: ts) (.ok (a, r)) := by
  obtain ⟨n, h2, -⟩ := h2
  exact ⟨n + 1, by rw [prim_cons, h]; simp only [h2, if_pos hc], by simp⟩
theorem RP.signErr {t ts e s rbp} (h : pact F t = .sign s rbp) (h2 : RE F single rbp ts (.error e)) : RP F single (t :: ts) (.error e) := by
  obtain ⟨n, h2, hf⟩ := h2
  exact ⟨n + 1, by rw [prim_cons, h]; simp only [h2], by simpa using hf⟩
theorem RP.signBad {t ts s rbp a r} (h : pact F t = .sign s rbp) (h2 : RE F single rbp ts (.ok (a, r))) (hs : setSign s a = none) :
    RP F single (t :: ts) (.error (.at .prefixNotNumber (t :: ts))) := by
  obtain ⟨n, h2, -⟩ := h2
  exact ⟨n + 1, by rw [prim_cons, h]; simp only [h2, hs], by simp⟩
theorem RP.sign {t ts s rbp a r a'} (h : pact F t = .sign s rbp) (h2 : RE F single rbp ts (.ok (a, r))) (hs : setSign s a = some a') :
    RP F single (t :: ts) (.ok (a', r)) := by
  obtain ⟨n, h2, -⟩ := h2
  exact ⟨n + 1, by rw [prim_cons, h]; simp only [h2, hs], by simp⟩

theorem RL.nil {bp lhs} : RL F single bp lhs [] (.ok (lhs, [])) := ⟨1, by rw [Parser.loop], by simp⟩
theorem RL.stop {bp lhs t r} (h : lact single bp lhs t = .stop) : RL F single bp lhs (t :: r) (.ok (lhs, t :: r)) := ⟨1, by rw [loop_cons, h], by simp⟩
theorem RL.fail {bp lhs t r m} (h : lact single bp lhs t = .fail m) : RL F single bp lhs (t :: r) (.error (.at m (t :: r))) := ⟨1, by rw [loop_cons, h], by simp⟩
theorem RL.go {bp lhs t r a x} (h : lact single bp lhs t = .go a) (h2 : RL F single bp a r x) : RL F single bp lhs (t :: r) x := by
  obtain ⟨n, h2, hf⟩ := h2
  exact ⟨n + 1, by rw [loop_cons, h]; exact h2, hf⟩
theorem RL.callErr {bp lhs t r id e} (h : lact single bp lhs t = .call id) (h2 : RA F single r (.error e)) : RL F single bp lhs (t :: r) (.error e) := by
  obtain ⟨n, h2, hf⟩ := h2
  exact ⟨n + 1, by rw [loop_cons, h]; simp only [h2], by simpa using hf⟩
theorem RL.call {bp lhs t r id as r' x} (h : lact single bp lhs t = .call id) (h2 : RA F single r (.ok (as, r'))) (h3 : RL F single bp (.call id as) r' x) :
    RL F single bp lhs (t :: r) x := by
  obtain ⟨n, h2, hf⟩ := h2
  obtain ⟨m, h3, hf3⟩ := h3
  refine ⟨max n m + 1, ?_, hf3⟩
  rw [loop_cons, h]
  simp only [callArgs_mono h2 hf (Nat.le_max_left n m)]
  exact loop_mono h3 hf3 (Nat.le_max_right n m)
theorem RL.infixErr {bp lhs t r rbp e} (h : lact single bp lhs t = .infix rbp) (h2 : RE F single rbp r (.error e)) : RL F single bp lhs (t :: r) (.error e) := by
  obtain ⟨n, h2, hf⟩ := h2
  exact ⟨n + 1, by rw [loop_cons, h]; simp only [h2], by simpa using hf⟩
theorem RL.infix {bp lhs t r rbp b r' x} (h : lact single bp lhs t = .infix rbp) (h2 : RE F single rbp r (.ok (b, r')))
    (h3 : RL F single bp (.infix lhs t.s b) r' x) : RL F single bp lhs (t :: r) x := by
  obtain ⟨n, h2, hf⟩ := h2
  obtain ⟨m, h3, hf3⟩ := h3
  refine ⟨max n m + 1, ?_, hf3⟩
  rw [loop_cons, h]
  simp only [exprBp_mono h2 hf (Nat.le_max_left n m)]
  exact loop_mono h3 hf3 (Nat.le_max_right n m)

theorem RA.close {t ts} (h : t.kind = .closeParen) : RA F single (t :: ts) (.ok ([], ts)) := ⟨1, by rw [callArgs]; simp [h], by simp⟩
theorem RA.comma {t ts x} (h : t.kind = .comma) (h2 : RA F single ts x) : RA F single (t :: ts) x := by
  obtain ⟨n, h2, hf⟩ := h2
  exact ⟨n + 1, by rw [callArgs]; simp [h, h2], hf⟩
/-- The next token begins an argument. -/
def ArgHead (ts : List Tok) : Prop := ∀ t, ts.head? = some t → t.kind ≠ .closeParen ∧ t.kind ≠ .comma
theorem RA.argErr {ts e} (h : ArgHead ts) (h2 : RE F single 0 ts (.error e)) : RA F single ts (.error e) := by
  obtain ⟨n, h2, hf⟩ := h2
  refine ⟨n + 1, ?_, by simpa using hf⟩
  rw [callArgs, if_neg, if_neg]
  · simp only [h2]
  · cases ts with
    | nil => simp
    | cons t ts => simpa using (h t rfl).2
  · cases ts with
    | nil => simp
    | cons t ts => simpa using (h t rfl).1
theorem RA.moreErr {ts a r e} (h : ArgHead ts) (h2 : RE F single 0 ts (.ok (a, r))) (h3 : RA F single r (.error e)) : RA F single ts (.error e) := by
  obtain ⟨n, h2, hf⟩ := h2
  obtain ⟨m, h3, hf3⟩ := h3
  refine ⟨max n m + 1, ?_, by simpa using hf3⟩
  rw [callArgs, if_neg, if_neg]
  · simp only [exprBp_mono h2 hf (Nat.le_max_left n m), callArgs_mono h3 hf3 (Nat.le_max_right n m)]
  · cases ts with
    | nil => simp
    | cons t ts => simpa using (h t rfl).2
  · cases ts with
    | nil => simp
    | cons t ts => simpa using (h t rfl).1
theorem RA.more {ts a r as r'} (h : ArgHead ts) (h2 : RE F single 0 ts (.ok (a, r))) (h3 : RA F single r (.ok (as, r'))) :
    RA F single ts (.ok (a :: as, r')) := by
  obtain ⟨n, h2, hf⟩ := h2
  obtain ⟨m, h3, hf3⟩ := h3
  refine ⟨max n m + 1, ?_, by simp⟩
  rw [callArgs, if_neg, if_neg]
  · simp only [exprBp_mono h2 hf (Nat.le_max_left n m), callArgs_mono h3 hf3 (Nat.le_max_right n m)]
  · cases ts with
    | nil => simp
    | cons t ts => simpa using (h t rfl).2
  · cases ts with
    | nil => simp
    | cons t ts => simpa using (h t rfl).1

/-! ## What was read does not depend on what follows -/

/-- Nothing, or a closing parenthesis: every expression ends here. -/
def Closed (k : List Tok) : Prop := ∀ t, k.head? = some t → t.kind = .closeParen

theorem RL.closed {bp lhs k} (h : Closed k) : RL F single bp lhs k (.ok (lhs, k)) := by
  cases k with
  | nil => exact .nil
  | cons t k => exact .stop (lact_close (h t rfl))

/-- `k` begins like `r`, or ends every expression. -/
def Same (r k : List Tok) : Prop := k.head? = r.head? ∨ Closed k

theorem Same.append {u r k : List Tok} (h : Same r k) : Same (u ++ r) (u ++ k) := by
  cases u with
  | nil => exact h
  | cons t u => exact .inl rfl

theorem Same.cons {u : List Tok} (h : u ≠ []) (r k : List Tok) : Same (u ++ r) (u ++ k) := by
  cases u with
  | nil => exact absurd rfl h
  | cons t u => exact .inl rfl

theorem ArgHead.append {u r k : List Tok} (hu : u ≠ []) (h : ArgHead (u ++ r)) : ArgHead (u ++ k) := by
  cases u with
  | nil => exact absurd rfl hu
  | cons t u => exact h

theorem local_ok (n : Nat) :
    (∀ bp ts a r, exprBp F single n bp ts = .ok (a, r) → ∃ us, ts = us ++ r ∧ us ≠ [] ∧ ∀ k, Same r k → RE F single bp (us ++ k) (.ok (a, k))) ∧
    (∀ ts a r, prim F single n ts = .ok (a, r) → ∃ us, ts = us ++ r ∧ us ≠ [] ∧ ∀ k, Same r k → RP F single (us ++ k) (.ok (a, k))) ∧
    (∀ bp lhs ts a r, loop F single n bp lhs ts = .ok (a, r) → ∃ us, ts = us ++ r ∧ ∀ k, Same r k → RL F single bp lhs (us ++ k) (.ok (a, k))) ∧
    (∀ ts as r, callArgs F single n ts = .ok (as, r) → ∃ us, ts = us ++ r ∧ us ≠ [] ∧ ∀ k, RA F single (us ++ k) (.ok (as, k))) := by
  induction n with
  | zero => exact ⟨fun _ _ _ _ h => (nomatch h), fun _ _ _ h => (nomatch h), fun _ _ _ _ _ h => (nomatch h), fun _ _ _ h => (nomatch h)⟩
  | succ n ih =>
    obtain ⟨ihE, ihP, ihL, ihA⟩ := ih
    refine ⟨fun bp ts a r h => ?_, fun ts a r h => ?_, fun bp lhs ts a r h => ?_, fun ts as r h => ?_⟩
    · rw [exprBp] at h
      split at h
      · cases h
      · rename_i lhs ts' hp
        obtain ⟨u1, rfl, hne, h1⟩ := ihP _ _ _ hp
        obtain ⟨u2, rfl, h2⟩ := ihL _ _ _ _ _ h
        refine ⟨u1 ++ u2, by simp, by simp [hne], fun k hk => ?_⟩
        rw [List.append_assoc]
        exact .loop (h1 _ hk.append) (h2 k hk)
    · cases ts with
      | nil => cases h
      | cons t ts =>
        rw [prim_cons] at h
        split at h
        · rename_i hp
          split at h
          · cases h
          · cases h
          · rename_i c r' hE
            obtain ⟨us, rfl, hne, h1⟩ := ihE _ _ _ _ hE
            split at h <;> cases h
            rename_i hc
            refine ⟨t :: (us ++ [c]), by simp, by simp, fun k _ => ?_⟩
            have := h1 (c :: k) (.inl rfl)
            simpa using RP.paren hp this hc
        · rename_i s rbp hp
          split at h
          · cases h
          · rename_i hE
            obtain ⟨us, rfl, hne, h1⟩ := ihE _ _ _ _ hE
            split at h <;> cases h
            rename_i hs
            exact ⟨t :: us, by simp, by simp, fun k hk => .sign hp (h1 k hk) hs⟩
        · rename_i hp
          cases h
          exact ⟨[t], by simp, by simp, fun k _ => .term hp⟩
        · cases h
    · cases ts with
      | nil =>
        rw [loop] at h; cases h
        refine ⟨[], by simp, fun k hk => .closed ?_⟩
        rcases hk with hk | hk
        · intro t ht; rw [List.nil_append] at ht; rw [ht] at hk; cases hk
        · exact hk
      | cons t ts =>
        rw [loop_cons] at h
        split at h
        · rename_i hl
          cases h
          refine ⟨[], by simp, fun k hk => ?_⟩
          rcases hk with hk | hk
          · cases k with
            | nil => cases hk
            | cons t' k => cases hk; exact .stop hl
          · exact .closed hk
        · cases h
        · rename_i id hl
          split at h
          · cases h
          · rename_i hA
            obtain ⟨u1, rfl, hne, h1⟩ := ihA _ _ _ hA
            obtain ⟨u2, rfl, h2⟩ := ihL _ _ _ _ _ h
            refine ⟨t :: (u1 ++ u2), by simp, fun k hk => ?_⟩
            simpa using RL.call hl (h1 (u2 ++ k)) (h2 k hk)
        · rename_i hl
          obtain ⟨u2, rfl, h2⟩ := ihL _ _ _ _ _ h
          exact ⟨t :: u2, by simp, fun k hk => .go hl (h2 k hk)⟩
        · rename_i rbp hl
          split at h
          · cases h
          · rename_i hE
            obtain ⟨u1, rfl, hne, h1⟩ := ihE _ _ _ _ hE
            obtain ⟨u2, rfl, h2⟩ := ihL _ _ _ _ _ h
            refine ⟨t :: (u1 ++ u2), by simp, fun k hk => ?_⟩
            simpa using RL.infix hl (h1 (u2 ++ k) hk.append) (h2 k hk)
    · rw [callArgs] at h
      split at h
      · rename_i hc
        cases ts with
        | nil => simp at hc
        | cons t ts =>
          simp at hc
          cases h
          exact ⟨[t], by simp, by simp, fun k => .close hc⟩
      split at h
      · rename_i hc
        cases ts with
        | nil => simp at hc
        | cons t ts =>
          simp at hc
          obtain ⟨us, h0, -, h1⟩ := ihA _ _ _ h
          simp only [List.tail_cons] at h0
          subst h0
          exact ⟨t :: us, by simp, by simp, fun k => .comma hc (h1 k)⟩
      · rename_i hc1 hc2
        have hh : ArgHead ts := by
          intro t ht
          rw [ht] at hc1 hc2
          exact ⟨by simpa using hc1, by simpa using hc2⟩
        split at h
        · cases h
        · rename_i hE
          obtain ⟨u1, rfl, hne, h1⟩ := ihE _ _ _ _ hE
          split at h
          · cases h
          · rename_i hA
            cases h
            obtain ⟨u2, rfl, hne2, h2⟩ := ihA _ _ _ hA
            refine ⟨u1 ++ u2, by simp, by simp [hne], fun k => ?_⟩
            rw [List.append_assoc]
            exact .more (hh.append hne) (h1 (u2 ++ k) (Same.cons hne2 _ _)) (h2 k)

/-! ## Where errors are -/

/-- How the tokens `us` that were read before an error at `rest` relate to it: whatever follows its first token the error is the same; and there are
tokens after which reading (with `run`) is complete, unless a sign among `us` does not stand before a number. -/
structure Blamed {α : Type} (run : List Tok → Except PErr (α × List Tok) → Prop) (ok : List Tok → Prop) (m : PMsg) (us rest comp : List Tok) : Prop where
  sure : ∀ t post, rest = t :: post → ∀ post', run (us ++ t :: post') (.error (.at m (t :: post')))
  viable : ∀ k, ok k → (∃ a, run (us ++ comp ++ k) (.ok (a, k))) ∨
    ∃ u1 u2, us = u1 ++ u2 ∧ u2 ≠ [] ∧ run (us ++ comp ++ k) (.error (.at .prefixNotNumber (u2 ++ comp ++ k)))

def oneTok : Tok := ⟨.integer, ['1']⟩
def closeTok : Tok := ⟨.closeParen, [')']⟩

theorem pact_one : pact F oneTok = .term (.int false none 1) := rfl

theorem closed_close (k : List Tok) : Closed (closeTok :: k) := by intro t ht; cases ht; rfl

theorem blamed (n : Nat) {m : PMsg} (hm : m ≠ .prefixNotNumber) :
    (∀ bp ts rest, exprBp F single n bp ts = .error (.at m rest) → ∃ us comp, ts = us ++ rest ∧ Blamed (RE F single bp) Closed m us rest comp) ∧
    (∀ ts rest, prim F single n ts = .error (.at m rest) → ∃ us comp, ts = us ++ rest ∧ Blamed (RP F single) Closed m us rest comp) ∧
    (∀ bp lhs ts rest, loop F single n bp lhs ts = .error (.at m rest) →
      ∃ us comp, ts = us ++ rest ∧ (us = [] → comp = []) ∧ Blamed (RL F single bp lhs) Closed m us rest comp) ∧
    (∀ ts rest, callArgs F single n ts = .error (.at m rest) →
      ∃ us comp, ts = us ++ rest ∧ (us = [] → comp = [closeTok]) ∧ Blamed (RA F single) (fun _ => True) m us rest comp) := by
  induction n with
  | zero => exact ⟨fun _ _ _ h => (nomatch h), fun _ _ h => (nomatch h), fun _ _ _ _ h => (nomatch h), fun _ _ h => (nomatch h)⟩
  | succ n ih =>
    obtain ⟨ihE, ihP, ihL, ihA⟩ := ih
    obtain ⟨okE, okP, okL, okA⟩ := local_ok (F := F) (single := single) n
    refine ⟨fun bp ts rest h => ?_, fun ts rest h => ?_, fun bp lhs ts rest h => ?_, fun ts rest h => ?_⟩
    · rw [exprBp] at h
      split at h
      · rename_i hp
        cases h
        obtain ⟨us, comp, rfl, hb⟩ := ihP _ _ hp
        refine ⟨us, comp, rfl, fun t post e post' => .prim (hb.sure t post e post'), fun k hk => ?_⟩
        rcases hb.viable k hk with ⟨a, ha⟩ | ⟨u1, u2, e, hne, hs⟩
        · exact .inl ⟨a, .loop ha (.closed hk)⟩
        · exact .inr ⟨u1, u2, e, hne, .prim hs⟩
      · rename_i lhs ts' hp
        obtain ⟨v, rfl, hv, hok⟩ := okP _ _ _ hp
        obtain ⟨us, comp, rfl, hc, hb⟩ := ihL _ _ _ _ h
        refine ⟨v ++ us, comp, by simp, fun t post e post' => ?_, fun k hk => ?_⟩
        · subst e
          have := hok (us ++ t :: post') (by cases us <;> exact .inl rfl)
          simpa using RE.loop this (hb.sure t post rfl post')
        · have hsame : Same (us ++ rest) (us ++ comp ++ k) := by
            by_cases hu : us = []
            · subst hu; rw [hc rfl]; exact .inr hk
            · rw [List.append_assoc]; exact Same.cons hu _ _
          have h1 := hok _ hsame
          rcases hb.viable k hk with ⟨a, ha⟩ | ⟨u1, u2, e, hne, hs⟩
          · exact .inl ⟨a, by simpa using RE.loop h1 ha⟩
          · exact .inr ⟨v ++ u1, u2, by rw [e]; simp, hne, by simpa using RE.loop h1 hs⟩
    · cases ts with
      | nil =>
        rw [prim] at h; cases h
        exact ⟨[], [oneTok], rfl, fun t post e => (by cases e), fun k _ => .inl ⟨_, .term pact_one⟩⟩
      | cons t ts =>
        rw [prim_cons] at h
        split at h
        · rename_i hp
          split at h
          · rename_i hE
            cases h
            obtain ⟨us, comp, rfl, hb⟩ := ihE _ _ _ hE
            refine ⟨t :: us, comp ++ [closeTok], rfl, fun t' post e post' => .parenErr hp (hb.sure t' post e post'), fun k hk => ?_⟩
            rcases hb.viable (closeTok :: k) (closed_close k) with ⟨a, ha⟩ | ⟨u1, u2, e, hne, hs⟩
            · exact .inl ⟨a, by simpa using RP.paren hp ha rfl⟩
            · exact .inr ⟨t :: u1, u2, by rw [e]; rfl, hne, by simpa using RP.parenErr hp hs⟩
          · rename_i a hE
            cases h
            obtain ⟨us, e, -, hok⟩ := okE _ _ _ _ hE
            rw [List.append_nil] at e; subst e
            exact ⟨t :: ts, [closeTok], by simp, fun t post e => (by cases e), fun k _ => .inl ⟨a, by
              simpa using RP.paren hp (hok (closeTok :: k) (.inr (closed_close k))) rfl⟩⟩
          · rename_i a c r hE
            split at h
            · cases h
            · rename_i hc
              cases h
              obtain ⟨us, rfl, -, hok⟩ := okE _ _ _ _ hE
              refine ⟨t :: us, [closeTok], rfl, fun t' post e post' => ?_, fun k _ => .inl ⟨a, by
                simpa using RP.paren hp (hok (closeTok :: k) (.inr (closed_close k))) rfl⟩⟩
              cases e
              exact .parenBad hp (hok _ (.inl rfl)) hc
        · rename_i s rbp hp
          split at h
          · rename_i hE
            cases h
            obtain ⟨us, comp, rfl, hb⟩ := ihE _ _ _ hE
            refine ⟨t :: us, comp, rfl, fun t' post e post' => .signErr hp (hb.sure t' post e post'), fun k hk => ?_⟩
            rcases hb.viable k hk with ⟨a, ha⟩ | ⟨u1, u2, e, hne, hs⟩
            · cases hs : setSign s a with
              | some a' => exact .inl ⟨a', .sign hp ha hs⟩
              | none => exact .inr ⟨[], t :: us, rfl, by simp, .signBad hp ha hs⟩
            · exact .inr ⟨t :: u1, u2, by rw [e]; rfl, hne, .signErr hp hs⟩
          · split at h
            · cases h
            · cases h; exact absurd rfl hm
        · cases h
        · rename_i hp
          cases h
          refine ⟨[], [oneTok], rfl, fun t' post e post' => ?_, fun k _ => .inl ⟨_, .term pact_one⟩⟩
          cases e
          exact .fail hp
    · cases ts with
      | nil => rw [loop] at h; cases h
      | cons t ts =>
        rw [loop_cons] at h
        split at h
        · cases h
        · rename_i hl
          cases h
          refine ⟨[], [], rfl, fun _ => rfl, fun t' post e post' => ?_, fun k hk => .inl ⟨lhs, .closed hk⟩⟩
          cases e
          exact .fail hl
        · rename_i id hl
          split at h
          · rename_i hA
            cases h
            obtain ⟨us, comp, rfl, -, hb⟩ := ihA _ _ hA
            refine ⟨t :: us, comp, rfl, fun e => (by cases e), fun t' post e post' => .callErr hl (hb.sure t' post e post'), fun k hk => ?_⟩
            rcases hb.viable k trivial with ⟨as, ha⟩ | ⟨u1, u2, e, hne, hs⟩
            · exact .inl ⟨_, .call hl ha (.closed hk)⟩
            · exact .inr ⟨t :: u1, u2, by rw [e]; rfl, hne, .callErr hl hs⟩
          · rename_i hA
            obtain ⟨v, rfl, hv, hok⟩ := okA _ _ _ hA
            obtain ⟨us, comp, rfl, -, hb⟩ := ihL _ _ _ _ h
            refine ⟨t :: (v ++ us), comp, by simp, fun e => (by cases e), fun t' post e post' => ?_, fun k hk => ?_⟩
            · simpa using RL.call hl (hok _) (hb.sure t' post e post')
            · rcases hb.viable k hk with ⟨a, ha⟩ | ⟨u1, u2, e, hne, hs⟩
              · exact .inl ⟨a, by simpa using RL.call hl (hok (us ++ comp ++ k)) ha⟩
              · exact .inr ⟨t :: (v ++ u1), u2, by rw [e]; simp, hne, by simpa using RL.call hl (hok (us ++ comp ++ k)) hs⟩
        · rename_i hl
          obtain ⟨us, comp, rfl, -, hb⟩ := ihL _ _ _ _ h
          refine ⟨t :: us, comp, rfl, fun e => (by cases e), fun t' post e post' => .go hl (hb.sure t' post e post'), fun k hk => ?_⟩
          rcases hb.viable k hk with ⟨a, ha⟩ | ⟨u1, u2, e, hne, hs⟩
          · exact .inl ⟨a, .go hl ha⟩
          · exact .inr ⟨t :: u1, u2, by rw [e]; rfl, hne, .go hl hs⟩
        · rename_i rbp hl
          split at h
          · rename_i hE
            cases h
            obtain ⟨us, comp, rfl, hb⟩ := ihE _ _ _ hE
            refine ⟨t :: us, comp, rfl, fun e => (by cases e), fun t' post e post' => .infixErr hl (hb.sure t' post e post'), fun k hk => ?_⟩
            rcases hb.viable k hk with ⟨a, ha⟩ | ⟨u1, u2, e, hne, hs⟩
            · exact .inl ⟨_, .infix hl ha (.closed hk)⟩
            · exact .inr ⟨t :: u1, u2, by rw [e]; rfl, hne, .infixErr hl hs⟩
          · rename_i hE
            obtain ⟨v, rfl, hv, hok⟩ := okE _ _ _ _ hE
            obtain ⟨us, comp, rfl, hc, hb⟩ := ihL _ _ _ _ h
            refine ⟨t :: (v ++ us), comp, by simp, fun e => (by cases e), fun t' post e post' => ?_, fun k hk => ?_⟩
            · subst e
              have := hok (us ++ t' :: post') (by cases us <;> exact .inl rfl)
              simpa using RL.infix hl this (hb.sure t' post rfl post')
            · have hsame : Same (us ++ rest) (us ++ comp ++ k) := by
                by_cases hu : us = []
                · subst hu; rw [hc rfl]; exact .inr hk
                · rw [List.append_assoc]; exact Same.cons hu _ _
              rcases hb.viable k hk with ⟨a, ha⟩ | ⟨u1, u2, e, hne, hs⟩
              · exact .inl ⟨a, by simpa using RL.infix hl (hok _ hsame) ha⟩
              · exact .inr ⟨t :: (v ++ u1), u2, by rw [e]; simp, hne, by simpa using RL.infix hl (hok _ hsame) hs⟩
    · rw [callArgs] at h
      split at h
      · cases h
      rename_i hc1
      split at h
      · rename_i hc
        cases ts with
        | nil => simp at hc
        | cons t ts =>
          simp at hc
          obtain ⟨us, comp, h0, -, hb⟩ := ihA _ _ h
          simp only [List.tail_cons] at h0
          subst h0
          refine ⟨t :: us, comp, rfl, fun e => (by cases e), fun t' post e post' => .comma hc (hb.sure t' post e post'), fun k hk => ?_⟩
          rcases hb.viable k trivial with ⟨as, ha⟩ | ⟨u1, u2, e, hne, hs⟩
          · exact .inl ⟨as, .comma hc ha⟩
          · exact .inr ⟨t :: u1, u2, by rw [e]; rfl, hne, .comma hc hs⟩
      · rename_i hc2
        have hh : ArgHead ts := by
          intro t ht
          rw [ht] at hc1 hc2
          exact ⟨by simpa using hc1, by simpa using hc2⟩
        split at h
        · rename_i hE
          cases h
          obtain ⟨us, comp, rfl, hb⟩ := ihE _ _ _ hE
          by_cases hu : us = []
          · subst hu
            refine ⟨[], [closeTok], rfl, fun _ => rfl, fun t post e post' => ?_, fun k _ => .inl ⟨[], .close rfl⟩⟩
            subst e
            exact .argErr (fun t' ht' => hh t' ht') (hb.sure t post rfl post')
          · refine ⟨us, comp ++ [closeTok], rfl, fun e => absurd e hu, fun t post e post' => .argErr (hh.append hu) (hb.sure t post e post'), fun k _ => ?_⟩
            have hh' : ArgHead (us ++ comp ++ closeTok :: k) := by rw [List.append_assoc]; exact hh.append hu
            rcases hb.viable (closeTok :: k) (closed_close k) with ⟨a, ha⟩ | ⟨u1, u2, e, hne, hs⟩
            · exact .inl ⟨[a], by simpa using RA.more hh' ha (.close rfl)⟩
            · exact .inr ⟨u1, u2, e, hne, by simpa using RA.argErr hh' hs⟩
        · rename_i hE
          obtain ⟨v, rfl, hv, hok⟩ := okE _ _ _ _ hE
          split at h
          · rename_i hA
            cases h
            obtain ⟨us, comp, rfl, hc, hb⟩ := ihA _ _ hA
            refine ⟨v ++ us, comp, by simp, fun e => absurd (List.append_eq_nil_iff.mp e).1 hv, fun t post e post' => ?_, fun k _ => ?_⟩
            · subst e
              have := hok (us ++ t :: post') (by cases us <;> exact .inl rfl)
              simpa using RA.moreErr (hh.append hv) this (hb.sure t post rfl post')
            · have hsame : Same (us ++ rest) (us ++ comp ++ k) := by
                by_cases hu : us = []
                · subst hu; rw [hc rfl]; exact .inr (closed_close k)
                · rw [List.append_assoc]; exact Same.cons hu _ _
              have hh' : ArgHead (v ++ (us ++ comp ++ k)) := hh.append hv
              rcases hb.viable k trivial with ⟨as, ha⟩ | ⟨u1, u2, e, hne, hs⟩
              · exact .inl ⟨_, by simpa using RA.more hh' (hok _ hsame) ha⟩
              · exact .inr ⟨v ++ u1, u2, by rw [e]; simp, hne, by simpa using RA.moreErr hh' (hok _ hsame) hs⟩
          · cases h

end
end Verif.Parser
