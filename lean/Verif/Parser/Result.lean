import Verif.Parser.Pratt
/-
What the lexer and parser can produce.
-/
namespace Verif.Parser
open Verif.Ast

/-! ### tokens of the lexer -/

/-- The text of a token the lexer produces. -/
def TokOk (u : Uni) (t : Tok) : Prop :=
  (t.kind = .reference → RefName u t.s) ∧
  (t.kind = .operator → t.s ∈ infixOps ∨ t.s = "%".toList) ∧
  (t.kind = .openParen → t.s = "(".toList) ∧
  t.kind ≠ .eof

theorem trim_blanks {b s : Text} (h : ∀ c ∈ b, isWs c = true) : trim (b ++ s) = trim s := by
  induction b with
  | nil => rfl
  | cons c b ih =>
    rw [List.cons_append, trim_blank_cons (h c (by simp)), ih (fun c hc => h c (by simp [hc]))]

theorem mem_takeWhile {f : Char → Bool} {c : Char} {p : Text} (h : c ∈ p.takeWhile f) : f c = true := by
  induction p with
  | nil => simp at h
  | cons d p ih =>
    rw [List.takeWhile_cons] at h
    split at h
    · rename_i hd
      rcases List.mem_cons.mp h with rfl | h
      · exact hd
      · exact ih h
    · simp at h

theorem takeWhile_blank (p : Text) : ∀ c ∈ p.takeWhile isBlank, isWs c = true := by
  intro c hc
  have := mem_takeWhile hc
  simp only [isBlank, Bool.and_eq_true] at this
  exact this.1.1

/-- When the lexer finds a reference, no other matcher matched. -/
theorem firstMatch_reference {u : Uni} {p : Text} {b full rest}
    (h : firstMatch u p = some (.reference, b, full, rest)) :
    ∀ k m, (k, m) ∈ matchers u → k ≠ .reference → m (p.dropWhile isBlank) = none := by
  intro k m hm hk
  have hsplit : matchers u = (matchers u).dropLast ++ [(.reference, mReference u)] := rfl
  have hm' : (k, m) ∈ (matchers u).dropLast := by
    rw [hsplit] at hm
    rcases List.mem_append.mp hm with hm | hm
    · exact hm
    · simp at hm; exact absurd hm.1 hk
  have hnr : ∀ km ∈ (matchers u).dropLast, km.1 ≠ Kind.reference := by
    intro km hkm
    simp only [matchers, List.dropLast_cons_cons, List.dropLast_singleton, List.mem_cons, List.not_mem_nil,
      or_false] at hkm
    rcases hkm with rfl | rfl | rfl | rfl | rfl | rfl | rfl | rfl | rfl | rfl | rfl | rfl | rfl | rfl | rfl <;>
      simp
  rw [firstMatch, hsplit, List.findSome?_append] at h
  cases hf : (matchers u).dropLast.findSome? fun (k, m) => (tryMatch m p).map fun r => (k, r) with
  | some r =>
    rw [hf] at h
    simp only [Option.or_some, Option.some_or, Option.some.injEq] at h
    obtain ⟨⟨k', m'⟩, hm'', h'⟩ := List.exists_of_findSome?_eq_some hf
    rw [Option.map_eq_some_iff] at h'
    obtain ⟨r', _, h2⟩ := h'
    rw [h] at h2
    exact absurd (congrArg (·.1) h2) (hnr _ hm'')
  | none =>
    rw [List.findSome?_eq_none_iff] at hf
    have := hf (k, m) hm'
    rw [Option.map_eq_none_iff, tryMatch] at this
    split at this
    · cases this
    · assumption

theorem mReference_some {u : Uni} {q s rest : Text} (h : mReference u q = some (s, rest)) :
    ∃ m, m ≠ [] ∧ (∀ c ∈ m, u.isRef c = true) ∧ (s = m ∨ s = m ++ ['.']) := by
  rw [mReference] at h
  split at h
  · rename_i m r hm
    cases h
    obtain ⟨_, h2, h3, _⟩ := mPlus_some hm
    exact ⟨m, h2, fun c hc => mem_takeWhile (h3 ▸ hc), .inr rfl⟩
  · obtain ⟨_, h2, h3, _⟩ := mPlus_some h
    exact ⟨s, h2, fun c hc => mem_takeWhile (h3 ▸ hc), .inl rfl⟩

theorem matchers_kind {u : Uni} {m} :
    ((.reference, m) ∈ matchers u → m = mReference u) ∧
    ((.operator, m) ∈ matchers u → m = mOperator) ∧
    ((.openParen, m) ∈ matchers u → m = mLit "(".toList) ∧
    ((.eof, m) ∉ matchers u) := by
  refine ⟨?_, ?_, ?_, ?_⟩ <;> simp [matchers]

theorem firstMatch_tokOk {u : Uni} {p : Text} {k b full rest} (h : firstMatch u p = some (k, b, full, rest)) :
    TokOk u ⟨k, trim full⟩ := by
  obtain ⟨m, s, hm, hs, rfl, rfl⟩ := firstMatch_mem h
  have happ := matcher_some u hm hs
  rw [trim_blanks (takeWhile_blank p)]
  refine ⟨?_, ?_, ?_, ?_⟩
  · intro hk
    simp only at hk; subst hk
    have hm' := matchers_kind.1 hm; subst hm'
    have hall := firstMatch_reference h
    have hshape := mReference_some hs
    have hR : RefName u s := by
      refine ⟨hshape, ?_, ?_, ?_, ?_⟩
      · intro c hc
        have h1 : mPlus u.isD (p.dropWhile isBlank) = none := hall .integer _ (by simp [matchers]) (by decide)
        rw [mPlus_none, happ.1] at h1
        cases s with
        | nil => cases hc
        | cons d s' =>
          simp at hc; subst hc
          rw [List.cons_append, List.takeWhile_cons] at h1
          split at h1
          · cases h1
          · rename_i hd; simpa using hd
      · intro hp
        have h1 : mLit "true".toList (p.dropWhile isBlank) = none := hall .boolean _ (by simp [matchers]) (by decide)
        rw [mLit, if_pos] at h1
        · cases h1
        · rw [List.isPrefixOf_iff_prefix, happ.1]; exact hp.trans (List.prefix_append ..)
      · intro hp
        have h1 : mLit "false".toList (p.dropWhile isBlank) = none := hall .boolean _ (by simp [matchers]) (by decide)
        rw [mLit, if_pos] at h1
        · cases h1
        · rw [List.isPrefixOf_iff_prefix, happ.1]; exact hp.trans (List.prefix_append ..)
      · intro hp
        have h1 : mLit "use".toList (p.dropWhile isBlank) = none := hall .useModule _ (by simp [matchers]) (by decide)
        rw [mLit, if_pos] at h1
        · cases h1
        · rw [List.isPrefixOf_iff_prefix, happ.1]; exact hp.trans (List.prefix_append ..)
    show RefName u (trim s)
    rwa [trim_all (ref_no_ws hR)]
  · intro hk
    simp only at hk; subst hk
    have hm' := matchers_kind.2.1 hm; subst hm'
    rw [mOperator] at hs
    obtain ⟨l, hl, hl'⟩ := List.exists_of_findSome?_eq_some hs
    have := (mLit_some hl').2
    subst this
    clear hs hl' happ hm h
    revert s
    decide
  · intro hk
    simp only at hk; subst hk
    have hm' := matchers_kind.2.2.1 hm; subst hm'
    have := (mLit_some hs).2
    subst this
    decide
  · rintro hk
    simp only at hk; subst hk
    exact absurd hm matchers_kind.2.2.2

theorem lexLoop_tokOk {u : Uni} {n : Nat} {p : Text} {off line pts e} (h : lexLoop u n p off line = .ok (pts, e)) :
    ∀ t ∈ pts.map (·.tok), TokOk u t := by
  induction n generalizing p off line pts e with
  | zero => cases h
  | succ n ih =>
    rw [lexLoop] at h
    split at h
    · rename_i k b full rest hf
      have hk := firstMatch_tokOk hf
      simp only at h
      split at h
      · cases h
        split <;> simp [hk]
      · split at h
        · rename_i hl
          cases h
          intro t ht
          simp only [List.map_append, List.mem_append] at ht
          rcases ht with ht | ht
          · split at ht
            · simp at ht
            · simp at ht; subst ht; exact hk
          · exact ih hl t ht
        · cases h
    · split at h
      · cases h; simp
      · cases h

theorem lex_tokOk {u : Uni} {p : Text} {pts e} (h : lex u p = .ok (pts, e)) :
    ∀ t ∈ pts.map (·.tok), TokOk u t := by
  unfold lex at h
  split at h <;> exact lexLoop_tokOk h

/-! ### operands and leftovers -/

theorem tokenOperands_append (F : F64) (a b : List Tok) :
    tokenOperands F (a ++ b) = tokenOperands F a ++ tokenOperands F b := List.filterMap_append

theorem tokenOperands_cons_none {F : F64} {t : Tok} (h : terminal F t = none) (ts : List Tok) :
    tokenOperands F (t :: ts) = tokenOperands F ts := by
  simp [tokenOperands, h]

theorem terminal_operands {F : F64} {t : Tok} {a : Ast} (h : terminal F t = some a) : operands a = [a] := by
  rw [terminal] at h
  split at h
  · split at h
    · cases h; rfl
    split at h <;> cases h
    rfl
  · rw [Option.map_eq_some_iff] at h; obtain ⟨_, _, rfl⟩ := h; rfl
  · rw [Option.map_eq_some_iff] at h; obtain ⟨_, _, rfl⟩ := h; rfl
  · cases h; rfl
  · rw [Option.map_eq_some_iff] at h; obtain ⟨_, _, rfl⟩ := h; rfl
  · cases h

theorem setSign_operands {s : Sign} {a b : Ast} (h : setSign s a = some b) : operands b = operands a := by
  cases a <;> simp [setSign] at h <;> subst h <;> rfl

theorem setPercent_operands {a b : Ast} (h : setPercent a = some b) : operands b = operands a := by
  cases a <;> simp [setPercent] at h <;> subst h <;> rfl

theorem callee_some {a : Ast} {id : Text} (h : callee a = some id) : a = .ref id := by
  cases a <;> simp [callee] at h; subst h; rfl

section
variable (F : F64) (single : Bool)

theorem used (n : Nat) :
    (∀ bp ts a r, exprBp F single n bp ts = .ok (a, r) → ∃ us, ts = us ++ r ∧ tokenOperands F us = operands a) ∧
    (∀ ts a r, prim F single n ts = .ok (a, r) → ∃ us, ts = us ++ r ∧ tokenOperands F us = operands a) ∧
    (∀ bp lhs ts a r, loop F single n bp lhs ts = .ok (a, r) →
      ∃ us, ts = us ++ r ∧ operands lhs ++ tokenOperands F us = operands a) ∧
    (∀ ts as r, callArgs F single n ts = .ok (as, r) → ∃ us, ts = us ++ r ∧ tokenOperands F us = operandsL as) := by
  induction n with
  | zero => exact ⟨fun _ _ _ _ h => (nomatch h), fun _ _ _ h => (nomatch h), fun _ _ _ _ _ h => (nomatch h),
      fun _ _ _ h => (nomatch h)⟩
  | succ n ih =>
    obtain ⟨ihE, ihP, ihL, ihA⟩ := ih
    refine ⟨fun bp ts a r h => ?_, fun ts a r h => ?_, fun bp lhs ts a r h => ?_, fun ts as r h => ?_⟩
    · rw [exprBp] at h
      split at h
      · cases h
      · rename_i lhs ts' hp
        obtain ⟨u1, rfl, h1⟩ := ihP _ _ _ hp
        obtain ⟨u2, rfl, h2⟩ := ihL _ _ _ _ _ h
        exact ⟨u1 ++ u2, by simp, by rw [tokenOperands_append, h1, h2]⟩
    · cases ts with
      | nil => cases h
      | cons t ts =>
        rw [prim] at h
        split at h
        · rename_i hk
          have ht : terminal F t = none := by simp [terminal, hk]
          split at h
          · cases h
          · cases h
          · rename_i c r' hE
            obtain ⟨us, rfl, h1⟩ := ihE _ _ _ _ hE
            split at h <;> cases h
            rename_i hc
            have hc' : terminal F c = none := by simp [terminal, hc]
            exact ⟨t :: (us ++ [c]), by simp, by
              rw [tokenOperands_cons_none ht, tokenOperands_append, tokenOperands_cons_none hc', h1]
              simp [tokenOperands]⟩
        split at h
        · rename_i hk
          have ht : terminal F t = none := by simp [terminal, hk]
          split at h
          · cases h
          · split at h
            · cases h
            · rename_i hE
              obtain ⟨us, rfl, h1⟩ := ihE _ _ _ _ hE
              split at h <;> cases h
              rename_i hs
              exact ⟨t :: us, by simp, by rw [tokenOperands_cons_none ht, h1, setSign_operands hs]⟩
        split at h
        · split at h <;> cases h
          rename_i ht
          exact ⟨[t], by simp, by simp [tokenOperands, ht, terminal_operands ht]⟩
        · cases h
    · cases ts with
      | nil => rw [loop] at h; cases h; exact ⟨[], by simp [tokenOperands]⟩
      | cons t ts =>
        have done : ∀ x : Ast × List Tok, Except.ok (ε := PErr) (lhs, t :: ts) = .ok (a, r) →
            ∃ us, t :: ts = us ++ r ∧ operands lhs ++ tokenOperands F us = operands a := by
          intro x h; cases h; exact ⟨[], by simp [tokenOperands]⟩
        rw [loop] at h
        split at h
        · exact done (lhs, ts) h
        split at h
        · exact done (lhs, ts) h
        split at h
        · rename_i hk
          have ht : terminal F t = none := by rcases hk with hk | hk <;> simp [terminal, hk]
          split at h
          · split at h
            · exact done (lhs, ts) h
            split at h
            · split at h
              · rename_i hcal
                split at h
                · cases h
                · rename_i hA
                  obtain ⟨u1, rfl, h1⟩ := ihA _ _ _ hA
                  obtain ⟨u2, rfl, h2⟩ := ihL _ _ _ _ _ h
                  refine ⟨t :: (u1 ++ u2), by simp, ?_⟩
                  rw [tokenOperands_cons_none ht, tokenOperands_append, h1, ← h2, callee_some hcal]
                  simp [operands]
              · cases h
            split at h
            · split at h
              · rename_i hs
                obtain ⟨u2, rfl, h2⟩ := ihL _ _ _ _ _ h
                exact ⟨t :: u2, by simp, by rw [tokenOperands_cons_none ht, ← h2, setPercent_operands hs]⟩
              · cases h
            · cases h
          · split at h
            · split at h
              · exact done (lhs, ts) h
              · split at h
                · cases h
                · rename_i hE
                  obtain ⟨u1, rfl, h1⟩ := ihE _ _ _ _ hE
                  obtain ⟨u2, rfl, h2⟩ := ihL _ _ _ _ _ h
                  refine ⟨t :: (u1 ++ u2), by simp, ?_⟩
                  rw [tokenOperands_cons_none ht, tokenOperands_append, h1, ← h2]
                  simp [operands]
            · exact done (lhs, ts) h
        · cases h
    · rw [callArgs] at h
      split at h
      · rename_i hc
        cases ts with
        | nil => simp at hc
        | cons t ts =>
          simp at hc
          cases h
          exact ⟨[t], by simp, by simp [tokenOperands, terminal, hc, operandsL]⟩
      split at h
      · rename_i hc
        cases ts with
        | nil => simp at hc
        | cons t ts =>
          simp at hc
          obtain ⟨us, h0, h1⟩ := ihA _ _ _ h
          simp only [List.tail_cons] at h0
          subst h0
          exact ⟨t :: us, by simp, by rw [tokenOperands_cons_none (by simp [terminal, hc]), h1]⟩
      · split at h
        · cases h
        · rename_i hE
          obtain ⟨u1, rfl, h1⟩ := ihE _ _ _ _ hE
          split at h
          · cases h
          · rename_i hA
            cases h
            obtain ⟨u2, rfl, h2⟩ := ihA _ _ _ hA
            exact ⟨u1 ++ u2, by simp, by rw [tokenOperands_append, h1, h2]; rfl⟩

theorem loop_ends {u : Uni} {n lhs ts a r} (hts : ∀ t ∈ ts, TokOk u t)
    (h : loop F single n 0 lhs ts = .ok (a, r)) : Ends single r := by
  induction n generalizing lhs ts with
  | zero => cases h
  | succ n ih =>
    cases ts with
    | nil => rw [loop] at h; cases h; trivial
    | cons t ts =>
      have htok := hts t (by simp)
      rw [loop] at h
      split at h
      · rename_i hc; cases h; exact .inr (.inr hc)
      split at h
      · rename_i hc; cases h
        rcases hc with hc | hc | hc
        · exact .inl hc
        · exact .inr (.inl hc)
        · exact absurd hc htok.2.2.2
      split at h
      · rename_i hk
        split at h
        · split at h
          · omega
          split at h
          · split at h
            · split at h
              · cases h
              · rename_i hA
                obtain ⟨us, rfl, _⟩ := (used F single n).2.2.2 _ _ _ hA
                exact ih (fun t ht => hts t (by simp [ht])) h
            · cases h
          split at h
          · split at h
            · exact ih (fun t ht => hts t (by simp [ht])) h
            · cases h
          · cases h
        · rename_i hpost
          split at h
          · split at h
            · omega
            · split at h
              · cases h
              · rename_i hE
                obtain ⟨us, rfl, _⟩ := (used F single n).1 _ _ _ _ hE
                exact ih (fun t ht => hts t (by simp [ht])) h
          · rename_i hinf
            exfalso
            rcases hk with hk | hk
            · rcases htok.2.1 hk with ho | ho
              · rw [(infixOps_power ho).2.1] at hinf; cases hinf
              · rw [ho] at hpost; revert hpost; decide
            · rw [htok.2.2.1 hk] at hpost; revert hpost; decide
      · cases h

theorem exprBp_ends {u : Uni} {n ts a r} (hts : ∀ t ∈ ts, TokOk u t)
    (h : exprBp F single n 0 ts = .ok (a, r)) : Ends single r := by
  cases n with
  | zero => cases h
  | succ n =>
    rw [exprBp] at h
    split at h
    · cases h
    · rename_i hp
      obtain ⟨us, rfl, _⟩ := (used F single n).2.1 _ _ _ hp
      exact loop_ends F single (fun t ht => hts t (by simp [ht])) h

/-! ### parsed formulas -/

/-- The formulas the parser can produce. -/
inductive Parsed (u : Uni) (F : F64) : Ast → Prop
  | bool {b} : Parsed u F (.bool b)
  | int {pct s} {v : Nat} : v < 2 ^ 63 → Parsed u F (.int pct s v)
  | float {pct s t v} : F t = some v → Parsed u F (.float pct s v)
  | ref {r} : RefName u r → Parsed u F (.ref r)
  | text {t} : Parsed u F (.text t)
  | call {n args} : RefName u n → (∀ a ∈ args, Parsed u F a) → Parsed u F (.call n args)
  | infix {l op r} : op ∈ infixOps → Parsed u F l → Parsed u F r → Parsed u F (.infix l op r)

theorem terminal_parsed {u : Uni} {t : Tok} {a : Ast} (ht : TokOk u t) (h : terminal F t = some a) :
    Parsed u F a := by
  rw [terminal] at h
  split at h
  · split at h
    · cases h; exact .bool
    split at h <;> cases h
    exact .bool
  · rw [Option.map_eq_some_iff] at h; obtain ⟨_, hv, rfl⟩ := h; exact .float hv
  · rw [Option.map_eq_some_iff] at h; obtain ⟨v, hv, rfl⟩ := h
    rw [parseI64] at hv
    split at hv
    · rename_i hc; cases hv; exact .int hc.2.2
    · cases hv
  · rename_i hk; cases h; exact .ref (ht.1 hk)
  · rw [Option.map_eq_some_iff] at h; obtain ⟨_, _, rfl⟩ := h; exact .text
  · cases h

theorem setSign_parsed {u : Uni} {s : Sign} {a b : Ast} (h : setSign s a = some b) (ha : Parsed u F a) :
    Parsed u F b := by
  cases ha <;> simp [setSign] at h <;> subst h
  · exact .int (by assumption)
  · exact .float (by assumption)

theorem setPercent_parsed {u : Uni} {a b : Ast} (h : setPercent a = some b) (ha : Parsed u F a) :
    Parsed u F b := by
  cases ha <;> simp [setPercent] at h <;> subst h
  · exact .int (by assumption)
  · exact .float (by assumption)

theorem parsed (u : Uni) (n : Nat) :
    (∀ bp ts a r, (∀ t ∈ ts, TokOk u t) → exprBp F single n bp ts = .ok (a, r) → Parsed u F a) ∧
    (∀ ts a r, (∀ t ∈ ts, TokOk u t) → prim F single n ts = .ok (a, r) → Parsed u F a) ∧
    (∀ bp lhs ts a r, (∀ t ∈ ts, TokOk u t) → Parsed u F lhs → loop F single n bp lhs ts = .ok (a, r) →
      Parsed u F a) ∧
    (∀ ts as r, (∀ t ∈ ts, TokOk u t) → callArgs F single n ts = .ok (as, r) → ∀ a ∈ as, Parsed u F a) := by
  induction n with
  | zero => exact ⟨fun _ _ _ _ _ h => (nomatch h), fun _ _ _ _ h => (nomatch h),
      fun _ _ _ _ _ _ _ h => (nomatch h), fun _ _ _ _ h => (nomatch h)⟩
  | succ n ih =>
    obtain ⟨ihE, ihP, ihL, ihA⟩ := ih
    obtain ⟨uE, uP, uL, uA⟩ := used F single n
    refine ⟨fun bp ts a r hts h => ?_, fun ts a r hts h => ?_, fun bp lhs ts a r hts hl h => ?_,
      fun ts as r hts h => ?_⟩
    · rw [exprBp] at h
      split at h
      · cases h
      · rename_i lhs ts' hp
        obtain ⟨us, rfl, _⟩ := uP _ _ _ hp
        exact ihL _ _ _ _ _ (fun t ht => hts t (by simp [ht])) (ihP _ _ _ hts hp) h
    · cases ts with
      | nil => cases h
      | cons t ts =>
        have hts' : ∀ t ∈ ts, TokOk u t := fun t ht => hts t (by simp [ht])
        rw [prim] at h
        split at h
        · split at h
          · cases h
          · cases h
          · rename_i hE
            split at h <;> cases h
            exact ihE _ _ _ _ hts' hE
        split at h
        · split at h
          · cases h
          · split at h
            · cases h
            · rename_i hE
              split at h <;> cases h
              rename_i hs
              exact setSign_parsed F hs (ihE _ _ _ _ hts' hE)
        split at h
        · split at h <;> cases h
          rename_i ht
          exact terminal_parsed F (hts _ (by simp)) ht
        · cases h
    · cases ts with
      | nil => rw [loop] at h; cases h; exact hl
      | cons t ts =>
        have hts' : ∀ t ∈ ts, TokOk u t := fun t ht => hts t (by simp [ht])
        have htok := hts t (by simp)
        rw [loop] at h
        split at h
        · cases h; exact hl
        split at h
        · cases h; exact hl
        split at h
        · rename_i hk
          split at h
          · split at h
            · cases h; exact hl
            split at h
            · split at h
              · rename_i hcal
                split at h
                · cases h
                · rename_i hA
                  obtain ⟨us, rfl, _⟩ := uA _ _ _ hA
                  have hn := callee_some hcal
                  subst hn
                  cases hl with
                  | ref hr =>
                    exact ihL _ _ _ _ _ (fun t ht => hts' t (by simp [ht])) (.call hr (ihA _ _ _ hts' hA)) h
              · cases h
            split at h
            · split at h
              · rename_i hs
                exact ihL _ _ _ _ _ hts' (setPercent_parsed F hs hl) h
              · cases h
            · cases h
          · rename_i hpost
            split at h
            · split at h
              · cases h; exact hl
              · split at h
                · cases h
                · rename_i hE
                  obtain ⟨us, rfl, _⟩ := uE _ _ _ _ hE
                  have hop : t.s ∈ infixOps := by
                    rcases hk with hk | hk
                    · rcases htok.2.1 hk with ho | ho
                      · exact ho
                      · rw [ho] at hpost; exact absurd hpost (by decide)
                    · rw [htok.2.2.1 hk] at hpost; exact absurd hpost (by decide)
                  exact ihL _ _ _ _ _ (fun t ht => hts' t (by simp [ht])) (.infix hop hl (ihE _ _ _ _ hts' hE)) h
            · cases h; exact hl
        · cases h
    · rw [callArgs] at h
      split at h
      · cases h; simp
      split at h
      · exact ihA _ _ _ (fun t ht => hts t (List.mem_of_mem_tail ht)) h
      · split at h
        · cases h
        · rename_i hE
          obtain ⟨us, rfl, _⟩ := uE _ _ _ _ hE
          split at h
          · cases h
          · rename_i hA
            cases h
            intro a ha
            rcases List.mem_cons.mp ha with rfl | ha
            · exact ihE _ _ _ _ hts hE
            · exact ihA _ _ _ (fun t ht => hts t (by simp [ht])) hA a ha

theorem UnfaithfulL_iff (as : List Ast) : UnfaithfulL F as ↔ ∃ a ∈ as, Unfaithful F a := by
  induction as with
  | nil => simp [UnfaithfulL]
  | cons a as ih => simp [UnfaithfulL, ih]

theorem Parsed.printable {u : Uni} {a : Ast} (h : Parsed u F a) (hf : ¬ Unfaithful F a) : Printable u F a := by
  induction h with
  | bool => exact absurd trivial hf
  | int hv => exact .int hv
  | float hv =>
    simp only [Unfaithful, Classical.not_not] at hf
    exact .float hf.1 hf.2
  | ref hr => exact .ref hr hf
  | text => exact .text hf
  | call hn _ ih =>
    simp only [Unfaithful, UnfaithfulL_iff, not_or, not_exists, not_and] at hf
    exact .call hn hf.1 (fun a ha => ih a ha (hf.2 a ha))
  | «infix» hop _ _ ih1 ih2 =>
    simp only [Unfaithful, not_or] at hf
    exact .infix hop (ih1 hf.1) (ih2 hf.2)
end

theorem parse_of {u : Uni} {F : F64} {p : Text} {ts : List Tok} {a : Ast} {r : List Tok} (h1 : LexTo u p ts)
    (h2 : Parses F false 0 ts a r) : parse u F ('=' :: p) = .ok a := by
  obtain ⟨e, pts, h3, h4⟩ := lex_of_LexTo h1
  obtain ⟨n, h2⟩ := h2
  rw [parse, h3]
  simp only [h4, parseToks_of F false h2]

theorem parse_some {u : Uni} {F : F64} {p : Text} {a : Ast} (h : parse u F p = .ok a) :
    ∃ ts r, (∀ t ∈ ts, TokOk u t) ∧ parseToks F false ts = .ok (a, r) ∧
      (∃ pts e, lex u p = .ok (pts, e) ∧ ts = pts.map (·.tok)) := by
  rw [parse] at h
  split at h
  · cases h
  · rename_i pts e hl
    split at h
    · cases h
    · rename_i r hp
      cases h
      exact ⟨_, r, lex_tokOk hl, hp, pts, e, hl, rfl⟩

end Verif.Parser
