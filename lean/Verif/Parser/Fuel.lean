import Verif.Parser.Model
/-
The fuel of the parser model: more fuel never changes a result, and `parseToks` gives enough.
-/
namespace Verif.Parser
open Verif.Ast

/-- `y` is the result `x`, unless `x` ran out of fuel. -/
def Le {α : Type} (x y : Except PErr α) : Prop := x = .error .fuel ∨ x = y

theorem Le.refl {α : Type} (x : Except PErr α) : Le x x := .inr rfl

section
variable (F : F64) (single : Bool)

theorem mono_step (n : Nat) :
    (∀ bp ts, Le (exprBp F single n bp ts) (exprBp F single (n + 1) bp ts)) ∧
    (∀ ts, Le (prim F single n ts) (prim F single (n + 1) ts)) ∧
    (∀ bp lhs ts, Le (loop F single n bp lhs ts) (loop F single (n + 1) bp lhs ts)) ∧
    (∀ ts, Le (callArgs F single n ts) (callArgs F single (n + 1) ts)) := by
  induction n with
  | zero => exact ⟨fun _ _ => .inl rfl, fun _ => .inl rfl, fun _ _ _ => .inl rfl, fun _ => .inl rfl⟩
  | succ n ih =>
    obtain ⟨ihE, ihP, ihL, ihA⟩ := ih
    refine ⟨fun bp ts => ?_, fun ts => ?_, fun bp lhs ts => ?_, fun ts => ?_⟩
    · rw [exprBp, exprBp]
      rcases ihP ts with h | h
      · rw [h]; exact .inl rfl
      · rw [← h]
        split
        · exact .refl _
        · exact ihL _ _ _
    · cases ts with
      | nil => exact .refl _
      | cons t ts =>
        rw [prim, prim]
        split
        · rcases ihE 0 ts with h | h
          · rw [h]; exact .inl rfl
          · rw [← h]; exact .refl _
        · split
          · split
            · exact .refl _
            · rename_i rbp _
              rcases ihE rbp ts with h | h
              · rw [h]; exact .inl rfl
              · rw [← h]; exact .refl _
          · exact .refl _
    · cases ts with
      | nil => exact .refl _
      | cons t ts =>
        rw [loop, loop]
        split
        · exact .refl _
        split
        · exact .refl _
        split
        · split
          · split
            · exact .refl _
            split
            · split
              · rcases ihA ts with h | h
                · rw [h]; exact .inl rfl
                · rw [← h]
                  split
                  · exact .refl _
                  · exact ihL _ _ _
              · exact .refl _
            split
            · split
              · exact ihL _ _ _
              · exact .refl _
            · exact .refl _
          · split
            · rename_i lbp rbp _
              split
              · exact .refl _
              · rcases ihE rbp ts with h | h
                · rw [h]; exact .inl rfl
                · rw [← h]
                  split
                  · exact .refl _
                  · exact ihL _ _ _
            · exact .refl _
        · exact .refl _
    · rw [callArgs, callArgs]
      split
      · exact .refl _
      split
      · exact ihA _
      · rcases ihE 0 ts with h | h
        · rw [h]; exact .inl rfl
        · rw [← h]
          split
          · exact .refl _
          · rename_i a r' _
            rcases ihA r' with h | h
            · rw [h]; exact .inl rfl
            · rw [← h]; exact .refl _

variable {F single}

theorem exprBp_mono {n m bp ts r} (h : exprBp F single n bp ts = r) (hr : r ≠ .error .fuel) (hm : n ≤ m) :
    exprBp F single m bp ts = r := by
  induction hm with
  | refl => exact h
  | step _ ih =>
    rcases (mono_step F single _).1 bp ts with h' | h'
    · rw [ih] at h'; exact absurd h' hr
    · rw [← h', ih]

theorem prim_mono {n m ts r} (h : prim F single n ts = r) (hr : r ≠ .error .fuel) (hm : n ≤ m) :
    prim F single m ts = r := by
  induction hm with
  | refl => exact h
  | step _ ih =>
    rcases (mono_step F single _).2.1 ts with h' | h'
    · rw [ih] at h'; exact absurd h' hr
    · rw [← h', ih]

theorem loop_mono {n m bp lhs ts r} (h : loop F single n bp lhs ts = r) (hr : r ≠ .error .fuel)
    (hm : n ≤ m) : loop F single m bp lhs ts = r := by
  induction hm with
  | refl => exact h
  | step _ ih =>
    rcases (mono_step F single _).2.2.1 bp lhs ts with h' | h'
    · rw [ih] at h'; exact absurd h' hr
    · rw [← h', ih]

theorem callArgs_mono {n m ts r} (h : callArgs F single n ts = r) (hr : r ≠ .error .fuel) (hm : n ≤ m) :
    callArgs F single m ts = r := by
  induction hm with
  | refl => exact h
  | step _ ih =>
    rcases (mono_step F single _).2.2.2 ts with h' | h'
    · rw [ih] at h'; exact absurd h' hr
    · rw [← h', ih]

variable (F single)

/-- Success consumes tokens from the front; and with enough fuel there is no fuel error. -/
theorem consumes (n : Nat) :
    (∀ bp ts a r, exprBp F single n bp ts = .ok (a, r) → r.length < ts.length) ∧
    (∀ ts a r, prim F single n ts = .ok (a, r) → r.length < ts.length) ∧
    (∀ bp lhs ts a r, loop F single n bp lhs ts = .ok (a, r) → r.length ≤ ts.length) ∧
    (∀ ts as r, callArgs F single n ts = .ok (as, r) → r.length < ts.length) := by
  induction n with
  | zero => exact ⟨fun _ _ _ _ h => (nomatch h), fun _ _ _ h => (nomatch h), fun _ _ _ _ _ h => (nomatch h),
      fun _ _ _ h => (nomatch h)⟩
  | succ n ih =>
    obtain ⟨ihE, ihP, ihL, ihA⟩ := ih
    refine ⟨fun bp ts a r h => ?_, fun ts a r h => ?_, fun bp lhs ts a r h => ?_, fun ts as r h => ?_⟩
    · rw [exprBp] at h
      split at h
      · cases h
      · rename_i lhs ts' hp
        have := ihP _ _ _ hp
        have := ihL _ _ _ _ _ h
        omega
    · cases ts with
      | nil => cases h
      | cons t ts =>
        rw [prim] at h
        simp only [List.length_cons]
        split at h
        · split at h
          · cases h
          · cases h
          · rename_i hE
            have := ihE _ _ _ _ hE
            simp only [List.length_cons] at this
            split at h <;> cases h
            omega
        split at h
        · split at h
          · cases h
          · split at h
            · cases h
            · rename_i hE
              have := ihE _ _ _ _ hE
              split at h <;> cases h
              omega
        split at h
        · split at h <;> cases h
          omega
        · cases h
    · cases ts with
      | nil => rw [loop] at h; cases h; simp
      | cons t ts =>
        rw [loop] at h
        split at h
        · cases h; simp
        split at h
        · cases h; simp
        simp only [List.length_cons]
        split at h
        · split at h
          · split at h
            · cases h; simp
            split at h
            · split at h
              · split at h
                · cases h
                · rename_i hA
                  have := ihA _ _ _ hA
                  have := ihL _ _ _ _ _ h
                  omega
              · cases h
            split at h
            · split at h
              · have := ihL _ _ _ _ _ h; omega
              · cases h
            · cases h
          · split at h
            · split at h
              · cases h; simp
              · split at h
                · cases h
                · rename_i hE
                  have := ihE _ _ _ _ hE
                  have := ihL _ _ _ _ _ h
                  omega
            · cases h; simp
        · cases h
    · rw [callArgs] at h
      split at h
      · rename_i hc; cases ts <;> simp at hc; cases h; simp
      split at h
      · rename_i hc; cases ts <;> simp at hc
        have := ihA _ _ _ h; simp only [List.length_cons, List.tail_cons] at this ⊢; omega
      · split at h
        · cases h
        · rename_i hE
          have := ihE _ _ _ _ hE
          split at h
          · cases h
          · rename_i hA
            cases h
            have := ihA _ _ _ hA
            omega

theorem enough (n : Nat) :
    (∀ bp ts, 3 * ts.length + 2 ≤ n → exprBp F single n bp ts ≠ .error .fuel) ∧
    (∀ ts, 3 * ts.length + 1 ≤ n → prim F single n ts ≠ .error .fuel) ∧
    (∀ bp lhs ts, 3 * ts.length + 1 ≤ n → loop F single n bp lhs ts ≠ .error .fuel) ∧
    (∀ ts, 3 * ts.length + 3 ≤ n → callArgs F single n ts ≠ .error .fuel) := by
  induction n with
  | zero => exact ⟨fun _ _ h => by omega, fun _ h => by omega, fun _ _ _ h => by omega,
      fun _ h => by omega⟩
  | succ n ih =>
    obtain ⟨ihE, ihP, ihL, ihA⟩ := ih
    obtain ⟨cE, cP, cL, cA⟩ := consumes F single n
    refine ⟨fun bp ts hl h => ?_, fun ts hl h => ?_, fun bp lhs ts hl h => ?_, fun ts hl h => ?_⟩
    · rw [exprBp] at h
      split at h
      · rename_i hp
        cases h; exact ihP _ (by omega) hp
      · rename_i lhs ts' hp
        have := cP _ _ _ hp
        exact ihL _ _ _ (by omega) h
    · cases ts with
      | nil => cases h
      | cons t ts =>
        simp only [List.length_cons] at hl
        rw [prim] at h
        split at h
        · split at h
          · rename_i hE; cases h; exact ihE _ _ (by omega) hE
          · cases h
          · split at h <;> cases h
        split at h
        · split at h
          · cases h
          · split at h
            · cases h; rename_i hE; exact ihE _ _ (by omega) hE
            · split at h <;> cases h
        split at h
        · split at h <;> cases h
        · cases h
    · cases ts with
      | nil => rw [loop] at h; cases h
      | cons t ts =>
        simp only [List.length_cons] at hl
        rw [loop] at h
        split at h
        · cases h
        split at h
        · cases h
        split at h
        · split at h
          · split at h
            · cases h
            split at h
            · split at h
              · split at h
                · rename_i hA; cases h; exact ihA _ (by omega) hA
                · rename_i hA
                  have := cA _ _ _ hA
                  exact ihL _ _ _ (by omega) h
              · cases h
            split at h
            · split at h
              · exact ihL _ _ _ (by omega) h
              · cases h
            · cases h
          · split at h
            · split at h
              · cases h
              · split at h
                · rename_i hE; cases h; exact ihE _ _ (by omega) hE
                · rename_i hE
                  have := cE _ _ _ _ hE
                  exact ihL _ _ _ (by omega) h
            · cases h
        · cases h
    · rw [callArgs] at h
      split at h
      · cases h
      split at h
      · rename_i hc; cases ts <;> simp at hc
        simp only [List.length_cons] at hl; exact ihA _ (by simp only [List.tail_cons]; omega) h
      · split at h
        · rename_i hE; cases h; exact ihE _ _ (by omega) hE
        · rename_i hE
          have := cE _ _ _ _ hE
          split at h
          · rename_i hA; cases h; exact ihA _ (by omega) hA
          · cases h

/-- The fuel of `parseToks` is enough: any successful run with some other fuel has the same result. -/
theorem parseToks_of {n ts r} (h : exprBp F single n 0 ts = .ok r) : parseToks F single ts = .ok r := by
  rcases Nat.le_total n (3 * ts.length + 2) with hle | hle
  · exact exprBp_mono h (by simp) hle
  · have h1 : parseToks F single ts ≠ .error .fuel := (enough F single _).1 0 ts (Nat.le_refl _)
    have := exprBp_mono (m := n) (r := parseToks F single ts) rfl h1 hle
    rw [← this, h]

theorem parseToks_ne_fuel (ts) : parseToks F single ts ≠ .error .fuel :=
  (enough F single _).1 0 ts (Nat.le_refl _)
end

/-! ### the lexer -/

theorem lexLoop_mono (u : Uni) {n p off line r} (h : lexLoop u n p off line = r) (hr : r ≠ .error .fuel) :
    lexLoop u (n + 1) p off line = r := by
  induction n generalizing p off line r with
  | zero => exact absurd h.symm hr
  | succ n ih =>
    rw [lexLoop] at h ⊢
    split at h
    · rename_i k b full rest _
      simp only at h ⊢
      split at h
      · rename_i ht; rw [if_pos ht]; exact h
      · rename_i ht
        rw [if_neg ht]
        split at h
        · rename_i heq; rw [ih heq (by simp)]; exact h
        · rename_i e heq
          have : e ≠ .fuel := by rintro rfl; exact hr h.symm
          rw [ih heq (by simpa using this)]; exact h
    · exact h

end Verif.Parser
