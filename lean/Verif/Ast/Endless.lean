import Verif.Ast.Props
/-
An evaluation without recursive definitions that need not end (C19).
-/
namespace Verif.Ast

/-- `fn k(a, b) a + f(1)` and `fn f(c) c`: no definition is recursive. -/
def endlessScope : Scope := .ofLists [] [def' "k" ["a", "b"] (.infix (R "a") (T "+") (.call (T "f") [.int false none 1])), def' "f" ["c"] (R "c")]

/-- `k(k(b, b), k(b, b))`, which names the parameter `b` in its arguments. -/
def endlessFormula : Ast := .call (T "k") [.call (T "k") [R "b", R "b"], .call (T "k") [R "b", R "b"]]

def plusOne (x : Ast) : Ast := .infix x (T "+") (.int false none 1)
def plusF (x : Ast) : Ast := .infix x (T "+") (.call (T "f") [.int false none 1])

/-- `x + 1 + 1 + ...` with `2 * m` ones. -/
def plusOnes : Nat → Ast → Ast
  | 0, x => x
  | m + 1, x => plusOne (plusOne (plusOnes m x))

theorem callFn_plusOnes {f : Text} {fd x x' : Ast} (h : callFn f fd x = .ok x') (m : Nat) : callFn f fd (plusOnes m x) = .ok (plusOnes m x') := by
  induction m with
  | zero => exact h
  | succ m ih => simp only [plusOnes, plusOne, callFn, ih]

theorem fnRefs_plusOnes (sc : Scope) (m : Nat) (x : Ast) : fnRefs sc (plusOnes m x) = fnRefs sc x := by
  induction m with
  | zero => rfl
  | succ m ih => simp only [plusOnes, plusOne, fnRefs, ih, List.append_nil]

theorem varRefs_plusOnes (sc : Scope) (m : Nat) (x : Ast) : varRefs sc (plusOnes m x) = varRefs sc x := by
  induction m with
  | zero => rfl
  | succ m ih => simp only [plusOnes, plusOne, varRefs, ih, List.append_nil]

theorem plusOnes_shift (m : Nat) (x : Ast) : plusOnes m (plusOne (plusOne x)) = plusOnes (m + 1) x := by
  induction m with
  | zero => rfl
  | succ m ih => rw [plusOnes, ih]; rfl

/-- The formula after `i` rounds. -/
def endlessAt (i : Nat) : Ast := if i % 2 = 0 then plusOnes (i / 2) endlessFormula else plusOnes (i / 2) (plusF endlessFormula)

theorem endless_refs (i : Nat) : refsOf endlessScope (endlessAt i) = if i % 2 = 0 then ⟨[T "k", T "k", T "k"], []⟩ else ⟨[T "k", T "k", T "k", T "f"], []⟩ := by
  unfold endlessAt refsOf
  split <;> (rw [fnRefs_plusOnes, varRefs_plusOnes]; rfl)

theorem endless_round (i : Nat) : Round endlessScope none (endlessAt i) (.ok (endlessAt (i + 1))) := by
  have h := endless_refs i
  unfold refsOf at h
  rcases Nat.mod_two_eq_zero_or_one i with hi | hi
  · rw [if_pos hi, Refs.mk.injEq] at h
    refine ⟨[], [T "k"], by rw [h.2]; exact ⟨by simp, fun _ => Iff.rfl⟩, by rw [h.1]; exact ⟨by simp, by simp⟩, ?_⟩
    have e : endlessAt (i + 1) = plusOnes (i / 2) (plusF endlessFormula) := by
      rw [endlessAt, if_neg (by omega), show (i + 1) / 2 = i / 2 by omega]
    have hk := callFn_plusOnes (f := T "k") (fd := .fn (T "k") [T "a", T "b"] (.infix (R "a") (T "+") (.call (T "f") [.int false none 1]))) (x := endlessFormula) (x' := plusF endlessFormula) rfl (i / 2)
    rw [e, endlessAt, if_pos hi]
    show Outcome.ok _ = match evalFns endlessScope [T "k"] (plusOnes (i / 2) endlessFormula) with | .error e => .err e | .ok a' => .ok a'
    rw [evalFns, show endlessScope.functions (T "k") = some (.fn (T "k") [T "a", T "b"] (.infix (R "a") (T "+") (.call (T "f") [.int false none 1]))) from rfl]
    simp only [hk, evalFns]
  · rw [if_neg (by omega), Refs.mk.injEq] at h
    refine ⟨[], [T "k", T "f"], by rw [h.2]; exact ⟨by simp, fun _ => Iff.rfl⟩, by rw [h.1]; exact ⟨by decide, by simp⟩, ?_⟩
    have e : endlessAt (i + 1) = plusOnes (i / 2) (plusOne (plusOne endlessFormula)) := by
      rw [endlessAt, if_pos (by omega), show (i + 1) / 2 = i / 2 + 1 by omega, plusOnes_shift]
    have hk := callFn_plusOnes (f := T "k") (fd := .fn (T "k") [T "a", T "b"] (.infix (R "a") (T "+") (.call (T "f") [.int false none 1]))) (x := plusF endlessFormula) (x' := plusF (plusF endlessFormula)) rfl (i / 2)
    have hf := callFn_plusOnes (f := T "f") (fd := .fn (T "f") [T "c"] (R "c")) (x := plusF (plusF endlessFormula)) (x' := plusOne (plusOne endlessFormula)) rfl (i / 2)
    rw [e, endlessAt, if_neg (by omega)]
    show Outcome.ok _ = match evalFns endlessScope [T "k", T "f"] (plusOnes (i / 2) (plusF endlessFormula)) with | .error e => .err e | .ok a' => .ok a'
    rw [evalFns, show endlessScope.functions (T "k") = some (.fn (T "k") [T "a", T "b"] (.infix (R "a") (T "+") (.call (T "f") [.int false none 1]))) from rfl]
    simp only [hk]
    rw [evalFns, show endlessScope.functions (T "f") = some (.fn (T "f") [T "c"] (R "c")) from rfl]
    simp only [hf, evalFns]

/-- C19 fails even without recursive definitions: with `fn k(a, b) a + f(1)` and `fn f(c) c`, evaluating `=k(k(b, b), k(b, b))` need not end (it goes on as long as the
hash order calls `k` before `f`), because the arguments mention the parameter `b`. -/
theorem C19_acyclic_violated : Wf endlessScope none ∧ Acyclic endlessScope none [.f (T "f"), .f (T "k")] ∧ plain endlessFormula ∧ ¬ Terminates endlessScope none endlessFormula := by
  have fns : ∀ g d, endlessScope.functions g = some d → (g = T "k" ∧ d = .fn (T "k") [T "a", T "b"] (.infix (R "a") (T "+") (.call (T "f") [.int false none 1]))) ∨
      (g = T "f" ∧ d = .fn (T "f") [T "c"] (R "c")) := by
    intro g d h
    by_cases h1 : g = T "k"
    · subst h1; exact .inl ⟨rfl, (Option.some.inj h).symm⟩
    · by_cases h2 : g = T "f"
      · subst h2; exact .inr ⟨rfl, (Option.some.inj h).symm⟩
      · have : endlessScope.functions g = none := by
          simp only [endlessScope, Scope.ofLists, def', List.lookup_cons, List.lookup_nil, beq_eq_false_iff_ne.mpr h1, beq_eq_false_iff_ne.mpr h2]
        rw [this] at h; cases h
  have vars : ∀ x, endlessScope.variables x = none := fun x => rfl
  refine ⟨⟨fun g d h => ?_, fun x d h => ?_⟩, ⟨fun n hn => ?_, fun n m hn hm hnm => ?_⟩, by decide, fun h => h ⟨fun i => (match i with | 0 => ⟨[], []⟩ | i + 1 => refsOf endlessScope (endlessAt i), endlessAt i), rfl, fun i => ?_⟩⟩
  · rcases fns g d h with ⟨rfl, rfl⟩ | ⟨rfl, rfl⟩
    · exact ⟨_, _, _, rfl, by decide⟩
    · exact ⟨_, _, _, rfl, by decide⟩
  · rw [vars] at h; cases h
  · cases n with
    | v x => simp [Defined, vars] at hn
    | f g =>
      obtain ⟨d, hd⟩ := Option.isSome_iff_exists.mp hn
      rcases fns g d hd with ⟨rfl, -⟩ | ⟨rfl, -⟩ <;> simp
  · cases n with
    | v x => simp [Defined, vars] at hn
    | f g =>
      obtain ⟨nm, ps, body, h1, h2, h3⟩ := hnm
      cases m with
      | v x => simp [Defined, vars] at hm
      | f m =>
        rcases fns g _ h1 with ⟨rfl, e⟩ | ⟨rfl, e⟩
        · cases e
          have : m = T "f" := by simpa [Uses, callNames, callNamesL] using h2
          subst this
          decide
        · cases e
          simp [Uses, callNames] at h2
  · refine ⟨?_, endless_round i, rfl⟩
    show ¬ Stops _ _ (endlessAt i)
    rw [Stops, endless_refs]
    rintro (⟨h, -⟩ | h)
    · split at h <;> cases h
    · cases i with
      | zero => have := (h.1 (T "k")).mp (by simp); cases this
      | succ i =>
        have h := h.1 (T "f")
        simp only [endless_refs] at h
        rcases Nat.mod_two_eq_zero_or_one i with hi | hi
        · rw [if_pos hi, if_neg (by omega)] at h
          revert h; decide
        · rw [if_pos (show (i + 1) % 2 = 0 by omega), if_neg (show ¬ i % 2 = 0 by omega)] at h
          revert h; decide

end Verif.Ast
