import Verif.Sheet.Formula
/-
Wrong calls in the formulas of a sheet: that they are reported, and where (C98).
-/
namespace Verif.Sheet
open Verif.Ast Verif.Cell

/-- The formula in column `x` of row `y`. -/
def formulaAt (s : Sheet) (x y : Nat) : Option Ast := ((s.rows[y]?).bind (·.cells[x]?)).bind (·.ast)

theorem formulaAt_some {s : Sheet} {x y : Nat} {f : Ast} : formulaAt s x y = some f ↔ ∃ r c, s.rows[y]? = some r ∧ r.cells[x]? = some c ∧ c.ast = some f := by
  simp only [formulaAt, Option.bind_eq_some_iff]
  constructor
  · rintro ⟨c, ⟨r, h1, h2⟩, h3⟩; exact ⟨r, c, h1, h2, h3⟩
  · rintro ⟨r, c, h1, h2, h3⟩; exact ⟨c, ⟨r, h1, h2⟩, h3⟩

/-- `f` has a call of the defined function `g` with a wrong number of arguments, which is not an argument of a call of another defined function. -/
def WrongCall (sc : Scope) (f : Ast) : Prop :=
  ∃ g nm ps body args, sc.functions g = some (.fn nm ps body) ∧ args.length ≠ ps.length ∧ Exposed sc (.call g args) f

/-- All calls in the definitions are right. -/
structure RightDefinitions (sc : Scope) (pos : Addr) : Prop where
  vars : ∀ x d v, sc.variables x = some d → resolve (some pos) d = some v → arityOk sc v
  fns : ∀ g nm ps body, sc.functions g = some (.fn nm ps body) → arityOk sc body

/-- The cells before the one with the error were evaluated. -/
theorem evalCells_err_before {sc : Scope} {y x : Nat} {cs : List Cell} {p : Addr} {e : EvalError} (h : EvalCells sc y x cs (.err p e)) :
    x ≤ p.x ∧ ∀ i c a, x + i < p.x → cs[i]? = some c → c.ast = some a → ∃ b, Eval sc (some ⟨x + i, y⟩) a (.ok b) := by
  generalize ho : Out.err p e = o at h
  induction h with
  | nil => cases ho
  | @value x c cs o hc _ ih =>
    cases o <;> cases ho
    obtain ⟨h1, h2⟩ := ih rfl
    refine ⟨by omega, fun i c' a hi hc' ha => ?_⟩
    cases i with
    | zero => cases hc'; rw [hc] at ha; cases ha
    | succ i =>
      have := h2 i c' a (by omega) hc' ha
      rwa [show x + 1 + i = x + (i + 1) by omega] at this
  | @formula x c cs o a b hc he _ ih =>
    cases o <;> cases ho
    obtain ⟨h1, h2⟩ := ih rfl
    refine ⟨by omega, fun i c' a' hi hc' ha => ?_⟩
    cases i with
    | zero => cases hc'; rw [hc] at ha; cases ha; exact ⟨b, he⟩
    | succ i =>
      have := h2 i c' a' (by omega) hc' ha
      rwa [show x + 1 + i = x + (i + 1) by omega] at this
  | @err x c cs a e hc he =>
    cases ho
    exact ⟨Nat.le_refl _, fun i _ _ hi _ _ => absurd hi (by show ¬ x + i < x; omega)⟩
  | panic => cases ho

section
variable {sc : Scope} {ext : Text → Option Ast} {s s₁ : Sheet}

/-- C98: an error is reported at a cell of the expanded sheet whose formula has a wrong call, if the definitions have none; the formulas to the left of it
in its row were evaluated. -/
theorem C98_mistake (h₁ : evalFills s = some s₁) {p : Addr} {e : EvalError} (hw : Wf (effective sc ext s₁) (some p))
    (hd : RightDefinitions (effective sc ext s₁) p) (h : EvalSheet sc ext s (.err p e)) :
    (∃ f, formulaAt s₁ p.x p.y = some f ∧ ¬ arityOk (effective sc ext s₁) f ∧ Eval (effective sc ext s₁) (some p) f (.err e)) ∧
    ∀ x f, x < p.x → formulaAt s₁ x p.y = some f → ∃ b, Eval (effective sc ext s₁) (some ⟨x, p.y⟩) f (.ok b) := by
  obtain ⟨r, c, a, h1, h2, h3, h4⟩ := C51_error_address sc ext s s₁ p e h h₁
  refine ⟨⟨a, formulaAt_some.mpr ⟨r, c, h1, h2, h3⟩, fun har => ?_, h4⟩, ?_⟩
  · obtain ⟨b, hb⟩ := C20_right_arity _ _ hw hd.vars hd.fns a har _ h4
    cases hb
  · obtain ⟨s₂, sheet, own, e', own', o', hf, e1, e2, e3, e4, hr, ho⟩ := h
    rw [h₁] at hf; cases hf
    cases hr with
    | ok => cases ho
    | panic => cases ho
    | @err y r' p e hy hr =>
      cases ho
      obtain ⟨o, h5, h6⟩ := hr
      cases o <;> cases h6
      rw [evalScope_effective e1 e2 e3 e4] at h5
      have hpy : p.y = y := by
        obtain ⟨i, _, _, _, _, rfl, _⟩ := evalCells_err h5
        rfl
      subst hpy
      obtain ⟨-, hb⟩ := evalCells_err_before h5
      intro x f hx hf
      obtain ⟨r₂, c₂, g1, g2, g3⟩ := formulaAt_some.mp hf
      rw [hy] at g1; cases g1
      have := hb x c₂ f (by omega) g2 g3
      rwa [Nat.zero_add] at this

/-- C98: a sheet with a wrong call in a formula is never compiled: every run ends with an error. -/
theorem C98_rejected (h₁ : evalFills s = some s₁) (hw : ∀ pos, Wf (effective sc ext s₁) (some pos)) {x y : Nat} {f : Ast}
    (hf : formulaAt s₁ x y = some f) (hc : WrongCall (effective sc ext s₁) f) {o : Out Sheet} (h : EvalSheet sc ext s o) : ∃ p e, o = .err p e := by
  obtain ⟨r, c, h2, h3, h4⟩ := formulaAt_some.mp hf
  cases o with
  | err p e => exact ⟨p, e, rfl⟩
  | panic => exact absurd h (C51_no_panic _ _ _)
  | ok s' =>
    obtain ⟨_, _, h5⟩ := C51_shape sc ext s s₁ s' h h₁
    obtain ⟨r', _, _, _, _, h6⟩ := h5 y r h2
    obtain ⟨c', _, _, _, _, _, h7⟩ := h6 x c h3
    obtain ⟨b, _, h8⟩ := h7 f h4
    obtain ⟨g, nm, ps, body, args, hg, hl, he⟩ := hc
    obtain ⟨e, he⟩ := C20_wrong_arity_partial _ _ (hw ⟨x, y⟩) g nm ps body hg args hl f he _ h8
    cases he

/-- C98, the part that holds: if there is only one formula with a wrong call, every run reports that one. -/
theorem C98_partial (h₁ : evalFills s = some s₁) (hw : ∀ pos, Wf (effective sc ext s₁) (some pos))
    (hd : ∀ pos, RightDefinitions (effective sc ext s₁) pos) {x y : Nat} {f : Ast}
    (hf : formulaAt s₁ x y = some f) (hc : WrongCall (effective sc ext s₁) f)
    (hone : ∀ x' y' f', formulaAt s₁ x' y' = some f' → ¬ arityOk (effective sc ext s₁) f' → x' = x ∧ y' = y) {o : Out Sheet} (h : EvalSheet sc ext s o) :
    ∃ e, o = .err ⟨x, y⟩ e := by
  obtain ⟨p, e, rfl⟩ := C98_rejected h₁ hw hf hc h
  obtain ⟨⟨f', h1, h2, _⟩, _⟩ := C98_mistake h₁ (hw p) (hd p) h
  obtain ⟨h3, h4⟩ := hone _ _ _ h1 h2
  exact ⟨e, by cases p; simp only at h3 h4; rw [h3, h4]⟩

/-- The cells of a row can be evaluated, if each formula can. -/
theorem evalCells_ends {sc : Scope} {y : Nat} (cs : List Cell) (x : Nat)
    (h : ∀ i c f, cs[i]? = some c → c.ast = some f → ∃ o, Eval sc (some ⟨x + i, y⟩) f o) : ∃ o, EvalCells sc y x cs o := by
  induction cs generalizing x with
  | nil => exact ⟨_, .nil⟩
  | cons c cs ih =>
    obtain ⟨o, ho⟩ := ih (x + 1) fun i c' f h1 h2 => by
      have := h (i + 1) c' f h1 h2
      rwa [show x + (i + 1) = x + 1 + i by omega] at this
    cases hc : c.ast with
    | none => exact ⟨_, .value hc ho⟩
    | some f =>
      obtain ⟨o', ho'⟩ := h 0 c f rfl hc
      cases o' with
      | ok b => exact ⟨_, .formula hc ho' ho⟩
      | err e => exact ⟨_, .err hc ho'⟩
      | panic => exact ⟨_, .panic hc ho'⟩

/-- C98: in every row with a wrong call there is a cell that some run reports. -/
theorem C98_any_row (h₁ : evalFills s = some s₁) (hw : ∀ pos, Wf (effective sc ext s₁) (some pos)) {own e : List (Text × Ast)}
    (e2 : IsEnum own sc.variables) (e3 : IsEnum e ext) {x y : Nat} {f : Ast} (hf : formulaAt s₁ x y = some f) (hc : WrongCall (effective sc ext s₁) f)
    (hend : ∀ x' f', formulaAt s₁ x' y = some f' → ∃ o, Eval (effective sc ext s₁) (some ⟨x', y⟩) f' o) :
    ∃ x' e', x' ≤ x ∧ EvalSheet sc ext s (.err ⟨x', y⟩ e') := by
  obtain ⟨r, c, h2, h3, h4⟩ := formulaAt_some.mp hf
  obtain ⟨sheet, e1⟩ := isEnum_collect ((insertions 0 s₁.rows).map fun p => (p.1, .cellVar p.1 p.2))
  obtain ⟨own', e4⟩ := isEnum_collect (sheet ++ own)
  obtain ⟨o, ho⟩ := evalCells_ends (sc := effective sc ext s₁) (y := y) r.cells 0 fun i c' f' h5 h6 => by
    rw [Nat.zero_add]; exact hend i f' (formulaAt_some.mpr ⟨r, c', h2, h5, h6⟩)
  have bad : ∀ o, Eval (effective sc ext s₁) (some ⟨x, y⟩) f o → ∃ e, o = .err e := by
    intro o h
    obtain ⟨g, nm, ps, body, args, hg, hl, he⟩ := hc
    exact C20_wrong_arity_partial _ _ (hw ⟨x, y⟩) g nm ps body hg args hl f he _ h
  cases o with
  | ok cs =>
    obtain ⟨_, h7⟩ := evalCells_ok ho
    obtain ⟨c', _, _, _, _, _, h8⟩ := h7 x c h3
    obtain ⟨b, _, h9⟩ := h8 f h4
    rw [Nat.zero_add] at h9
    obtain ⟨e, he⟩ := bad _ h9
    cases he
  | panic =>
    obtain ⟨i, c', a, _, _, h5⟩ := evalCells_panic ho
    exact absurd rfl (loop_not_panic (hw _) h5)
  | err p e' =>
    obtain ⟨i, _, _, _, _, h6, _⟩ := evalCells_err ho
    rw [Nat.zero_add] at h6
    subst h6
    refine ⟨i, e', ?_, s₁, sheet, own, e, own', .err ⟨i, y⟩ e', h₁, e1, e2, e3, e4, ?_, rfl⟩
    · by_contra hlt
      obtain ⟨b, hb⟩ := (evalCells_err_before ho).2 x c f (by simpa using hlt) h3 h4
      rw [Nat.zero_add] at hb
      obtain ⟨e, he⟩ := bad _ hb
      cases he
    · rw [evalScope_effective e1 e2 e3 e4]
      exact .err h2 ⟨_, ho, rfl⟩

/-- C98 is false: with wrong calls in two rows, each of the two can be the one that is reported. -/
theorem C98_violated (h₁ : evalFills s = some s₁) (hw : ∀ pos, Wf (effective sc ext s₁) (some pos)) {own e : List (Text × Ast)}
    (e2 : IsEnum own sc.variables) (e3 : IsEnum e ext) {x y x' y' : Nat} {f f' : Ast} (hy : y ≠ y') (hf : formulaAt s₁ x y = some f)
    (hc : WrongCall (effective sc ext s₁) f) (hf' : formulaAt s₁ x' y' = some f') (hc' : WrongCall (effective sc ext s₁) f')
    (hend : ∀ x y f, formulaAt s₁ x y = some f → ∃ o, Eval (effective sc ext s₁) (some ⟨x, y⟩) f o) :
    ∃ p e p' e', EvalSheet sc ext s (.err p e) ∧ EvalSheet sc ext s (.err p' e') ∧ p.y = y ∧ p'.y = y' ∧ p ≠ p' := by
  obtain ⟨i, er, _, h2⟩ := C98_any_row h₁ hw e2 e3 hf hc fun x f => hend x y f
  obtain ⟨i', er', _, h3⟩ := C98_any_row h₁ hw e2 e3 hf' hc' fun x f => hend x y' f
  exact ⟨_, er, _, er', h2, h3, rfl, rfl, fun h => hy (congrArg Addr.y h)⟩

end
/-! ### A case that meets the hypotheses -/

/-- Two rows with the formula `=f(1, 2)`. -/
def twoWrong : Sheet := ⟨[⟨{}, none, [⟨some (call "f" [I 1, I 2]), ⟨⟨0, 0⟩, [], []⟩, [], {}⟩]⟩,
  ⟨{}, none, [⟨some (call "f" [I 1, I 2]), ⟨⟨0, 1⟩, [], []⟩, [], {}⟩]⟩], false⟩

/-- `fn f(a) a`. -/
def oneFn : Scope := .ofLists [] [def' "f" ["a"] (R "a")]

theorem oneFn_effective : effective oneFn (fun _ => none) ⟨twoWrong.rows, true⟩ = oneFn := by
  have : (effective oneFn (fun _ => none) ⟨twoWrong.rows, true⟩).variables = oneFn.variables := by
    funext k
    show (none : Option Ast).or ((sheetVars ⟨twoWrong.rows, true⟩ k).or none) = none
    rfl
  show Scope.mk _ _ _ = _
  exact congrArg (fun v => Scope.mk oneFn.functions v oneFn.exports) this

theorem oneFn_fns {g : Text} {d : Ast} (h : oneFn.functions g = some d) : g = T "f" ∧ d = .fn (T "f") [T "a"] (R "a") := by
  have h' : List.lookup g [def' "f" ["a"] (R "a")] = some d := h
  simp only [def', List.lookup_cons, List.lookup_nil] at h'
  split at h'
  · rename_i hg
    cases h'
    exact ⟨eq_of_beq hg, rfl⟩
  · cases h'

theorem twoWrong_formula {x y : Nat} {f : Ast} (h : formulaAt ⟨twoWrong.rows, true⟩ x y = some f) : x = 0 ∧ (y = 0 ∨ y = 1) ∧ f = call "f" [I 1, I 2] := by
  match x, y with
  | 0, 0 => cases h; exact ⟨rfl, .inl rfl, rfl⟩
  | 0, 1 => cases h; exact ⟨rfl, .inr rfl, rfl⟩
  | x + 1, 0 | x + 1, 1 | x, y + 2 => cases h

/-- Either of the two rows can be reported. -/
example : ∃ p e p' e', EvalSheet oneFn (fun _ => none) twoWrong (.err p e) ∧ EvalSheet oneFn (fun _ => none) twoWrong (.err p' e') ∧ p.y = 0 ∧ p'.y = 1 ∧ p ≠ p' := by
  have hc : WrongCall oneFn (call "f" [I 1, I 2]) := ⟨T "f", T "f", [T "a"], R "a", [I 1, I 2], rfl, by decide, .here⟩
  refine C98_violated (s₁ := ⟨twoWrong.rows, true⟩) (own := []) (e := []) (x := 0) (x' := 0) rfl ?_ ⟨by simp, fun k v => ?_⟩ ⟨by simp, fun k v => ?_⟩ (by decide) rfl
    (by rw [oneFn_effective]; exact hc) rfl (by rw [oneFn_effective]; exact hc) ?_
  · intro pos
    rw [oneFn_effective]
    exact ⟨fun g d h => ⟨_, _, _, (oneFn_fns h).2, rfl⟩, fun x d h => nomatch h⟩
  · exact ⟨(fun h => by cases h), (fun h => by cases h)⟩
  · exact ⟨(fun h => by cases h), (fun h => by cases h)⟩
  · intro x y f hf
    obtain ⟨-, -, rfl⟩ := twoWrong_formula hf
    rw [oneFn_effective]
    refine ⟨_, .err (e := ⟨.fn (T "f") [T "a"] (R "a"), 2, 1⟩) (not_stops_fn (T "f") (by decide) (by simp)) ⟨[], [T "f"], ⟨by decide, fun _ => Iff.rfl⟩, ⟨by decide, ?_⟩, rfl⟩⟩
    intro y
    show y ∈ [T "f"] ↔ y ∈ [T "f"]
    rfl

end Verif.Sheet
