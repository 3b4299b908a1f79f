import Verif.Ast.Rename
/-
Two evaluations whose formulas differ in references only (C105).
-/
namespace Verif.Ast

/-- The two formulas are the same except for references, which are related. -/
inductive Moved (R : Text → Text → Prop) : Ast → Ast → Prop
  | ref {r r' : Text} : R r r' → Moved R (.ref r) (.ref r')
  | call {n : Text} {args args' : List Ast} : args'.length = args.length → (∀ (i : Nat) a a', args[i]? = some a → args'[i]? = some a' → Moved R a a') →
      Moved R (.call n args) (.call n args')
  | fn {n : Text} {ps : List Text} {b b' : Ast} : Moved R b b' → Moved R (.fn n ps b) (.fn n ps b')
  | «infix» {op : Text} {l l' r r' : Ast} : Moved R l l' → Moved R r r' → Moved R (.infix l op r) (.infix l' op r')
  | var {n : Text} {a a' : Ast} : Moved R a a' → Moved R (.var n a) (.var n a')
  | bool {b : Bool} : Moved R (.bool b) (.bool b)
  | date {t : Text} : Moved R (.date t) (.date t)
  | float {p : Bool} {s : Option Sign} {v : Text} : Moved R (.float p s v) (.float p s v)
  | int {p : Bool} {s : Option Sign} {v : Int} : Moved R (.int p s v) (.int p s v)
  | text {t : Text} : Moved R (.text t) (.text t)
  | cellVar {n : Text} {v : CellVal} : Moved R (.cellVar n v) (.cellVar n v)

/-- The same for outcomes of evaluations. -/
inductive MovedOut (R : Text → Text → Prop) : Outcome → Outcome → Prop
  | ok {a a' : Ast} : Moved R a a' → MovedOut R (.ok a) (.ok a')
  | err {e e' : EvalError} : Moved R e.source e'.source → e'.expected = e.expected → e'.received = e.received → MovedOut R (.err e) (.err e')
  | panic : MovedOut R .panic .panic

section
variable {R : Text → Text → Prop}

theorem Moved.symm {a b : Ast} (h : Moved R a b) : Moved (fun r r' => R r' r) b a := by
  induction h with
  | ref h => exact .ref h
  | call hl _ ih => exact .call hl.symm fun i a a' ha ha' => ih i a' a ha' ha
  | fn _ ih => exact .fn ih
  | «infix» _ _ ih1 ih2 => exact .infix ih1 ih2
  | var _ ih => exact .var ih
  | bool => exact .bool
  | date => exact .date
  | float => exact .float
  | int => exact .int
  | text => exact .text
  | cellVar => exact .cellVar

theorem MovedOut.symm {a b : Outcome} (h : MovedOut R a b) : MovedOut (fun r r' => R r' r) b a := by
  cases h with
  | ok h => exact .ok h.symm
  | err h h1 h2 => exact .err h.symm h1.symm h2.symm
  | panic => exact .panic

theorem Moved.refl {a : Ast} (h : ∀ r ∈ refNames a, R r r) : Moved R a a := by
  induction a using Ast.ind with
  | hcall n args ih =>
    refine .call rfl fun i a a' ha ha' => ?_
    rw [ha] at ha'; cases ha'
    have hm := List.mem_of_getElem? ha
    exact ih a hm fun r hr => h r (by simp only [refNames, refNamesL_eq, List.mem_flatMap]; exact ⟨a, hm, hr⟩)
  | hfn n ps b ih => exact .fn (ih h)
  | hinfix l op r ih1 ih2 => exact .infix (ih1 fun x hx => h x (List.mem_append_left _ hx)) (ih2 fun x hx => h x (List.mem_append_right _ hx))
  | hvar n a ih => exact .var (ih h)
  | href r => exact .ref (h r (by simp [refNames]))
  | hcv => exact .cellVar
  | hbool => exact .bool
  | hdate => exact .date
  | hfloat => exact .float
  | hint => exact .int
  | htext => exact .text

theorem getElem?_map_some {f : Ast → Ast} {l : List Ast} {i : Nat} {b : Ast} (h : (l.map f)[i]? = some b) : ∃ a, l[i]? = some a ∧ f a = b := by
  rw [List.getElem?_map] at h
  exact Option.map_eq_some_iff.mp h

/-- A name that none of the differing references is called like. -/
def KeptName (R : Text → Text → Prop) (x : Text) : Prop := ∀ r r', R r r' → (x = r ↔ x = r')

theorem Moved.replaceVar {x : Text} (hx : KeptName R x) {s s' a b : Ast} (hs : Moved R s s') (h : Moved R a b) : Moved R (replaceVar x s a) (replaceVar x s' b) := by
  induction h with
  | ref h =>
    rename_i r r'
    simp only [Ast.replaceVar]
    by_cases e : x = r
    · rw [if_pos e, if_pos ((hx _ _ h).mp e)]; exact hs
    · rw [if_neg e, if_neg (fun e' => e ((hx _ _ h).mpr e'))]; exact .ref h
  | call hl _ ih =>
    simp only [Ast.replaceVar, replaceVars_eq]
    refine .call (by simpa using hl) fun i a a' ha ha' => ?_
    obtain ⟨c, h1, rfl⟩ := getElem?_map_some ha
    obtain ⟨c', h1', rfl⟩ := getElem?_map_some ha'
    exact ih i c c' h1 h1'
  | fn _ ih => exact .fn ih
  | «infix» _ _ ih1 ih2 => exact .infix ih1 ih2
  | var _ ih => exact .var ih
  | bool => exact .bool
  | date => exact .date
  | float => exact .float
  | int => exact .int
  | text => exact .text
  | cellVar => exact .cellVar

/-- Replacements by related formulas. -/
inductive MovedSubst (R : Text → Text → Prop) : List (Text × Ast) → List (Text × Ast) → Prop
  | nil : MovedSubst R [] []
  | cons {x : Text} {a a' : Ast} {σ σ' : List (Text × Ast)} : KeptName R x → Moved R a a' → MovedSubst R σ σ' → MovedSubst R ((x, a) :: σ) ((x, a') :: σ')

theorem Moved.replaceSeq {σ σ' : List (Text × Ast)} (hσ : MovedSubst R σ σ') {a b : Ast} (h : Moved R a b) : Moved R (replaceSeq σ a) (replaceSeq σ' b) := by
  induction hσ generalizing a b with
  | nil => exact h
  | cons hx ha _ ih => exact ih (Moved.replaceVar hx ha h)

theorem movedSubst_zip {ps : List Text} (hp : ∀ p ∈ ps, KeptName R p) {args args' : List Ast} (hl : args'.length = args.length)
    (h : ∀ (i : Nat) a a', args[i]? = some a → args'[i]? = some a' → Moved R a a') : MovedSubst R (ps.zip args) (ps.zip args') := by
  induction ps generalizing args args' with
  | nil => exact .nil
  | cons p ps ih =>
    cases args with
    | nil => cases List.length_eq_zero_iff.mp hl; exact .nil
    | cons a as =>
      cases args' with
      | nil => cases hl
      | cons a' as' =>
        exact .cons (hp p (by simp)) (h 0 a a' rfl rfl) (ih (fun q hq => hp q (by simp [hq])) (by simpa using hl) fun i b b' hb hb' =>
          h (i + 1) b b' (by simpa using hb) (by simpa using hb'))

/-- Related results of a call. -/
inductive MovedRes (R : Text → Text → Prop) : Except EvalError Ast → Except EvalError Ast → Prop
  | ok {a a' : Ast} : Moved R a a' → MovedRes R (.ok a) (.ok a')
  | err {e e' : EvalError} : Moved R e.source e'.source → e'.expected = e.expected → e'.received = e.received → MovedRes R (.error e) (.error e')

/-- Related results of calls. -/
inductive MovedResL (R : Text → Text → Prop) : Except EvalError (List Ast) → Except EvalError (List Ast) → Prop
  | ok {as as' : List Ast} : as'.length = as.length → (∀ (i : Nat) a a', as[i]? = some a → as'[i]? = some a' → Moved R a a') → MovedResL R (.ok as) (.ok as')
  | err {e e' : EvalError} : Moved R e.source e'.source → e'.expected = e.expected → e'.received = e.received → MovedResL R (.error e) (.error e')

/-- No parameter of the definition is called like a differing reference. -/
def ParamsKept (R : Text → Text → Prop) : Ast → Prop
  | .fn _ ps _ => ∀ p ∈ ps, KeptName R p
  | _ => True

theorem movedResL_of {f : Text} {fd : Ast} {args args' : List Ast} (hl : args'.length = args.length)
    (h : ∀ (i : Nat) a a', args[i]? = some a → args'[i]? = some a' → MovedRes R (callFn f fd a) (callFn f fd a')) : MovedResL R (callFns f fd args) (callFns f fd args') := by
  induction args generalizing args' with
  | nil => cases List.length_eq_zero_iff.mp hl; exact .ok rfl (by simp)
  | cons a as ih =>
    cases args' with
    | nil => cases hl
    | cons a' as' =>
      have h0 := h 0 a a' rfl rfl
      have h1 := ih (args' := as') (by simpa using hl) fun i b b' hb hb' => h (i + 1) b b' (by simpa using hb) (by simpa using hb')
      simp only [callFns]
      generalize callFn f fd a = x at h0 ⊢
      generalize callFn f fd a' = x' at h0 ⊢
      cases h0 with
      | err h2 h3 h4 => exact .err h2 h3 h4
      | ok h2 =>
        generalize callFns f fd as = y at h1 ⊢
        generalize callFns f fd as' = y' at h1 ⊢
        cases h1 with
        | err h3 h4 h5 => exact .err h3 h4 h5
        | ok h3 h4 =>
          refine .ok (by simp [h3]) fun i b b' hb hb' => ?_
          cases i with
          | zero => cases hb; cases hb'; exact h2
          | succ i => exact h4 i b b' (by simpa using hb) (by simpa using hb')

theorem Moved.callFn {f : Text} {fd : Ast} (hd : Moved R fd fd) (hp : ParamsKept R fd) {a b : Ast} (h : Moved R a b) : MovedRes R (callFn f fd a) (callFn f fd b) := by
  induction h with
  | call hl hargs ih =>
    rename_i n args args'
    simp only [Ast.callFn]
    by_cases e : n = f
    · rw [if_pos e, if_pos e]
      cases fd with
      | fn m ps body =>
        simp only [hl]
        by_cases e : args.length ≠ ps.length
        · rw [if_pos e, if_pos e]; exact .err hd rfl rfl
        · rw [if_neg e, if_neg e]
          cases hd with
          | fn hb => exact .ok (hb.replaceSeq (movedSubst_zip hp hl hargs))
      | _ => exact .ok hd
    · rw [if_neg e, if_neg e]
      have := movedResL_of hl ih
      generalize callFns f fd args = x at this ⊢
      generalize callFns f fd args' = x' at this ⊢
      cases this with
      | ok h1 h2 => exact .ok (.call h1 h2)
      | err h1 h2 h3 => exact .err h1 h2 h3
  | «infix» _ _ ih1 ih2 =>
    rename_i op l l' r r' _ _
    simp only [Ast.callFn]
    generalize Ast.callFn f fd l = x at ih1 ⊢
    generalize Ast.callFn f fd l' = x' at ih1 ⊢
    generalize Ast.callFn f fd r = y at ih2 ⊢
    generalize Ast.callFn f fd r' = y' at ih2 ⊢
    cases ih1 with
    | err h1 h2 h3 => exact .err h1 h2 h3
    | ok h1 =>
      cases ih2 with
      | err h1 h2 h3 => exact .err h1 h2 h3
      | ok h2 => exact .ok (.infix h1 h2)
  | var _ ih =>
    rename_i n a a' _
    simp only [Ast.callFn]
    generalize Ast.callFn f fd a = x at ih ⊢
    generalize Ast.callFn f fd a' = x' at ih ⊢
    cases ih with
    | err h1 h2 h3 => exact .err h1 h2 h3
    | ok h1 => exact .ok (.var h1)
  | ref h => exact .ok (.ref h)
  | fn h => exact .ok (.fn h)
  | bool => exact .ok .bool
  | date => exact .ok .date
  | float => exact .ok .float
  | int => exact .ok .int
  | text => exact .ok .text
  | cellVar => exact .ok .cellVar

/-- The two scopes have the same functions, and variables that are replaced by related formulas at the two positions. -/
structure MovedScope (R : Text → Text → Prop) (pos pos' : Option Addr) (sc sc' : Scope) : Prop where
  fns : sc'.functions = sc.functions
  body : ∀ g d, sc.functions g = some d → Moved R d d
  params : ∀ g d, sc.functions g = some d → ParamsKept R d
  vars : ∀ x, (sc.variables x = none ∧ sc'.variables x = none) ∨ ∃ d d', sc.variables x = some d ∧ sc'.variables x = some d' ∧ KeptName R x ∧
    ((resolve pos d = none ∧ resolve pos' d' = none) ∨ ∃ v v', resolve pos d = some v ∧ resolve pos' d' = some v' ∧ Moved R v v')
  free : ∀ r r', R r r' → r = r' ∨ (sc.variables r = none ∧ sc'.variables r' = none)

variable {pos pos' : Option Addr} {sc sc' : Scope}

theorem MovedScope.isSome (h : MovedScope R pos pos' sc sc') (x : Text) : (sc.variables x).isSome = (sc'.variables x).isSome := by
  rcases h.vars x with ⟨h1, h2⟩ | ⟨d, d', h1, h2, -⟩ <;> (rw [h1, h2]; try rfl)

theorem MovedScope.symm (h : MovedScope R pos pos' sc sc') : MovedScope (fun r r' => R r' r) pos' pos sc' sc where
  fns := h.fns.symm
  body g d hd := (h.body g d (by rw [← h.fns]; exact hd)).symm
  params g d hd := by
    have := h.params g d (by rw [← h.fns]; exact hd)
    cases d <;> first | exact trivial | exact fun p hp r r' hr => (this p hp r' r hr).symm
  vars x := by
    rcases h.vars x with ⟨h1, h2⟩ | ⟨d, d', h1, h2, h3, h4⟩
    · exact .inl ⟨h2, h1⟩
    · refine .inr ⟨d', d, h2, h1, fun r r' hr => (h3 r' r hr).symm, ?_⟩
      rcases h4 with ⟨h4, h5⟩ | ⟨v, v', h4, h5, h6⟩
      · exact .inl ⟨h5, h4⟩
      · exact .inr ⟨v', v, h5, h4, h6.symm⟩
  free r r' hr := by
    rcases h.free r' r hr with h | ⟨h1, h2⟩
    · exact .inl h.symm
    · exact .inr ⟨h2, h1⟩

theorem flatMap_moved {f g : Ast → List Text} {args args' : List Ast} (hl : args'.length = args.length)
    (h : ∀ (i : Nat) a a', args[i]? = some a → args'[i]? = some a' → f a = g a') : args.flatMap f = args'.flatMap g := by
  induction args generalizing args' with
  | nil => cases List.length_eq_zero_iff.mp hl; rfl
  | cons a as ih =>
    cases args' with
    | nil => cases hl
    | cons a' as' =>
      simp only [List.flatMap_cons]
      rw [h 0 a a' rfl rfl, ih (by simpa using hl) fun i b b' hb hb' => h (i + 1) b b' (by simpa using hb) (by simpa using hb')]

theorem MovedScope.varRefs (hs : MovedScope R pos pos' sc sc') {a b : Ast} (h : Moved R a b) : varRefs sc a = varRefs sc' b := by
  induction h with
  | ref h =>
    rename_i r r'
    simp only [Ast.varRefs]
    rcases hs.free r r' h with rfl | ⟨h1, h2⟩
    · rw [hs.isSome]
    · rw [h1, h2]; rfl
  | call hl _ ih =>
    simp only [Ast.varRefs, varRefsL_eq]
    exact flatMap_moved hl ih
  | fn _ ih => exact ih
  | var _ ih => exact ih
  | «infix» _ _ ih1 ih2 => simp only [Ast.varRefs]; rw [ih1, ih2]
  | _ => rfl

theorem MovedScope.fnRefs (hs : MovedScope R pos pos' sc sc') {a b : Ast} (h : Moved R a b) : fnRefs sc a = fnRefs sc' b := by
  induction h with
  | call hl _ ih =>
    simp only [Ast.fnRefs, fnRefsL_eq]
    rw [hs.fns, flatMap_moved hl ih]
  | fn _ ih => exact ih
  | var _ ih => exact ih
  | «infix» _ _ ih1 ih2 => simp only [Ast.fnRefs]; rw [ih1, ih2]
  | _ => rfl

theorem MovedScope.refsOf (hs : MovedScope R pos pos' sc sc') {a b : Ast} (h : Moved R a b) : refsOf sc a = refsOf sc' b := by
  simp only [Ast.refsOf, hs.varRefs h, hs.fnRefs h]

theorem MovedScope.resolveVars (hs : MovedScope R pos pos' sc sc') (vs : List Text) :
    (resolveVars sc pos vs = none ∧ resolveVars sc' pos' vs = none) ∨
    ∃ σ σ', resolveVars sc pos vs = some σ ∧ resolveVars sc' pos' vs = some σ' ∧ MovedSubst R σ σ' := by
  induction vs with
  | nil => exact .inr ⟨_, _, rfl, rfl, .nil⟩
  | cons v vs ih =>
    simp only [Ast.resolveVars]
    rcases hs.vars v with ⟨h1, h2⟩ | ⟨d, d', h1, h2, h3, h4⟩
    · rw [h1, h2]; exact ih
    · rw [h1, h2]
      dsimp only
      rcases h4 with ⟨h4, h5⟩ | ⟨w, w', h4, h5, h6⟩
      · rw [h4, h5]; exact .inl ⟨rfl, rfl⟩
      · rw [h4, h5]
        rcases ih with ⟨i1, i2⟩ | ⟨σ, σ', i1, i2, i3⟩
        · rw [i1, i2]; exact .inl ⟨rfl, rfl⟩
        · rw [i1, i2]; exact .inr ⟨_, _, rfl, rfl, .cons h3 h6 i3⟩

theorem MovedScope.evalFns (hs : MovedScope R pos pos' sc sc') (fs : List Text) {a b : Ast} (h : Moved R a b) : MovedRes R (evalFns sc fs a) (evalFns sc' fs b) := by
  induction fs generalizing a b with
  | nil => exact .ok h
  | cons f fs ih =>
    simp only [Ast.evalFns]
    rw [hs.fns]
    cases hd : sc.functions f with
    | none => exact ih h
    | some d =>
      dsimp only
      have := Moved.callFn (f := f) (hs.body f d hd) (hs.params f d hd) h
      generalize callFn f d a = x at this ⊢
      generalize callFn f d b = x' at this ⊢
      cases this with
      | ok h1 => exact ih h1
      | err h1 h2 h3 => exact .err h1 h2 h3

theorem MovedScope.round (hs : MovedScope R pos pos' sc sc') (vs fs : List Text) {a b : Ast} (h : Moved R a b) :
    MovedOut R (Ast.round sc pos vs fs a) (Ast.round sc' pos' vs fs b) := by
  unfold Ast.round
  rcases hs.resolveVars vs with ⟨h1, h2⟩ | ⟨σ, σ', h1, h2, h3⟩
  · rw [h1, h2]; exact .panic
  · rw [h1, h2]
    dsimp only
    have := hs.evalFns fs (h.replaceSeq h3)
    generalize Ast.evalFns sc fs (Ast.replaceSeq σ a) = x at this ⊢
    generalize Ast.evalFns sc' fs (Ast.replaceSeq σ' b) = x' at this ⊢
    cases this with
    | ok h1 => exact .ok h1
    | err h1 h2 h3 => exact .err h1 h2 h3

theorem MovedScope.Round (hs : MovedScope R pos pos' sc sc') {a b : Ast} (h : Moved R a b) {o : Outcome} (hr : Round sc pos a o) :
    ∃ o', Round sc' pos' b o' ∧ MovedOut R o o' := by
  obtain ⟨vs, fs, h1, h2, rfl⟩ := hr
  exact ⟨_, ⟨vs, fs, hs.varRefs h ▸ h1, hs.fnRefs h ▸ h2, rfl⟩, hs.round vs fs h⟩

theorem MovedScope.Loop (hs : MovedScope R pos pos' sc sc') {last : Refs} {a b : Ast} (h : Moved R a b) {o : Outcome} (hl : Loop sc pos last a o) :
    ∃ o', Loop sc' pos' last b o' ∧ MovedOut R o o' := by
  have stops : ∀ {last a b}, Moved R a b → (Stops sc last a ↔ Stops sc' last b) := by
    intro last a b h
    unfold Stops
    rw [hs.refsOf h]
  induction hl generalizing b with
  | stop h1 => exact ⟨_, .stop ((stops h).mp h1), .ok h⟩
  | again h1 h2 _ ih =>
    obtain ⟨o', k1, k2⟩ := hs.Round h h2
    cases k2 with
    | ok k2 =>
      obtain ⟨o'', m1, m2⟩ := ih k2
      exact ⟨o'', .again (fun h' => h1 ((stops h).mpr h')) k1 (by rw [← hs.refsOf h]; exact m1), m2⟩
  | err h1 h2 =>
    obtain ⟨o', k1, k2⟩ := hs.Round h h2
    cases k2 with
    | err e1 e2 e3 => exact ⟨_, .err (fun h' => h1 ((stops h).mpr h')) k1, .err e1 e2 e3⟩
  | panic h1 h2 =>
    obtain ⟨o', k1, k2⟩ := hs.Round h h2
    cases k2 with
    | panic => exact ⟨_, .panic (fun h' => h1 ((stops h).mpr h')) k1, .panic⟩

/-- Evaluations in related scopes have related outcomes. -/
theorem MovedScope.Eval (hs : MovedScope R pos pos' sc sc') {a b : Ast} (h : Moved R a b) {o : Outcome} (he : Eval sc pos a o) :
    ∃ o', Eval sc' pos' b o' ∧ MovedOut R o o' := hs.Loop h he

end
end Verif.Ast
