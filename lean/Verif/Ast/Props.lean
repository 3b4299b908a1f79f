import Verif.Ast.Arity
/-
C16-C22: evaluation of formulas.
-/
namespace Verif.Ast

/-! ### concrete scopes for the examples and counterexamples -/

/-- A scope with the given definitions. -/
def Scope.ofLists (vars fns : List (Text × Ast)) : Scope :=
  ⟨fun x => fns.lookup x, fun x => vars.lookup x, []⟩

abbrev T (s : String) : Text := s.toList
abbrev R (s : String) : Ast := .ref s.toList
abbrev I (n : Int) : Ast := .int false none n
abbrev call (f : String) (args : List Ast) : Ast := .call f.toList args
abbrev op (l : Ast) (o : String) (r : Ast) : Ast := .infix l o.toList r
abbrev def' (f : String) (ps : List String) (b : Ast) : Text × Ast :=
  (f.toList, .fn f.toList (ps.map String.toList) b)
abbrev var' (x : String) (a : Ast) : Text × Ast := (x.toList, .var x.toList a)

/-- A scope used to show that hypotheses can be met:
`rate := 5`, `total := rate * 2`, `fn double(n) n * 2`, `fn addRate(m) double(m) + rate`. -/
def demo : Scope := .ofLists
  [var' "rate" (I 5), var' "total" (op (R "rate") "*" (I 2))]
  [def' "double" ["n"] (op (R "n") "*" (I 2)),
   def' "addRate" ["m"] (op (call "double" [R "m"]) "+" (R "rate"))]

/-- The definitions of `demo` in an order in which each uses only earlier ones. -/
def demoOrder : List Name := [.v (T "rate"), .v (T "total"), .f (T "double"), .f (T "addRate")]

/-- `=addRate(3) + total + SUM(A1)` -/
def demoFormula : Ast :=
  op (call "addRate" [I 3]) "+" (op (R "total") "+" (call "SUM" [R "A1"]))

theorem demo_vars {x : Text} {d : Ast} (h : demo.variables x = some d) :
    (x = T "rate" ∧ d = .var (T "rate") (I 5)) ∨
    (x = T "total" ∧ d = .var (T "total") (op (R "rate") "*" (I 2))) := by
  have := mem_of_lookup _ _ _ h
  simp only [List.mem_cons, Prod.mk.injEq, List.not_mem_nil, or_false] at this
  exact this

theorem demo_fns {x : Text} {d : Ast} (h : demo.functions x = some d) :
    (x = T "double" ∧ d = .fn (T "double") [T "n"] (op (R "n") "*" (I 2))) ∨
    (x = T "addRate" ∧ d = .fn (T "addRate") [T "m"] (op (call "double" [R "m"]) "+" (R "rate"))) := by
  have := mem_of_lookup _ _ _ h
  simp only [List.mem_cons, Prod.mk.injEq, List.not_mem_nil, or_false] at this
  exact this

theorem demo_wf (pos : Option Addr) : Wf demo pos where
  fns := by
    intro g d h
    rcases demo_fns h with ⟨-, rfl⟩ | ⟨-, rfl⟩
    · exact ⟨_, _, _, rfl, by decide⟩
    · exact ⟨_, _, _, rfl, by decide⟩
  vars := by
    intro g d h
    rcases demo_vars h with ⟨-, rfl⟩ | ⟨-, rfl⟩
    · exact ⟨_, rfl, by decide⟩
    · exact ⟨_, rfl, by decide⟩

theorem demo_hygienic (pos : Option Addr) : Hygienic demo pos (fun p => p = T "n" ∨ p = T "m") where
  params := by
    intro g nm ps body h p hp
    rcases demo_fns h with ⟨-, h⟩ | ⟨-, h⟩ <;> cases h
    · left; simpa using hp
    · right; simpa using hp
  vars := by
    intro x d a h ha r hr
    rcases demo_vars h with ⟨-, rfl⟩ | ⟨-, rfl⟩ <;> cases ha <;> simp [refNames] at hr
    subst hr; decide
  bodies := by
    intro g nm ps body h r hr hps
    rcases demo_fns h with ⟨-, h⟩ | ⟨-, h⟩ <;> cases h <;>
      simp [refNames, refNamesL] at hr hps ⊢
    · exact absurd hr hps
    · rcases hr with rfl | rfl
      · exact absurd rfl hps
      · decide

theorem demo_acyclic (pos : Option Addr) : Acyclic demo pos demoOrder := by
  constructor
  · intro n hn
    cases n with
    | v x =>
      obtain ⟨d, hd⟩ := Option.isSome_iff_exists.mp hn
      rcases demo_vars hd with ⟨rfl, -⟩ | ⟨rfl, -⟩ <;> simp [demoOrder]
    | f x =>
      obtain ⟨d, hd⟩ := Option.isSome_iff_exists.mp hn
      rcases demo_fns hd with ⟨rfl, -⟩ | ⟨rfl, -⟩ <;> simp [demoOrder]
  · intro n m hn hm hme
    cases n with
    | v x =>
      obtain ⟨d, a, hd, ha, hu⟩ := hme
      rcases demo_vars hd with ⟨rfl, rfl⟩ | ⟨rfl, rfl⟩ <;> cases ha <;> cases m <;>
        simp [Uses, refNames, callNames] at hu
      subst hu; decide
    | f x =>
      obtain ⟨nm, ps, body, hd, hu, hps⟩ := hme
      rcases demo_fns hd with ⟨rfl, h⟩ | ⟨rfl, h⟩ <;> cases h <;> cases m <;>
        simp [Uses, refNames, refNamesL, callNames, callNamesL] at hu hps
      · exact absurd hu hps
      · rcases hu with rfl | rfl
        · exact absurd rfl hps
        · decide
      · subst hu; decide

theorem demo_flat (pos : Option Addr) : FlatScope demo pos where
  vars := by
    intro x d a h ha
    rcases demo_vars h with ⟨-, rfl⟩ | ⟨-, rfl⟩ <;> cases ha <;> simp [Flat]
  fns := by
    intro g nm ps body h
    rcases demo_fns h with ⟨-, h⟩ | ⟨-, h⟩ <;> cases h
    · simp [Flat]
    · simp only [Flat, FlatL, and_true, true_and]
      intro _ a ha m hu _
      simp at ha; subst ha
      cases m with
      | v x => simp [Uses, refNames] at hu; subst hu; exact ⟨T "m", by simp, rfl⟩
      | f x => simp [Uses, callNames] at hu

theorem demoFormula_flat : Flat demo [] demoFormula := by
  simp only [demoFormula, Flat, FlatL, and_true, true_and]
  refine ⟨?_, ?_⟩
  · intro _ a ha m hu _
    simp at ha; subst ha
    cases m <;> simp [Uses, refNames, callNames] at hu
  · intro h; exact absurd h (by decide : ¬ (demo.functions (T "SUM")).isSome = true)

/-! ### running the loop -/

theorem not_stops_fn {sc : Scope} {last : Refs} {a : Ast} (n : Text) (h : n ∈ fnRefs sc a)
    (h2 : n ∉ last.functions) : ¬ Stops sc last a := by
  rintro (he | hs)
  · rw [show fnRefs sc a = [] from he.1] at h; simp at h
  · exact h2 ((hs.1 n).mp h)

theorem not_stops_var {sc : Scope} {last : Refs} {a : Ast} (n : Text) (h : n ∈ varRefs sc a)
    (h2 : n ∉ last.variables) : ¬ Stops sc last a := by
  rintro (he | hs)
  · rw [show varRefs sc a = [] from he.2] at h; simp at h
  · exact h2 ((hs.2 n).mp h)

theorem exists_order (l : List Text) : ∃ o, IsOrder o l := by
  induction l with
  | nil => exact ⟨[], by simp [IsOrder]⟩
  | cons x l ih =>
    obtain ⟨o, h1, h2⟩ := ih
    by_cases hx : x ∈ o
    · exact ⟨o, h1, by intro y; simp only [h2, List.mem_cons]; constructor
                       · exact .inr
                       · rintro (rfl | h); exact (h2 _).mp hx; exact h⟩
    · exact ⟨x :: o, by simp [h1, hx], by intro y; simp [h2]⟩

/-- A terminating evaluation has an outcome. -/
theorem exists_outcome {sc : Scope} {pos : Option Addr} (s : Refs × Ast)
    (h : Acc (fun t s => Step sc pos s t) s) : ∃ o, Loop sc pos s.1 s.2 o := by
  induction h with
  | intro s _ ih =>
    by_cases hs : Stops sc s.1 s.2
    · exact ⟨_, .stop hs⟩
    · obtain ⟨vs, hvs⟩ := exists_order (varRefs sc s.2)
      obtain ⟨fs, hfs⟩ := exists_order (fnRefs sc s.2)
      have hr : Round sc pos s.2 (round sc pos vs fs s.2) := ⟨vs, fs, hvs, hfs, rfl⟩
      cases ho : round sc pos vs fs s.2 with
      | ok b =>
        rw [ho] at hr
        obtain ⟨o, h⟩ := ih (refsOf sc s.2, b) ⟨hs, hr, rfl⟩
        exact ⟨o, .again hs hr h⟩
      | err e => rw [ho] at hr; exact ⟨_, .err hs hr⟩
      | panic => rw [ho] at hr; exact ⟨_, .panic hs hr⟩

theorem terminates_of_acc {sc : Scope} {pos : Option Addr} {a : Ast}
    (h : Acc (fun t s => Step sc pos s t) (⟨[], []⟩, a)) : Terminates sc pos a := by
  rintro ⟨run, h0, hs⟩
  have : ∀ s, Acc (fun t s => Step sc pos s t) s → ∀ i, run i ≠ s := by
    intro s hs'
    induction hs' with
    | intro s _ ih => rintro i rfl; exact ih _ (hs i) (i + 1) rfl
  exact this _ h 0 h0

theorem round_not_panic {sc : Scope} {pos : Option Addr} (hw : Wf sc pos) {a : Ast} :
    ¬ Round sc pos a .panic := by
  rintro ⟨vs, fs, hvs, hfs, h⟩
  obtain ⟨σ, h1, -, -⟩ := resolveVars_spec hw vs fun v hv => ((mem_varRefs ..).mp ((hvs.2 v).mp hv)).2
  simp only [round, h1] at h
  split at h <;> cases h

theorem loop_not_panic {sc : Scope} {pos : Option Addr} (hw : Wf sc pos) {last : Refs} {a : Ast}
    {o : Outcome} (h : Loop sc pos last a o) : o ≠ .panic := by
  induction h with
  | stop => simp
  | again _ _ _ ih => exact ih
  | err => simp
  | panic _ hr => exact absurd hr (round_not_panic hw)

/-! ## C16 -/

/-- C16: a formula that uses no defined name evaluates to itself, and to nothing else. -/
theorem C16_unchanged (sc : Scope) (pos : Option Addr) (a : Ast)
    (h : ∀ n, Defined sc n → ¬ Uses a n) (o : Outcome) : Eval sc pos a o ↔ o = .ok a := by
  have hs : ∀ last, Stops sc last a := by
    intro last
    left
    constructor
    · apply List.eq_nil_iff_forall_not_mem.mpr
      intro f hf; have := (mem_fnRefs ..).mp hf; exact h (.f f) this.2 this.1
    · apply List.eq_nil_iff_forall_not_mem.mpr
      intro f hf; have := (mem_varRefs ..).mp hf; exact h (.v f) this.2 this.1
  constructor
  · intro he
    cases he with
    | stop _ => rfl
    | again h1 => exact absurd (hs _) h1
    | err h1 => exact absurd (hs _) h1
    | panic h1 => exact absurd (hs _) h1
  · rintro rfl; exact .stop (hs _)

/-- C16: the result of any evaluation is the formula with, at most, references to defined variables
and calls of defined functions replaced; everything else (undefined names included) is unchanged. -/
theorem C16_only_defined_altered (sc : Scope) (pos : Option Addr) (a b : Ast)
    (h : Eval sc pos a (.ok b)) : Alters sc a b :=
  alters_loop h b rfl

/-- C16, a reading of `Alters`: a call of an undefined function stays a call of that function, with
the same number of arguments. -/
theorem C16_undefined_call (sc : Scope) (pos : Option Addr) (f : Text) (args : List Ast) (b : Ast)
    (hf : sc.functions f = none) (h : Eval sc pos (.call f args) (.ok b)) :
    ∃ args', b = .call f args' ∧ args'.length = args.length := by
  cases C16_only_defined_altered sc pos _ _ h with
  | undefCall hl _ => exact ⟨_, rfl, hl.symm⟩
  | defCall h => simp [hf] at h

example : ∀ n, Defined demo n → ¬ Uses (call "SUM" [R "A1"]) n := by
  intro n hd hu
  cases n with
  | v x => simp [Uses, refNames, refNamesL] at hu; subst hu; exact absurd hd (by decide : ¬ (demo.variables (T "A1")).isSome = true)
  | f x => simp [Uses, callNames, callNamesL] at hu; subst hu; exact absurd hd (by decide : ¬ (demo.functions (T "SUM")).isSome = true)

/-! ## C17 -/

/-- C17 (partial: calls of defined functions have arguments without defined names): in a scope without
recursion the result of an evaluation uses no defined variable and no defined function. -/
theorem C17_no_defined_names_partial (sc : Scope) (pos : Option Addr) (order : List Name)
    (hw : Wf sc pos) (hac : Acyclic sc pos order) (hfl : FlatScope sc pos)
    (a b : Ast) (hpl : plain a) (ha : Flat sc [] a) (h : Eval sc pos a (.ok b)) :
    ∀ n, Defined sc n → ¬ Uses b n := by
  have he := flat_loop hw hfl hac h hpl ha (fun hs => by
    constructor
    · apply List.eq_nil_iff_forall_not_mem.mpr
      intro f hf; exact absurd ((hs.1 f).mp hf) (by simp)
    · apply List.eq_nil_iff_forall_not_mem.mpr
      intro f hf; exact absurd ((hs.2 f).mp hf) (by simp)) b rfl
  intro n hn hu
  cases n with
  | v x =>
    have : x ∈ varRefs sc b := (mem_varRefs ..).mpr ⟨hu, hn⟩
    rw [show varRefs sc b = [] from he.2] at this; simp at this
  | f x =>
    have : x ∈ fnRefs sc b := (mem_fnRefs ..).mpr ⟨hu, hn⟩
    rw [show fnRefs sc b = [] from he.1] at this; simp at this

theorem flat_no_functions {sc : Scope} (hf : ∀ g, sc.functions g = none) (a : Ast) : Flat sc [] a := by
  induction a using Ast.ind with
  | hcall n args ih =>
    simp only [Flat, FlatL_iff]
    exact ⟨ih, fun h => by simp [hf] at h⟩
  | hinfix l op r h1 h2 => exact ⟨h1, h2⟩
  | hfn _ _ _ ih => simpa only [Flat] using ih
  | hvar _ _ ih => simpa only [Flat] using ih
  | _ => simp [Flat]

/-- C17 for scopes without functions: the result refers to no defined variable. -/
theorem C17_variables_resolved (sc : Scope) (pos : Option Addr) (order : List Name)
    (hw : Wf sc pos) (hac : Acyclic sc pos order) (hnf : ∀ g, sc.functions g = none)
    (a b : Ast) (hpl : plain a) (h : Eval sc pos a (.ok b)) :
    ∀ x, (sc.variables x).isSome → x ∉ refNames b := by
  intro x hx
  exact C17_no_defined_names_partial sc pos order hw hac
    ⟨fun _ _ _ _ _ => flat_no_functions hnf _, fun g _ _ _ h => by simp [hnf] at h⟩
    a b hpl (flat_no_functions hnf a) h (.v x) hx

/-- The scope of the counterexample: `x := 7`, `fn f(a) a + x`. -/
def nested : Scope := .ofLists [var' "x" (I 7)] [def' "f" ["a"] (op (R "a") "+" (R "x"))]

/-- C17 fails with nested calls: `=x + f(f(1))` evaluates to `=(7 + (f(1) + x))`, which still refers to
`x` and calls `f`, although nothing is recursive. -/
theorem C17_violated : ∃ b, Eval nested none (op (R "x") "+" (call "f" [call "f" [I 1]])) (.ok b) ∧
    T "x" ∈ refNames b ∧ T "f" ∈ callNames b := by
  refine ⟨op (I 7) "+" (op (call "f" [I 1]) "+" (R "x")), ?_, by decide, by decide⟩
  refine .again (not_stops_fn (T "f") (by decide) (by simp))
    ⟨[T "x"], [T "f"], ⟨by decide, fun _ => Iff.rfl⟩, ⟨by decide, ?_⟩, rfl⟩ (.stop (.inr ⟨?_, ?_⟩))
  · intro y; show y ∈ [T "f"] ↔ y ∈ [T "f", T "f"]; simp
  · intro y; show y ∈ [T "f"] ↔ y ∈ [T "f", T "f"]; simp
  · intro y; exact Iff.rfl

example (b : Ast) (h : Eval demo none demoFormula (.ok b)) : ∀ n, Defined demo n → ¬ Uses b n :=
  C17_no_defined_names_partial demo none demoOrder (demo_wf _) (demo_acyclic _) (demo_flat _) _ b
    (by decide) demoFormula_flat h

/-! ## C18 -/

/-- C18: in a scope of variables without recursion the outcome is the same for all hash orders. -/
theorem C18_order_independent (sc : Scope) (pos : Option Addr) (order : List Name)
    (hw : Wf sc pos) (hac : Acyclic sc pos order) (hnf : ∀ g, sc.functions g = none)
    (a : Ast) (hpl : plain a) (o₁ o₂ : Outcome) (h₁ : Eval sc pos a o₁) (h₂ : Eval sc pos a o₂) :
    o₁ = o₂ ∧ ∃ b, o₁ = .ok b := by
  have hh : Hygienic sc pos (fun _ => False) :=
    ⟨fun g _ _ _ h => by simp [hnf] at h, by simp, fun g _ _ _ h => by simp [hnf] at h⟩
  have hfl : FlatScope sc pos :=
    ⟨fun _ _ _ _ _ => flat_no_functions hnf _, fun g _ _ _ h => by simp [hnf] at h⟩
  have key : ∀ {last a o}, Loop sc pos last a o → ∃ b, o = .ok b := by
    intro last a o h
    have hne : ∀ (a : Ast) e, ¬ Round sc pos a (.err e) := by
      rintro a e ⟨vs, fs, hvs, hfs, h⟩
      have hfs0 : fs = [] := by
        apply List.eq_nil_iff_forall_not_mem.mpr
        intro f hf
        have := ((mem_fnRefs ..).mp ((hfs.2 f).mp hf)).2
        simp [hnf] at this
      subst hfs0
      simp only [round, evalFns] at h
      split at h <;> cases h
    induction h with
    | stop => exact ⟨_, rfl⟩
    | again _ _ _ ih => exact ih
    | err _ hr => exact absurd hr (hne _ _)
    | panic _ hr => exact absurd hr (round_not_panic hw)
  obtain ⟨b₁, rfl⟩ := key h₁
  obtain ⟨b₂, rfl⟩ := key h₂
  have hinv : Inv (fun _ => False) a := ⟨hpl, by simp⟩
  have hlast : (refsOf sc a).Same ⟨[], []⟩ → (refsOf sc a).Empty := fun hs => by
    constructor
    · apply List.eq_nil_iff_forall_not_mem.mpr
      intro f hf; exact absurd ((hs.1 f).mp hf) (by simp)
    · apply List.eq_nil_iff_forall_not_mem.mpr
      intro f hf; exact absurd ((hs.2 f).mp hf) (by simp)
  have e1 := expand_loop hw hh hac h₁ hinv b₁ rfl
  have e2 := expand_loop hw hh hac h₂ hinv b₂ rfl
  rw [expand_of_empty (flat_loop hw hfl hac h₁ hpl (flat_no_functions hnf a) hlast b₁ rfl)] at e1
  rw [expand_of_empty (flat_loop hw hfl hac h₂ hpl (flat_no_functions hnf a) hlast b₂ rfl)] at e2
  exact ⟨by rw [e1, e2], _, rfl⟩

/-- C18 with functions (hygienic parameters, flat calls): successful outcomes do not depend on the hash
orders. -/
theorem C18_functions_order_independent (sc : Scope) (pos : Option Addr) (order : List Name)
    (isParam : Text → Prop) (hw : Wf sc pos) (hac : Acyclic sc pos order)
    (hh : Hygienic sc pos isParam) (hfl : FlatScope sc pos)
    (a b₁ b₂ : Ast) (hpl : plain a) (hp : ∀ r ∈ refNames a, ¬ isParam r) (ha : Flat sc [] a)
    (h₁ : Eval sc pos a (.ok b₁)) (h₂ : Eval sc pos a (.ok b₂)) : b₁ = b₂ := by
  have hlast : (refsOf sc a).Same ⟨[], []⟩ → (refsOf sc a).Empty := fun hs => by
    constructor
    · apply List.eq_nil_iff_forall_not_mem.mpr
      intro f hf; exact absurd ((hs.1 f).mp hf) (by simp)
    · apply List.eq_nil_iff_forall_not_mem.mpr
      intro f hf; exact absurd ((hs.2 f).mp hf) (by simp)
  have e1 := expand_loop hw hh hac h₁ ⟨hpl, hp⟩ b₁ rfl
  have e2 := expand_loop hw hh hac h₂ ⟨hpl, hp⟩ b₂ rfl
  rw [expand_of_empty (flat_loop hw hfl hac h₁ hpl ha hlast b₁ rfl)] at e1
  rw [expand_of_empty (flat_loop hw hfl hac h₂ hpl ha hlast b₂ rfl)] at e2
  rw [e1, e2]

/-- The scope of the counterexample: `fn f(a) g(a)`, `fn g(b) b + 1`. -/
def chain : Scope := .ofLists [] [def' "f" ["a"] (call "g" [R "a"]), def' "g" ["b"] (op (R "b") "+" (I 1))]

/-- C18 fails for nested calls: `=f(f(g(g(1))))` has two different results, depending on the order in
which the hash set of called functions is iterated. -/
theorem C18_functions_violated :
    ∃ b₁ b₂, Eval chain none (call "f" [call "f" [call "g" [call "g" [I 1]]]]) (.ok b₁) ∧
      Eval chain none (call "f" [call "f" [call "g" [call "g" [I 1]]]]) (.ok b₂) ∧ b₁ ≠ b₂ := by
  refine ⟨op (call "f" [call "g" [call "g" [I 1]]]) "+" (I 1),
    call "g" [call "f" [op (call "g" [I 1]) "+" (I 1)]], ?_, ?_, ?_⟩
  · refine .again (not_stops_fn (T "f") (by decide) (by simp))
      ⟨[], [T "f", T "g"], ⟨by decide, fun _ => Iff.rfl⟩, ⟨by decide, ?_⟩, rfl⟩ (.stop (.inr ⟨?_, ?_⟩))
    · intro y; show y ∈ [T "f", T "g"] ↔ y ∈ [T "f", T "f", T "g", T "g"]; simp
    · intro y; show y ∈ [T "f", T "g", T "g"] ↔ y ∈ [T "f", T "f", T "g", T "g"]; simp
    · intro y; exact Iff.rfl
  · refine .again (not_stops_fn (T "f") (by decide) (by simp))
      ⟨[], [T "g", T "f"], ⟨by decide, fun _ => Iff.rfl⟩, ⟨by decide, ?_⟩, rfl⟩ (.stop (.inr ⟨?_, ?_⟩))
    · intro y; show y ∈ [T "g", T "f"] ↔ y ∈ [T "f", T "f", T "g", T "g"]; simp; tauto
    · intro y; show y ∈ [T "g", T "f", T "g"] ↔ y ∈ [T "f", T "f", T "g", T "g"]; simp; tauto
    · intro y; exact Iff.rfl
  · simp

/-! ## C19 -/

/-- C19 (partial: without recursion): evaluation ends for all hash orders, with some outcome that is
not a panic.  Parameter names must not be used for anything else. -/
theorem C19_terminates_partial (sc : Scope) (pos : Option Addr) (order : List Name)
    (isParam : Text → Prop) (hw : Wf sc pos) (hac : Acyclic sc pos order)
    (hh : Hygienic sc pos isParam) (a : Ast) (hpl : plain a) (hp : ∀ r ∈ refNames a, ¬ isParam r) :
    Terminates sc pos a ∧ ∃ o, Eval sc pos a o ∧ o ≠ .panic := by
  have hacc := step_acc hw hh hac ⟨[], []⟩ a ⟨hpl, hp⟩
  obtain ⟨o, ho⟩ := exists_outcome _ hacc
  exact ⟨terminates_of_acc hacc, o, ho, loop_not_panic hw ho⟩

/-- C19 (partial: without recursion and with flat calls), without the condition on parameter names. -/
theorem C19_flat_terminates_partial (sc : Scope) (pos : Option Addr) (order : List Name)
    (hw : Wf sc pos) (hac : Acyclic sc pos order) (hfl : FlatScope sc pos) (a : Ast) (hpl : plain a)
    (ha : Flat sc [] a) : Terminates sc pos a ∧ ∃ o, Eval sc pos a o ∧ o ≠ .panic := by
  have hacc := flat_step_acc hw hfl hac ⟨[], []⟩ a hpl ha
  obtain ⟨o, ho⟩ := exists_outcome _ hacc
  exact ⟨terminates_of_acc hacc, o, ho, loop_not_panic hw ho⟩

/-- `x := y`, `y := x`. -/
def loopScope : Scope := .ofLists [var' "x" (R "y"), var' "y" (R "x")] []

/-- C19 fails: with `x := y` and `y := x` the formula `=x` is evaluated forever. -/
theorem C19_violated : ¬ Terminates loopScope none (R "x") := by
  intro h
  apply h
  let s : Nat → Text := fun i => if i % 2 = 0 then T "x" else T "y"
  refine ⟨fun i => match i with | 0 => (⟨[], []⟩, R "x") | i + 1 => (refsOf loopScope (.ref (s i)), .ref (s (i + 1))),
    rfl, ?_⟩
  have step : ∀ i last, s i ∉ last.variables →
      Step loopScope none (last, .ref (s i)) (refsOf loopScope (.ref (s i)), .ref (s (i + 1))) := by
    intro i last hl
    rcases Nat.mod_two_eq_zero_or_one i with h | h
    · have h1 : s i = T "x" := by simp [s, h]
      have h2 : s (i + 1) = T "y" := by simp [s, show (i + 1) % 2 = 1 by omega]
      rw [h1] at hl
      rw [h1, h2]
      exact ⟨not_stops_var (T "x") (show T "x" ∈ varRefs loopScope (R "x") by decide) hl,
        ⟨[T "x"], [], ⟨by decide, fun _ => Iff.rfl⟩, ⟨by decide, fun _ => Iff.rfl⟩, rfl⟩, rfl⟩
    · have h1 : s i = T "y" := by simp [s, h]
      have h2 : s (i + 1) = T "x" := by simp [s, show (i + 1) % 2 = 0 by omega]
      rw [h1] at hl
      rw [h1, h2]
      exact ⟨not_stops_var (T "y") (show T "y" ∈ varRefs loopScope (R "y") by decide) hl,
        ⟨[T "y"], [], ⟨by decide, fun _ => Iff.rfl⟩, ⟨by decide, fun _ => Iff.rfl⟩, rfl⟩, rfl⟩
  intro i
  cases i with
  | zero => exact step 0 ⟨[], []⟩ (by simp)
  | succ i =>
    apply step (i + 1)
    rcases Nat.mod_two_eq_zero_or_one i with h | h
    · have h1 : s i = T "x" := by simp [s, h]
      have h2 : s (i + 1) = T "y" := by simp [s, show (i + 1) % 2 = 1 by omega]
      rw [h1, h2]; decide
    · have h1 : s i = T "y" := by simp [s, h]
      have h2 : s (i + 1) = T "x" := by simp [s, show (i + 1) % 2 = 0 by omega]
      rw [h1, h2]; decide

example : Terminates demo none demoFormula ∧ ∃ o, Eval demo none demoFormula o ∧ o ≠ .panic :=
  C19_terminates_partial demo none demoOrder _ (demo_wf _) (demo_acyclic _) (demo_hygienic _) _
    (by decide) (by intro r hr; simp [demoFormula, refNames, refNamesL] at hr
                    rcases hr with rfl | rfl <;> decide)

/-! ## C20 -/

/-- C20 (partial: the call is not inside an argument of another user-defined call): calling a
user-defined function with the wrong number of arguments always is an evaluation error. -/
theorem C20_wrong_arity_partial (sc : Scope) (pos : Option Addr) (hw : Wf sc pos)
    (f nm : Text) (ps : List Text) (body : Ast) (hf : sc.functions f = some (.fn nm ps body))
    (args : List Ast) (hl : args.length ≠ ps.length) (a : Ast) (he : Exposed sc (.call f args) a)
    (o : Outcome) (h : Eval sc pos a o) : ∃ e, o = .err e := by
  have hfr : f ∈ fnRefs sc a := (mem_fnRefs ..).mpr ⟨exposed_uses he, by simp [hf]⟩
  have key : ∀ o, Round sc pos a o → ∃ e, o = .err e := by
    rintro o ⟨vs, fs, hvs, hfs, rfl⟩
    obtain ⟨σ, h1, -, -⟩ := resolveVars_spec hw vs fun v hv => ((mem_varRefs ..).mp ((hvs.2 v).mp hv)).2
    obtain ⟨e, he⟩ := badCall_evalFns hf fs ((hfs.2 f).mpr hfr) (badCall_replaceSeq σ ⟨args, hl, he⟩)
    exact ⟨e, by simp [round, h1, he]⟩
  cases h with
  | stop hs => exact absurd hs (not_stops_fn f hfr (by simp))
  | again _ hr => obtain ⟨e, he⟩ := key _ hr; cases he
  | err _ hr => exact ⟨_, rfl⟩
  | panic _ hr => obtain ⟨e, he⟩ := key _ hr; cases he

/-- C20: if every call has the right number of arguments, evaluation never fails. -/
theorem C20_right_arity (sc : Scope) (pos : Option Addr) (hw : Wf sc pos)
    (hv : ∀ x d v, sc.variables x = some d → resolve pos d = some v → arityOk sc v)
    (hb : ∀ g nm ps body, sc.functions g = some (.fn nm ps body) → arityOk sc body)
    (a : Ast) (ha : arityOk sc a) (o : Outcome) (h : Eval sc pos a o) : ∃ b, o = .ok b := by
  have key : ∀ a o, arityOk sc a → Round sc pos a o → ∃ b, o = .ok b ∧ arityOk sc b := by
    rintro a o ha ⟨vs, fs, hvs, hfs, rfl⟩
    obtain ⟨σ, h1, -, h3⟩ := resolveVars_spec hw vs fun v hv => ((mem_varRefs ..).mp ((hvs.2 v).mp hv)).2
    obtain ⟨b, hb1, hb2⟩ := arityOk_evalFns hw hb fs (replaceSeq σ a)
      (arityOk_replaceSeq σ a (fun p hp => by
        obtain ⟨d, hd, hr⟩ := h3 p hp; exact hv p.1 d p.2 hd hr) ha)
    exact ⟨b, by simp [round, h1, hb1], hb2⟩
  have : ∀ {last a o}, Loop sc pos last a o → arityOk sc a → ∃ b, o = .ok b := by
    intro last a o h
    induction h with
    | stop => exact fun _ => ⟨_, rfl⟩
    | again _ hr _ ih =>
      intro ha
      obtain ⟨b, hb, hok⟩ := key _ _ ha hr
      cases hb; exact ih hok
    | err _ hr => intro ha; obtain ⟨b, hb, _⟩ := key _ _ ha hr; cases hb
    | panic _ hr => intro ha; obtain ⟨b, hb, _⟩ := key _ _ ha hr; cases hb
  exact this h ha

/-- `fn g(a) 0`, `fn f(a) a`. -/
def dropScope : Scope := .ofLists [] [def' "g" ["a"] (I 0), def' "f" ["a"] (R "a")]

/-- C20 fails for a call nested in another: `=g(f(1, 2))`, where `f` takes one argument, is an error or
evaluates to `0` depending on the hash order. -/
theorem C20_violated :
    (∃ e, Eval dropScope none (call "g" [call "f" [I 1, I 2]]) (.err e)) ∧
    Eval dropScope none (call "g" [call "f" [I 1, I 2]]) (.ok (I 0)) := by
  constructor
  · refine ⟨⟨.fn (T "f") [T "a"] (R "a"), 2, 1⟩, .err (not_stops_fn (T "f") (by decide) (by simp)) ?_⟩
    refine ⟨[], [T "f", T "g"], ⟨by decide, fun _ => Iff.rfl⟩, ⟨by decide, ?_⟩, rfl⟩
    intro y; show y ∈ [T "f", T "g"] ↔ y ∈ [T "g", T "f"]; simp; tauto
  · refine .again (not_stops_fn (T "f") (by decide) (by simp))
      ⟨[], [T "g", T "f"], ⟨by decide, fun _ => Iff.rfl⟩, ⟨by decide, ?_⟩, rfl⟩ (.stop (.inl ⟨rfl, rfl⟩))
    intro y; exact Iff.rfl

/-- The error of a wrong call reports the numbers the wrong way round: the number of arguments given
where the message says "Expected", the number of parameters where it says "received". -/
theorem C20_message_swapped (sc : Scope) (pos : Option Addr) (hw : Wf sc pos) (a : Ast) (e : EvalError)
    (h : Eval sc pos a (.err e)) : ∃ f nm ps body, sc.functions f = some (.fn nm ps body) ∧
      e.received = ps.length ∧ e.expected ≠ ps.length := by
  have key : ∀ fs a, evalFns sc fs a = .error e → ∃ f nm ps body,
      sc.functions f = some (.fn nm ps body) ∧ e.received = ps.length ∧ e.expected ≠ ps.length := by
    intro fs
    induction fs with
    | nil => intro a h; cases h
    | cons f fs ih =>
      intro a h
      simp only [evalFns] at h
      cases hf : sc.functions f with
      | none => rw [hf] at h; exact ih a h
      | some d =>
        rw [hf] at h; simp only at h
        obtain ⟨nm, ps, body, rfl, -⟩ := hw.fns f d hf
        cases hc : callFn f (.fn nm ps body) a with
        | ok a' => rw [hc] at h; exact ih a' h
        | error e' =>
          rw [hc] at h; cases h
          exact ⟨f, nm, ps, body, hf, (callFn_error_numbers hc).2⟩
  have : ∀ {last a o}, Loop sc pos last a o → o = .err e → ∃ f nm ps body,
      sc.functions f = some (.fn nm ps body) ∧ e.received = ps.length ∧ e.expected ≠ ps.length := by
    intro last a o h
    induction h with
    | stop => intro h; cases h
    | again _ _ _ ih => exact ih
    | err _ hr =>
      rintro ⟨⟩
      obtain ⟨vs, fs, hvs, hfs, h⟩ := hr
      simp only [round] at h
      split at h
      · cases h
      · split at h
        · cases h; exact key _ _ ‹_›
        · cases h
    | panic => intro h; cases h
  exact this h rfl

example : Exposed demo (call "double" [I 1, I 2]) (call "SUM" [call "double" [I 1, I 2]]) :=
  .arg (by decide) (by simp) .here
example : arityOk demo demoFormula := by
  simp only [demoFormula, arityOk, arityOkL, and_true, true_and]
  refine ⟨?_, ?_⟩
  · intro nm ps body h; rcases demo_fns h with ⟨h, -⟩ | ⟨-, h⟩
    · exact absurd h (by decide)
    · cases h; rfl
  · intro nm ps body h; rcases demo_fns h with ⟨h, -⟩ | ⟨h, -⟩ <;> exact absurd h (by decide)

/-! ## C21 -/

/-- C21 (partial: no argument mentions the name of a later parameter; arguments and body use no defined
name): a call evaluates to the body with all parameters replaced by their arguments simultaneously. -/
theorem C21_call_partial (sc : Scope) (pos : Option Addr) (f nm : Text) (ps : List Text) (body : Ast)
    (hf : sc.functions f = some (.fn nm ps body)) (args : List Ast) (hl : args.length = ps.length)
    (hcap : NoCapture ps args)
    (hargs : ∀ e ∈ args, ∀ n, Defined sc n → ¬ Uses e n)
    (hbody : ∀ n, Defined sc n → Uses body n → ∃ p ∈ ps, n = .v p)
    (o : Outcome) : Eval sc pos (.call f args) o ↔ o = .ok (subst (bind ps args) body) := by
  have hvr : varRefs sc (.call f args) = [] := by
    apply List.eq_nil_iff_forall_not_mem.mpr
    intro x hx
    obtain ⟨h1, h2⟩ := (mem_varRefs ..).mp hx
    simp only [refNames, refNamesL_eq, List.mem_flatMap] at h1
    obtain ⟨e, he, h1⟩ := h1
    exact hargs e he (.v x) h2 h1
  have hfr : ∀ g, g ∈ fnRefs sc (.call f args) ↔ g = f := by
    intro g
    rw [mem_fnRefs]
    simp only [callNames, callNamesL_eq, List.mem_cons, List.mem_flatMap]
    constructor
    · rintro ⟨rfl | ⟨e, he, h1⟩, h2⟩
      · rfl
      · exact absurd h1 (hargs e he (.f g) h2)
    · rintro rfl; exact ⟨.inl rfl, by simp [hf]⟩
  have hround : ∀ o, Round sc pos (.call f args) o ↔ o = .ok (subst (bind ps args) body) := by
    intro o
    rw [← replaceSeq_eq_subst_later ps args body hcap hl]
    constructor
    · rintro ⟨vs, fs, ⟨-, hvs⟩, ⟨hnd, hfs⟩, rfl⟩
      have : vs = [] := by
        apply List.eq_nil_iff_forall_not_mem.mpr
        intro x hx; rw [hvs, hvr] at hx; simp at hx
      subst this
      have : fs = [f] := by
        match fs with
        | [] => have := (hfs f).mpr ((hfr f).mpr rfl); simp at this
        | [g] => rw [(hfr g).mp ((hfs g).mp (by simp))]
        | g :: g' :: gs =>
          have h1 := (hfr g).mp ((hfs g).mp (by simp))
          have h2 := (hfr g').mp ((hfs g').mp (by simp))
          rw [h1, h2] at hnd; simp at hnd
      subst this
      simp [round, resolveVars, evalFns, hf, replaceSeq, callFn, hl]
    · rintro rfl
      refine ⟨[], [f], ⟨by simp, by simp [hvr]⟩, ⟨by simp, by intro y; rw [hfr]; simp⟩, ?_⟩
      simp [round, resolveVars, evalFns, hf, replaceSeq, callFn, hl]
  have hdone : ∀ last, Stops sc last (subst (bind ps args) body) := by
    intro last
    left
    rw [← replaceSeq_eq_subst_later ps args body hcap hl]
    constructor
    · apply List.eq_nil_iff_forall_not_mem.mpr
      intro x hx
      obtain ⟨h1, h2⟩ := (mem_fnRefs ..).mp hx
      rcases mem_callNames_replaceSeq _ _ _ h1 with h | ⟨p, hp, h⟩
      · obtain ⟨p, _, hp⟩ := hbody (.f x) h2 h; cases hp
      · exact hargs p.2 (List.of_mem_zip hp).2 (.f x) h2 h
    · apply List.eq_nil_iff_forall_not_mem.mpr
      intro x hx
      obtain ⟨h1, h2⟩ := (mem_varRefs ..).mp hx
      rcases mem_refNames_replaceSeq ps args body x hl h1 with ⟨h, hx⟩ | ⟨e, he, h⟩
      · obtain ⟨p, hp, hpx⟩ := hbody (.v x) h2 h
        cases hpx; exact hx hp
      · exact hargs e he (.v x) h2 h
  have hns : ¬ Stops sc ⟨[], []⟩ (.call f args) := not_stops_fn f ((hfr f).mpr rfl) (by simp)
  constructor
  · intro h
    cases h with
    | stop hs => exact absurd hs hns
    | again _ hr hloop =>
      have := (hround _).mp hr; cases this
      cases hloop with
      | stop => rfl
      | again h => exact absurd (hdone _) h
      | err h => exact absurd (hdone _) h
      | panic h => exact absurd (hdone _) h
    | err _ hr => have := (hround _).mp hr; cases this
    | panic _ hr => have := (hround _).mp hr; cases this
  · rintro rfl
    exact .again hns ((hround _).mpr rfl) (.stop (hdone _))

/-- The reference semantics for nested definitions: in a hygienic scope without recursion, whatever the
hash orders, an evaluation that leaves no defined name has produced the full expansion of the formula,
in which all arguments are substituted simultaneously. -/
theorem C21_full_expansion_partial (sc : Scope) (pos : Option Addr) (order : List Name)
    (isParam : Text → Prop) (hw : Wf sc pos) (hac : Acyclic sc pos order)
    (hh : Hygienic sc pos isParam) (a b : Ast) (hpl : plain a) (hp : ∀ r ∈ refNames a, ¬ isParam r)
    (h : Eval sc pos a (.ok b)) (hb : ∀ n, Defined sc n → ¬ Uses b n) : b = expand sc pos order a := by
  rw [← expand_loop hw hh hac h ⟨hpl, hp⟩ b rfl, expand_of_empty]
  constructor
  · apply List.eq_nil_iff_forall_not_mem.mpr
    intro f hf; have := (mem_fnRefs ..).mp hf; exact hb (.f f) this.2 this.1
  · apply List.eq_nil_iff_forall_not_mem.mpr
    intro f hf; have := (mem_varRefs ..).mp hf; exact hb (.v f) this.2 this.1

/-- `fn f(a, b) a + b`. -/
def addScope : Scope := .ofLists [] [def' "f" ["a", "b"] (op (R "a") "+" (R "b"))]

/-- C21 fails when an argument has the name of a later parameter: `=f(b, 1)` evaluates to `=(1 + 1)`
instead of `=(b + 1)`. -/
theorem C21_violated :
    Eval addScope none (call "f" [R "b", I 1]) (.ok (op (I 1) "+" (I 1))) ∧
    subst (bind [T "a", T "b"] [R "b", I 1]) (op (R "a") "+" (R "b")) = op (R "b") "+" (I 1) := by
  refine ⟨?_, rfl⟩
  refine .again (not_stops_fn (T "f") (by decide) (by simp))
    ⟨[], [T "f"], ⟨by decide, fun _ => Iff.rfl⟩, ⟨by decide, by intro y; exact Iff.rfl⟩, rfl⟩ (.stop (.inl ⟨rfl, rfl⟩))

example : Eval addScope none (call "f" [R "a", R "c"]) (.ok (op (R "a") "+" (R "c"))) := by
  refine (C21_call_partial addScope none (T "f") (T "f") [T "a", T "b"] (op (R "a") "+" (R "b")) rfl
    [R "a", R "c"] rfl ?_ ?_ ?_ _).mpr rfl
  · intro i j p e hij hp he
    match i, j with
    | 0, 1 => simp at hp he; subst hp he; decide
    | 0, j + 2 => simp at hp
    | i + 1, j + 2 => simp at hp
    | i + 1, 1 => omega
    | i, 0 => omega
  · intro e he n hd hu
    cases n with
    | v x => simp [Defined, addScope, Scope.ofLists] at hd
    | f x => simp at he; rcases he with rfl | rfl <;> simp [Uses, callNames] at hu
  · intro n hd hu
    cases n with
    | v x => simp [Defined, addScope, Scope.ofLists] at hd
    | f x => simp [Uses, callNames] at hu

/-! ## C22 -/

theorem collect_append (l₁ l₂ : List (Text × Ast)) (m₁ m₂ : Text → Option Ast) (h₁ : IsEnum l₁ m₁)
    (h₂ : IsEnum l₂ m₂) (k : Text) : collect (l₁ ++ l₂) k = (m₂ k).or (m₁ k) := by
  have key : ∀ (l : List (Text × Ast)) (m : Text → Option Ast) (m0 : Text → Option Ast), IsEnum l m →
      ∀ k, l.foldl (fun m p k => if k = p.1 then some p.2 else m k) m0 k = (m k).or (m0 k) := by
    intro l
    induction l with
    | nil =>
      intro m m0 h k
      cases hm : m k with
      | none => simp
      | some v => exact absurd ((h.2 k v).mpr hm) (by simp)
    | cons p l ih =>
      intro m m0 h k
      simp only [List.foldl_cons]
      have hnd := h.1
      simp only [List.map_cons, List.nodup_cons] at hnd
      have henum : IsEnum l (fun x => if x = p.1 then none else m x) := by
        refine ⟨hnd.2, fun x v => ?_⟩
        by_cases hx : x = p.1
        · subst hx
          simp only [if_true]
          constructor
          · intro hm; exact absurd (List.mem_map_of_mem hm) hnd.1
          · intro h; cases h
        · show _ ↔ (if x = p.1 then none else m x) = some v
          rw [if_neg hx, ← h.2 x v, List.mem_cons]
          constructor
          · exact .inr
          · rintro (rfl | h)
            · exact absurd rfl hx
            · exact h
      rw [ih _ _ henum]
      by_cases hk : k = p.1
      · subst hk
        simp only [if_true]
        have : m p.1 = some p.2 := (h.2 p.1 p.2).mp (by simp)
        simp [this]
      · simp [hk]
  rw [collect, List.foldl_append, key l₂ m₂ _ h₂, key l₁ m₁ _ h₁]
  cases m₂ k <;> cases m₁ k <;> rfl

/-- C22: in the scope in which the cells are evaluated a name has its code-section definition if there
is one, else its spreadsheet definition, else its command-line definition, whatever the hash orders. -/
theorem C22_precedence (sc : Scope) (sheet ext : Text → Option Ast)
    (lSheet lOwn lExt lOwn' : List (Text × Ast)) (h₁ : IsEnum lSheet sheet) (h₂ : IsEnum lOwn sc.variables)
    (h₃ : IsEnum lExt ext) (h₄ : IsEnum lOwn' (mergeVariables sc lSheet lOwn).variables) (k : Text) :
    (evalScope sc lSheet lOwn lExt lOwn').variables k =
      match sc.variables k with
      | some v => some v
      | none => match sheet k with
        | some v => some v
        | none => ext k := by
  show collect (lExt ++ lOwn') k = _
  rw [collect_append lExt lOwn' ext _ h₃ h₄]
  show ((collect (lSheet ++ lOwn) k).or (ext k)) = _
  rw [collect_append lSheet lOwn sheet _ h₁ h₂]
  cases sc.variables k <;> cases sheet k <;> rfl

/-- C22: functions are those of the code section. -/
theorem C22_functions_unchanged (sc : Scope) (lSheet lOwn lExt lOwn' : List (Text × Ast)) :
    (evalScope sc lSheet lOwn lExt lOwn').functions = sc.functions := rfl

example : (evalScope (.ofLists [var' "a" (I 1)] []) [var' "a" (I 2), var' "b" (I 2)] [var' "a" (I 1)]
    [var' "a" (I 3), var' "b" (I 3), var' "c" (I 3)] [var' "a" (I 1), var' "b" (I 2)]).variables (T "b") =
    some (.var (T "b") (I 2)) := rfl
example : IsEnum [var' "a" (I 1)] (Scope.ofLists [var' "a" (I 1)] []).variables := by
  refine ⟨by decide, fun k v => ?_⟩
  simp only [List.mem_singleton, Prod.mk.injEq, Scope.ofLists, List.lookup_cons, List.lookup_nil]
  by_cases h : k = T "a"
  · subst h
    show T "a" = T "a" ∧ v = Ast.var (T "a") (I 1) ↔ some (Ast.var (T "a") (I 1)) = some v
    rw [Option.some.injEq]
    exact ⟨fun h => h.2.symm, fun h => ⟨rfl, h.symm⟩⟩
  · rw [show (k == "a".toList) = false from beq_false_of_ne h]
    exact ⟨fun h' => absurd h'.1 h, fun h' => nomatch h'⟩

end Verif.Ast
