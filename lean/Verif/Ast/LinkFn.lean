import Verif.Ast.Link
/-
Evaluating the definitions of a module: function definitions, and positions.
-/
namespace Verif.Ast

section
variable {K L : Scope} {pos : Option Addr} {P : Text → Prop} {order : List Name}

theorem resolveVars_pos (h : ∀ x d, L.variables x = some d → resolve none d = resolve pos d) (vs : List Text) :
    resolveVars L none vs = resolveVars L pos vs := by
  induction vs with
  | nil => rfl
  | cons v vs ih =>
    rw [resolveVars, resolveVars, ih]
    cases hv : L.variables v with
    | none => rfl
    | some d => simp only; rw [h v d hv]

theorem loop_pos {p q : Option Addr} (h : ∀ vs, resolveVars L p vs = resolveVars L q vs) {last : Refs} {a : Ast} {o : Outcome}
    (hl : Loop L p last a o) : Loop L q last a o := by
  have hr : ∀ a o, Round L p a o → Round L q a o := by
    rintro a o ⟨vs, fs, h1, h2, h3⟩
    refine ⟨vs, fs, h1, h2, ?_⟩
    rw [h3, round, round, h]
  induction hl with
  | stop h => exact .stop h
  | again h h1 _ ih => exact .again h (hr _ _ h1) ih
  | err h h1 => exact .err h (hr _ _ h1)
  | panic h h1 => exact .panic h (hr _ _ h1)

/-- Where no definition is a cell, the position does not matter. -/
theorem eval_pos (h : ∀ x d, L.variables x = some d → resolve none d = resolve pos d) {a : Ast} {o : Outcome} : Eval L none a o ↔ Eval L pos a o :=
  ⟨loop_pos (resolveVars_pos h), loop_pos fun vs => (resolveVars_pos h vs).symm⟩

/-- The values of the variables. -/
def values (L : Scope) (pos : Option Addr) : Text → Option Ast := fun x => (L.variables x).bind (resolve pos)

theorem replaceSeq_fn (σ : List (Text × Ast)) (g : Text) (ps : List Text) (b : Ast) : replaceSeq σ (.fn g ps b) = .fn g ps (replaceSeq σ b) := by
  induction σ generalizing b with
  | nil => rfl
  | cons p σ ih => exact ih (replaceVar p.1 p.2 b)

theorem evalFns_fn (fs : List Text) (g : Text) (ps : List Text) (b : Ast) : evalFns L fs (.fn g ps b) = .ok (.fn g ps b) := by
  induction fs with
  | nil => rfl
  | cons f fs ih =>
    rw [evalFns]
    cases L.functions f with
    | none => exact ih
    | some d => simp only [callFn]; exact ih

theorem replaceSeq_values {τ : Text → Option Ast} (hτ : ∀ x v, τ x = some v → ∀ r ∈ refNames v, τ r = none) (σ : List (Text × Ast))
    (hσ : ∀ p ∈ σ, τ p.1 = some p.2) (a : Ast) :
    subst τ (replaceSeq σ a) = subst τ a ∧ ∀ y, y ∈ refNames (replaceSeq σ a) → (y ∈ refNames a ∧ y ∉ σ.map (·.1)) ∨ τ y = none := by
  induction σ generalizing a with
  | nil => exact ⟨rfl, fun y hy => .inl ⟨hy, by simp⟩⟩
  | cons p σ ih =>
    have hp := hσ p (by simp)
    obtain ⟨h1, h2⟩ := ih (fun q hq => hσ q (by simp [hq])) (replaceVar p.1 p.2 a)
    constructor
    · show subst τ (replaceSeq σ (replaceVar p.1 p.2 a)) = _
      rw [h1, subst_replaceVar]
      refine subst_congr _ _ _ fun x _ => ?_
      by_cases hx : x = p.1
      · subst hx; rw [if_pos rfl, hp, subst_id_of_not_mem _ _ (hτ _ _ hp)]
      · rw [if_neg hx]
    · intro y hy
      rcases h2 y hy with ⟨e1, e2⟩ | e
      · rcases (mem_refNames_replaceVar ..).mp e1 with ⟨e3, e4⟩ | ⟨_, e3⟩
        · exact .inl ⟨e3, by simp only [List.map_cons, List.mem_cons, not_or]; exact ⟨e4, e2⟩⟩
        · exact .inr (hτ _ _ hp y e3)
      · exact .inr e

/-- The values of the variables use no definition. -/
def Settled (L : Scope) (pos : Option Addr) : Prop := ∀ x v, ValueOf L pos x v → ∀ n, Defined L n → ¬ Uses v n

theorem values_some {x : Text} {v : Ast} : values L pos x = some v ↔ ValueOf L pos x v := by
  simp only [values, Option.bind_eq_some_iff, ValueOf]

theorem values_none (hs : Settled L pos) {x r : Text} {v : Ast} (h : values L pos x = some v) (hr : r ∈ refNames v) : values L pos r = none := by
  cases hd : L.variables r with
  | none => simp [values, hd]
  | some d => exact absurd hr (hs x v (values_some.mp h) (.v r) (by simp [Defined, hd]))

theorem round_fn (hw : Wf L pos) (hs : Settled L pos) {g : Text} {ps : List Text} {b : Ast} {vs fs : List Text}
    (hvs : IsOrder vs (varRefs L (.fn g ps b))) : round L pos vs fs (.fn g ps b) = .ok (.fn g ps (subst (values L pos) b)) := by
  obtain ⟨σ, h1, h2, h3⟩ := resolveVars_spec hw vs fun v hv => ((mem_varRefs ..).mp ((hvs.2 v).mp hv)).2
  obtain ⟨h4, h5⟩ := replaceSeq_values (τ := values L pos) (fun x v hv r hr => values_none hs hv hr) σ
    (fun p hp => values_some.mpr (h3 p hp)) b
  have : subst (values L pos) b = replaceSeq σ b := by
    rw [← h4]
    refine subst_id_of_not_mem _ _ fun x hx => ?_
    rcases h5 x hx with ⟨e1, e2⟩ | e
    · cases hd : L.variables x with
      | none => simp [values, hd]
      | some d =>
        refine absurd ?_ e2
        rw [h2, hvs.2, mem_varRefs]
        exact ⟨e1, by simp [hd]⟩
    · exact e
  rw [round, h1]
  simp only [replaceSeq_fn, evalFns_fn, this]

theorem varRefs_subst (hs : Settled L pos) (hw : Wf L pos) (b : Ast) : varRefs L (subst (values L pos) b) = [] := by
  refine List.eq_nil_iff_forall_not_mem.mpr fun x hx => ?_
  obtain ⟨h1, h2⟩ := (mem_varRefs ..).mp hx
  rcases uses_subst (m := .v x) b h1 with ⟨-, e⟩ | ⟨y, e, -, e2, e3⟩
  · obtain ⟨d, hd⟩ := Option.isSome_iff_exists.mp h2
    obtain ⟨v, hv, -⟩ := hw.vars x d hd
    have := e x rfl
    simp [values, hd, hv] at this
  · exact hs y e (values_some.mp e2) (.v x) h2 e3

theorem subst_values_id {b : Ast} (h : varRefs L b = []) : subst (values L pos) b = b := by
  refine subst_id_of_not_mem _ _ fun x hx => ?_
  cases hd : L.variables x with
  | none => simp [values, hd]
  | some d =>
    have : x ∈ varRefs L b := (mem_varRefs ..).mpr ⟨hx, by simp [hd]⟩
    rw [h] at this; cases this

/-- A function definition is evaluated by putting in the values of the variables. -/
theorem eval_fn (hw : Wf L pos) (hs : Settled L pos) (g : Text) (ps : List Text) (b : Ast) (o : Outcome) :
    Eval L pos (.fn g ps b) o ↔ o = .ok (.fn g ps (subst (values L pos) b)) := by
  constructor
  · have key : ∀ {last : Refs} {a : Ast}, Loop L pos last a o → ∀ b, a = .fn g ps b → (Stops L last a → varRefs L b = []) →
        o = .ok (.fn g ps (subst (values L pos) b)) := by
      intro last a h
      induction h with
      | stop hst => rintro b rfl hb; rw [subst_values_id (hb hst)]
      | again _ hr _ ih =>
        rintro b rfl hb
        obtain ⟨vs, fs, h1, -, h3⟩ := hr
        rw [round_fn hw hs h1] at h3; cases h3
        rw [ih _ rfl fun _ => varRefs_subst hs hw b, subst_values_id (varRefs_subst hs hw b)]
      | err _ hr =>
        rintro b rfl hb
        obtain ⟨vs, fs, h1, -, h3⟩ := hr
        rw [round_fn hw hs h1] at h3; cases h3
      | panic _ hr =>
        rintro b rfl hb
        obtain ⟨vs, fs, h1, -, h3⟩ := hr
        rw [round_fn hw hs h1] at h3; cases h3
    intro h
    refine key h b rfl fun hst => ?_
    have : (refsOf L (.fn g ps b)).Empty := by
      rcases hst with h | h
      · exact h
      · exact same_nil h
    exact this.2
  · rintro rfl
    have hround : ∀ b, Round L pos (.fn g ps b) (.ok (.fn g ps (subst (values L pos) b))) := by
      intro b
      obtain ⟨vs, h1⟩ := exists_order (varRefs L (.fn g ps b))
      obtain ⟨fs, h2⟩ := exists_order (fnRefs L (.fn g ps b))
      exact ⟨vs, fs, h1, h2, (round_fn hw hs h1).symm⟩
    by_cases h1 : Stops L ⟨[], []⟩ (.fn g ps b)
    · have : varRefs L b = [] := by
        rcases h1 with h | h
        · exact h.2
        · exact (same_nil h).2
      rw [subst_values_id this]
      exact .stop h1
    · refine .again h1 (hround b) ?_
      have h0 := subst_values_id (pos := pos) (varRefs_subst hs hw b)
      by_cases h2 : Stops L (refsOf L (.fn g ps b)) (.fn g ps (subst (values L pos) b))
      · exact .stop h2
      · have := hround (subst (values L pos) b)
        rw [h0] at this
        exact .again h2 this (.stop (.inr ⟨fun _ => Iff.rfl, fun _ => Iff.rfl⟩))

/-- Putting in the meanings of variables. -/
theorem Part.values {τ : Text → Option Ast} (hτ : ∀ x v, τ x = some v → ¬ P x ∧ Defined K (.v x) ∧ Means K pos (.ref x) v) {a a' : Ast}
    (h : Part K pos P a a') (hpl : Ast.plain a) : Part K pos P a (Ast.subst τ a') := by
  induction h with
  | @same a =>
    induction a using Ast.ind with
    | hcall n args ih =>
      simp only [Ast.plain, plainL_iff] at hpl
      simp only [Ast.subst, substL_eq]
      refine .call (by simp) fun i a b h1 h2 => ?_
      simp only [List.getElem?_map, Option.map_eq_some_iff] at h2
      obtain ⟨b', h2, rfl⟩ := h2
      rw [h1] at h2; cases h2
      have := List.mem_of_getElem? h1
      exact ih a this (hpl a this)
    | hinfix l op r h1 h2 => simp only [Ast.plain, Bool.and_eq_true] at hpl; exact .infix (h1 hpl.1) (h2 hpl.2)
    | hfn n ps b ih => simp [Ast.plain] at hpl
    | hvar n b ih => simp only [Ast.plain] at hpl; exact .var (ih hpl)
    | href y =>
      simp only [Ast.subst]
      cases hy : τ y with
      | none => exact .same
      | some v => exact .done (by simp only [refNames, List.mem_singleton]; rintro r rfl; exact (hτ _ _ hy).1) rfl (hτ _ _ hy).2.2
    | _ => simp only [Ast.subst]; exact .same
  | @done a v h1 h2 h =>
    rw [subst_id_of_not_mem τ v fun x hx => by
      cases hy : τ x with
      | none => rfl
      | some w => exact absurd hx (means_free h (.v x) (hτ _ _ hy).2.1)]
    exact .done h1 h2 h
  | @call n as bs hl _ ih =>
    simp only [Ast.plain, plainL_iff] at hpl
    simp only [Ast.subst, substL_eq]
    refine .call (by simp [hl]) fun i a b h1 h2 => ?_
    simp only [List.getElem?_map, Option.map_eq_some_iff] at h2
    obtain ⟨b', h2, rfl⟩ := h2
    exact ih i a b' h1 h2 (hpl a (List.mem_of_getElem? h1))
  | «infix» _ _ h1 h2 => simp only [Ast.plain, Bool.and_eq_true] at hpl; exact .infix (h1 hpl.1) (h2 hpl.2)
  | var _ ih => simp only [Ast.plain] at hpl; exact .var (ih hpl)

end
end Verif.Ast
