import Mathlib.Tactic.Tauto
import Mathlib.Tactic.Common
import Verif.Ast.Spec
namespace Verif.Ast

/-- Induction over formulas with a hypothesis for every argument of a call. -/
theorem Ast.ind {P : Ast → Prop} (hbool : ∀ b, P (.bool b)) (hdate : ∀ t, P (.date t))
    (hfloat : ∀ p s v, P (.float p s v)) (hfn : ∀ n ps b, P b → P (.fn n ps b))
    (hcall : ∀ n args, (∀ a ∈ args, P a) → P (.call n args))
    (hinfix : ∀ l op r, P l → P r → P (.infix l op r)) (hint : ∀ p s v, P (.int p s v))
    (href : ∀ r, P (.ref r)) (htext : ∀ t, P (.text t)) (hvar : ∀ n a, P a → P (.var n a))
    (hcv : ∀ n v, P (.cellVar n v)) (a : Ast) : P a :=
  Ast.rec (motive_1 := P) (motive_2 := fun as => ∀ a ∈ as, P a) hbool hdate hfloat
    (fun n ps b h => hfn n ps b h) (fun n args h => hcall n args h)
    (fun l op r h1 h2 => hinfix l op r h1 h2) hint href htext (fun n a h => hvar n a h) hcv
    (by simp) (by intro a as h1 h2 b hb; rcases List.mem_cons.mp hb with rfl | h; exacts [h1, h2 b h]) a

theorem replaceVars_eq (x r as) : replaceVars x r as = as.map (replaceVar x r) := by
  induction as <;> simp [replaceVars, *]
theorem substL_eq (σ as) : substL σ as = as.map (subst σ) := by
  induction as <;> simp [substL, *]
theorem varRefsL_eq (sc as) : varRefsL sc as = as.flatMap (varRefs sc) := by
  induction as <;> simp [varRefsL, *]
theorem fnRefsL_eq (sc as) : fnRefsL sc as = as.flatMap (fnRefs sc) := by
  induction as <;> simp [fnRefsL, *]
theorem refNamesL_eq (as) : refNamesL as = as.flatMap refNames := by
  induction as <;> simp [refNamesL, *]
theorem callNamesL_eq (as) : callNamesL as = as.flatMap callNames := by
  induction as <;> simp [callNamesL, *]
theorem plainL_iff (as) : plainL as = true ↔ ∀ a ∈ as, plain a = true := by
  induction as <;> simp [plainL, *]
theorem FlatL_iff (sc ps as) : FlatL sc ps as ↔ ∀ a ∈ as, Flat sc ps a := by
  induction as <;> simp [FlatL, *]
theorem arityOkL_iff (sc as) : arityOkL sc as ↔ ∀ a ∈ as, arityOk sc a := by
  induction as <;> simp [arityOkL, *]

theorem mem_varRefs (sc : Scope) (a : Ast) (x : Text) :
    x ∈ varRefs sc a ↔ x ∈ refNames a ∧ (sc.variables x).isSome := by
  induction a using Ast.ind with
  | hcall n args ih =>
    simp only [varRefs, refNames, varRefsL_eq, refNamesL_eq, List.mem_flatMap]
    constructor
    · rintro ⟨a, ha, h⟩; exact ⟨⟨a, ha, ((ih a ha).mp h).1⟩, ((ih a ha).mp h).2⟩
    · rintro ⟨⟨a, ha, h⟩, h2⟩; exact ⟨a, ha, (ih a ha).mpr ⟨h, h2⟩⟩
  | hinfix l op r h1 h2 => simp only [varRefs, refNames, List.mem_append, h1, h2]; tauto
  | href r =>
    simp only [varRefs, refNames]
    split <;> simp
    · rintro rfl; assumption
    · rintro rfl; rename_i h; simpa using h
  | hfn _ _ _ h => simpa [varRefs, refNames] using h
  | hvar _ _ h => simpa [varRefs, refNames] using h
  | _ => simp [varRefs, refNames]

theorem mem_fnRefs (sc : Scope) (a : Ast) (x : Text) :
    x ∈ fnRefs sc a ↔ x ∈ callNames a ∧ (sc.functions x).isSome := by
  induction a using Ast.ind with
  | hcall n args ih =>
    simp only [fnRefs, callNames, fnRefsL_eq, callNamesL_eq, List.mem_append, List.mem_flatMap,
      List.mem_cons]
    constructor
    · rintro (h | ⟨a, ha, h⟩)
      · split at h <;> simp at h
        subst h; exact ⟨.inl rfl, ‹_›⟩
      · exact ⟨.inr ⟨a, ha, ((ih a ha).mp h).1⟩, ((ih a ha).mp h).2⟩
    · rintro ⟨rfl | ⟨a, ha, h⟩, h2⟩
      · left; simp [h2]
      · exact .inr ⟨a, ha, (ih a ha).mpr ⟨h, h2⟩⟩
  | hinfix l op r h1 h2 => simp only [fnRefs, callNames, List.mem_append, h1, h2]; tauto
  | hfn _ _ _ h => simpa [fnRefs, callNames] using h
  | hvar _ _ h => simpa [fnRefs, callNames] using h
  | _ => simp [fnRefs, callNames]

/-! ### one replacement -/

theorem mem_refNames_replaceVar (x : Text) (r a : Ast) (y : Text) :
    y ∈ refNames (replaceVar x r a) ↔
      (y ∈ refNames a ∧ y ≠ x) ∨ (x ∈ refNames a ∧ y ∈ refNames r) := by
  induction a using Ast.ind with
  | hcall n args ih =>
    simp only [replaceVar, replaceVars_eq, refNames, refNamesL_eq, List.mem_flatMap, List.mem_map]
    constructor
    · rintro ⟨_, ⟨a, ha, rfl⟩, h⟩
      rcases (ih a ha).mp h with h | h
      · exact .inl ⟨⟨a, ha, h.1⟩, h.2⟩
      · exact .inr ⟨⟨a, ha, h.1⟩, h.2⟩
    · rintro (⟨⟨a, ha, h⟩, h2⟩ | ⟨⟨a, ha, h⟩, h2⟩)
      · exact ⟨_, ⟨a, ha, rfl⟩, (ih a ha).mpr (.inl ⟨h, h2⟩)⟩
      · exact ⟨_, ⟨a, ha, rfl⟩, (ih a ha).mpr (.inr ⟨h, h2⟩)⟩
  | hinfix l op rr h1 h2 => simp only [replaceVar, refNames, List.mem_append, h1, h2]; tauto
  | href z =>
    simp only [replaceVar, refNames]
    split
    · subst_vars; simp
    · simp [refNames]; constructor
      · rintro rfl; exact .inl ⟨rfl, fun h => ‹¬ _› h.symm⟩
      · rintro (h | h); exact h.1; exact absurd h.1 ‹_›
  | hfn _ _ _ h => simpa [replaceVar, refNames] using h
  | hvar _ _ h => simpa [replaceVar, refNames] using h
  | _ => simp [replaceVar, refNames]

theorem mem_callNames_replaceVar (x : Text) (r a : Ast) (y : Text) :
    y ∈ callNames (replaceVar x r a) ↔
      y ∈ callNames a ∨ (x ∈ refNames a ∧ y ∈ callNames r) := by
  induction a using Ast.ind with
  | hcall n args ih =>
    simp only [replaceVar, replaceVars_eq, refNames, refNamesL_eq, callNames, callNamesL_eq,
      List.mem_flatMap, List.mem_map, List.mem_cons]
    constructor
    · rintro (rfl | ⟨_, ⟨a, ha, rfl⟩, h⟩)
      · simp
      · rcases (ih a ha).mp h with h | h
        · exact .inl (.inr ⟨a, ha, h⟩)
        · exact .inr ⟨⟨a, ha, h.1⟩, h.2⟩
    · rintro ((rfl | ⟨a, ha, h⟩) | ⟨⟨a, ha, h⟩, h2⟩)
      · simp
      · exact .inr ⟨_, ⟨a, ha, rfl⟩, (ih a ha).mpr (.inl h)⟩
      · exact .inr ⟨_, ⟨a, ha, rfl⟩, (ih a ha).mpr (.inr ⟨h, h2⟩)⟩
  | hinfix l op rr h1 h2 =>
    simp only [replaceVar, refNames, callNames, List.mem_append, h1, h2]; tauto
  | href z =>
    simp only [replaceVar, refNames, callNames]
    split
    · subst_vars; simp
    · simp [callNames]; intro h; exact absurd h ‹_›
  | hfn _ _ _ h => simpa [replaceVar, refNames, callNames] using h
  | hvar _ _ h => simpa [replaceVar, refNames, callNames] using h
  | _ => simp [replaceVar, refNames, callNames]

theorem plain_replaceVar (x : Text) (r a : Ast) (ha : plain a) (hr : plain r) :
    plain (replaceVar x r a) := by
  induction a using Ast.ind with
  | hcall n args ih =>
    simp only [replaceVar, plain, replaceVars_eq, plainL_iff] at ha ⊢
    intro b hb; obtain ⟨c, hc, rfl⟩ := List.mem_map.mp hb; exact ih c hc (ha c hc)
  | hinfix l op rr h1 h2 =>
    simp only [replaceVar, plain, Bool.and_eq_true] at ha ⊢; exact ⟨h1 ha.1, h2 ha.2⟩
  | href z => simp only [replaceVar]; split; exact hr; rfl
  | hfn _ _ _ h => simp [plain] at ha
  | hvar _ _ h => simp only [replaceVar, plain] at ha ⊢; exact h ha
  | _ => simp [replaceVar, plain]

theorem plain_replaceSeq (σ : List (Text × Ast)) (a : Ast) (ha : plain a)
    (hσ : ∀ p ∈ σ, plain p.2) : plain (replaceSeq σ a) := by
  induction σ generalizing a with
  | nil => exact ha
  | cons p σ ih =>
    simp only [replaceSeq, List.foldl_cons]
    exact ih _ (plain_replaceVar _ _ _ ha (hσ p (by simp))) (fun q hq => hσ q (by simp [hq]))

theorem replaceVar_not_mem (x : Text) (r a : Ast) (h : x ∉ refNames a) : replaceVar x r a = a := by
  induction a using Ast.ind with
  | hcall n args ih =>
    simp only [replaceVar, replaceVars_eq, Ast.call.injEq, true_and]
    simp only [refNames, refNamesL_eq, List.mem_flatMap, not_exists, not_and] at h
    conv_rhs => rw [← List.map_id args]
    exact List.map_congr_left fun a ha => ih a ha (h a ha)
  | hinfix l op rr h1 h2 =>
    simp only [refNames, List.mem_append, not_or] at h
    simp [replaceVar, h1 h.1, h2 h.2]
  | href z => simp only [refNames, List.mem_singleton] at h; simp [replaceVar, h]
  | hfn _ _ _ ih => simp only [replaceVar, ih (by simpa [refNames] using h)]
  | hvar _ _ ih => simp only [replaceVar, ih (by simpa [refNames] using h)]
  | _ => simp [replaceVar]

theorem subst_none (a : Ast) : subst (fun _ => none) a = a := by
  induction a using Ast.ind with
  | hcall n args ih =>
    simp only [subst, substL_eq, Ast.call.injEq, true_and]
    conv_rhs => rw [← List.map_id args]
    exact List.map_congr_left ih
  | hinfix l op rr h1 h2 => simp [subst, h1, h2]
  | hfn _ _ _ ih => simp [subst, ih]
  | hvar _ _ ih => simp [subst, ih]
  | _ => simp [subst]

theorem subst_congr (σ τ : Text → Option Ast) (a : Ast) (h : ∀ x ∈ refNames a, σ x = τ x) :
    subst σ a = subst τ a := by
  induction a using Ast.ind with
  | hcall n args ih =>
    simp only [subst, substL_eq, Ast.call.injEq, true_and]
    refine List.map_congr_left fun a ha => ih a ha fun x hx => h x ?_
    simp only [refNames, refNamesL_eq, List.mem_flatMap]; exact ⟨a, ha, hx⟩
  | hinfix l op rr h1 h2 =>
    simp only [refNames, List.mem_append] at h
    simp [subst, h1 fun x hx => h x (.inl hx), h2 fun x hx => h x (.inr hx)]
  | hfn _ _ _ ih => simp only [subst, ih (by simpa [refNames] using h)]
  | hvar _ _ ih => simp only [subst, ih (by simpa [refNames] using h)]
  | href r => simp [subst, h r (by simp [refNames])]
  | _ => simp [subst]

/-- Substituting after one replacement. -/
theorem subst_replaceVar (σ : Text → Option Ast) (x : Text) (r a : Ast) :
    subst σ (replaceVar x r a) = subst (fun y => if y = x then some (subst σ r) else σ y) a := by
  induction a using Ast.ind with
  | hcall n args ih =>
    simp only [replaceVar, replaceVars_eq, subst, substL_eq, List.map_map, Ast.call.injEq, true_and]
    exact List.map_congr_left fun a ha => ih a ha
  | hinfix l op rr h1 h2 => simp [subst, replaceVar, h1, h2]
  | hfn _ _ _ ih => simp [subst, replaceVar, ih]
  | hvar _ _ ih => simp [subst, replaceVar, ih]
  | href y =>
    simp only [replaceVar]
    by_cases h : x = y
    · subst h; simp [subst]
    · rw [if_neg h]; simp [subst, Ne.symm h]
  | _ => simp [subst, replaceVar]

theorem subst_id_of_not_mem (σ : Text → Option Ast) (a : Ast) (h : ∀ x ∈ refNames a, σ x = none) :
    subst σ a = a := by
  rw [subst_congr σ (fun _ => none) a h, subst_none]

/-- Sequential replacement is simultaneous substitution when no replacement mentions a name that is
replaced later. -/
theorem replaceSeq_eq_subst_later (ps : List Text) (args : List Ast) (a : Ast)
    (h : NoCapture ps args) (_hl : args.length = ps.length) :
    replaceSeq (ps.zip args) a = subst (bind ps args) a := by
  induction ps generalizing args a with
  | nil => simp only [List.zip_nil_left, replaceSeq, List.foldl_nil]
           exact (subst_none a).symm
  | cons p ps ih =>
    cases args with
    | nil => simp at _hl
    | cons e es =>
      simp only [List.zip_cons_cons, replaceSeq, List.foldl_cons]
      have := ih es (replaceVar p e a) (fun i j q e' hij h1 h2 =>
        h (i + 1) (j + 1) q e' (by omega) (by simpa using h1) (by simpa using h2)) (by simpa using _hl)
      rw [replaceSeq] at this
      rw [this, subst_replaceVar, subst_id_of_not_mem (bind ps es) e]
      · apply subst_congr
        intro x hx
        simp only [bind, List.zip_cons_cons, List.lookup_cons]
        by_cases hxp : x = p
        · subst hxp; simp
        · rw [if_neg hxp, beq_false_of_ne hxp]
      · intro x hx
        simp only [bind]
        rw [List.lookup_eq_none_iff]
        intro q hq
        have hq1 := (List.of_mem_zip hq).1
        obtain ⟨j, hj⟩ := List.mem_iff_getElem?.mp hq1
        have := h 0 (j + 1) q.1 e (by omega) (by simpa using hj) (by simp)
        simp only [bne_iff_ne, ne_eq]
        rintro rfl; exact this hx

theorem replaceSeq_eq_subst (ps : List Text) (args : List Ast) (a : Ast)
    (h : ∀ e ∈ args, ∀ p ∈ ps, p ∉ refNames e) (hl : args.length = ps.length) :
    replaceSeq (ps.zip args) a = subst (bind ps args) a :=
  replaceSeq_eq_subst_later ps args a
    (fun _ _ _ _ _ h1 h2 => h _ (List.mem_of_getElem? h2) _ (List.mem_of_getElem? h1)) hl

end Verif.Ast
