import Verif.Ast.Apart
/-
Scopes that hold part of the definitions of a larger scope, some of them worked out already: what a module sees of the definitions of a program.
-/
namespace Verif.Ast

/-! ## Specification -/

/-- The definitions are free of trouble: they do not depend on themselves, parameter names are used for nothing else, no function is needed both by a
called function and by the arguments of the call, and calls have the right number of arguments. -/
structure Tidy (sc : Scope) (pos : Option Addr) (order : List Name) (isParam : Text → Prop) : Prop where
  acyclic : Acyclic sc pos order
  hygienic : Hygienic sc pos isParam
  apart : ApartScope sc pos
  arityVars : ∀ x d v, sc.variables x = some d → resolve pos d = some v → arityOk sc v
  arityFns : ∀ g nm ps body, sc.functions g = some (.fn nm ps body) → arityOk sc body

/-- The second formula is the first one with some parts replaced by what they mean. -/
inductive Part (sc : Scope) (pos : Option Addr) (isParam : Text → Prop) : Ast → Ast → Prop
  | same {a} : Part sc pos isParam a a
  | done {a v} : (∀ r ∈ refNames a, ¬ isParam r) → plain a → Means sc pos a v → Part sc pos isParam a v
  | call {n as bs} : bs.length = as.length → (∀ (i : Nat) a b, as[i]? = some a → bs[i]? = some b → Part sc pos isParam a b) →
      Part sc pos isParam (.call n as) (.call n bs)
  | infix {l op r l' r'} : Part sc pos isParam l l' → Part sc pos isParam r r' → Part sc pos isParam (.infix l op r) (.infix l' op r')
  | var {n a a'} : Part sc pos isParam a a' → Part sc pos isParam (.var n a) (.var n a')

/-- The scope `L` holds some of the definitions of `K`, with parts replaced by what they mean, and everything these use that `K` defines. -/
structure Linked (K L : Scope) (pos : Option Addr) (isParam : Text → Prop) : Prop where
  vars : ∀ x d', L.variables x = some d' → ∃ d a a', K.variables x = some d ∧ resolve pos d = some a ∧ resolve pos d' = some a' ∧
    Part K pos isParam a a' ∧ ∀ m, Uses a' m → Defined K m → Defined L m
  fns : ∀ g d', L.functions g = some d' → ∃ nm ps body body', K.functions g = some (.fn nm ps body) ∧ d' = .fn nm ps body' ∧
    Part K pos isParam body body' ∧ ∀ m, Uses body' m → (∀ p ∈ ps, m ≠ .v p) → Defined K m → Defined L m

/-! ## Proofs -/

section
variable {K L : Scope} {pos : Option Addr} {P : Text → Prop} {order : List Name}

theorem plain_subst {σ : Text → Option Ast} (a : Ast) (ha : plain a) (hσ : ∀ x e, σ x = some e → plain e) : plain (subst σ a) := by
  induction a using Ast.ind with
  | hcall n args ih =>
    simp only [plain, plainL_iff, subst, substL_eq, List.mem_map, forall_exists_index, and_imp, forall_apply_eq_imp_iff₂] at ha ⊢
    exact fun a h => ih a h (ha a h)
  | hinfix l op r h1 h2 => simp only [plain, subst, Bool.and_eq_true] at ha ⊢; exact ⟨h1 ha.1, h2 ha.2⟩
  | hfn n ps b ih => simp [plain] at ha
  | hvar n b ih => simp only [plain, subst] at ha ⊢; exact ih ha
  | href y =>
    simp only [subst]
    cases hy : σ y with
    | none => rfl
    | some e => exact hσ y e hy
  | _ => simp [plain, subst]

theorem means_free {a b : Ast} (h : Means K pos a b) : ∀ n, Defined K n → ¬ Uses b n := by
  induction h with
  | leaf h => exact fun n _ => h n
  | ref h =>
    intro n hn hu
    cases n with
    | v x => simp only [Uses, refNames, List.mem_singleton] at hu; subst hu; simp [Defined, h] at hn
    | f x => simp [Uses, callNames] at hu
  | value _ _ _ ih => exact ih
  | @call f args bs h hl _ ih =>
    intro n hn hu
    rcases uses_call_inv hu with rfl | ⟨b, hb, hu⟩
    · simp [Defined, h] at hn
    · obtain ⟨i, hi⟩ := List.getElem?_of_mem hb
      have : i < args.length := by rw [← hl]; exact (List.getElem?_eq_some_iff.mp hi).1
      exact ih i _ b (List.getElem?_eq_getElem this) hi n hn hu
  | body _ _ _ ih => exact ih
  | «infix» _ _ h1 h2 =>
    intro n hn hu
    rcases uses_infix.mp hu with hu | hu
    · exact h1 n hn hu
    · exact h2 n hn hu
  | var _ ih => exact fun n hn hu => ih n hn (uses_var.mp hu)

theorem means_plain (hw : Wf K pos) {a b : Ast} (h : Means K pos a b) (ha : plain a) : plain b := by
  induction h with
  | leaf _ => exact ha
  | ref _ => rfl
  | value h1 h2 _ ih =>
    obtain ⟨a, e, hp⟩ := hw.vars _ _ h1
    rw [h2] at e; cases e
    exact ih hp
  | @call f args bs h hl _ ih =>
    simp only [plain, plainL_iff] at ha ⊢
    intro b hb
    obtain ⟨i, hi⟩ := List.getElem?_of_mem hb
    have : i < args.length := by rw [← hl]; exact (List.getElem?_eq_some_iff.mp hi).1
    exact ih i _ b (List.getElem?_eq_getElem this) hi (ha _ (List.getElem_mem this))
  | @body f nm ps body args b h1 h2 _ ih =>
    obtain ⟨_, _, _, e, hp⟩ := hw.fns _ _ h1
    cases e
    simp only [plain, plainL_iff] at ha
    exact ih (plain_subst _ hp fun x e he => ha e (bind_some_mem _ _ _ _ he).2)
  | «infix» _ _ h1 h2 => simp only [plain, Bool.and_eq_true] at ha ⊢; exact ⟨h1 ha.1, h2 ha.2⟩
  | var _ ih => simp only [plain] at ha ⊢; exact ih ha

theorem means_refs (hh : Hygienic K pos P) {a b : Ast} (h : Means K pos a b) (ha : ∀ r ∈ refNames a, ¬ P r) : ∀ r ∈ refNames b, ¬ P r := by
  induction h with
  | leaf _ => exact ha
  | ref _ => exact ha
  | value h1 h2 _ ih => exact ih (hh.vars _ _ _ h1 h2)
  | @call f args bs h hl _ ih =>
    simp only [refNames, refNamesL_eq, List.mem_flatMap, forall_exists_index, and_imp] at ha ⊢
    intro r b hb hr
    obtain ⟨i, hi⟩ := List.getElem?_of_mem hb
    have : i < args.length := by rw [← hl]; exact (List.getElem?_eq_some_iff.mp hi).1
    exact ih i _ b (List.getElem?_eq_getElem this) hi (fun r hr => ha r _ (List.getElem_mem this) hr) r hr
  | @body f nm ps body args b h1 h2 _ ih =>
    simp only [refNames, refNamesL_eq, List.mem_flatMap, forall_exists_index, and_imp] at ha
    refine ih fun r hr => ?_
    rcases uses_subst (m := .v r) body hr with ⟨e1, e2⟩ | ⟨x, e, e1, e2, e3⟩
    · refine hh.bodies _ _ _ _ h1 r e1 fun hp => ?_
      obtain ⟨e, he⟩ := bind_mem ps args h2 r hp
      rw [e2 r rfl] at he; simp at he
    · exact ha r e (bind_some_mem _ _ _ _ e2).2 e3
  | «infix» _ _ h1 h2 =>
    simp only [refNames, List.mem_append] at ha ⊢
    rintro r (hr | hr)
    · exact h1 (fun r hr => ha r (.inl hr)) r hr
    · exact h2 (fun r hr => ha r (.inr hr)) r hr
  | var _ ih => simp only [refNames] at ha ⊢; exact ih ha

theorem means_self (a : Ast) (ha : plain a) (h : ∀ n, Defined L n → ¬ Uses a n) : Means L pos a a := by
  induction a using Ast.ind with
  | hcall n args ih =>
    simp only [plain, plainL_iff] at ha
    refine .call ?_ rfl fun i a b h1 h2 => ?_
    · cases hf : L.functions n with
      | none => rfl
      | some d => exact absurd (show Uses (.call n args) (.f n) by simp [Uses, callNames]) (h (.f n) (by simp [Defined, hf]))
    · rw [h1] at h2; cases h2
      have hm := List.mem_of_getElem? h1
      exact ih a hm (ha a hm) fun n hn hu => h n hn (uses_call hm hu)
  | hinfix l op r h1 h2 =>
    simp only [plain, Bool.and_eq_true] at ha
    exact .infix (h1 ha.1 fun n hn hu => h n hn (uses_infix.mpr (.inl hu))) (h2 ha.2 fun n hn hu => h n hn (uses_infix.mpr (.inr hu)))
  | hfn n ps b ih => simp [plain] at ha
  | hvar n b ih =>
    simp only [plain] at ha
    exact .var (ih ha fun n hn hu => h n hn (uses_var.mpr hu))
  | href y =>
    refine .ref ?_
    cases hf : L.variables y with
    | none => rfl
    | some d => exact absurd (show Uses (.ref y) (.v y) by simp [Uses, refNames]) (h (.v y) (by simp [Defined, hf]))
  | _ => exact .leaf fun m => by cases m <;> simp [Uses, refNames, callNames]

theorem Part.call_inv {n : Text} {as : List Ast} {a' : Ast} (h : Part K pos P (.call n as) a') :
    ((∀ r ∈ refNames (.call n as), ¬ P r) ∧ Means K pos (.call n as) a') ∨
    ∃ bs, a' = .call n bs ∧ bs.length = as.length ∧ ∀ (i : Nat) a b, as[i]? = some a → bs[i]? = some b → Part K pos P a b := by
  cases h with
  | same => exact .inr ⟨as, rfl, rfl, fun i a b h1 h2 => by rw [h1] at h2; cases h2; exact .same⟩
  | done h1 _ h2 => exact .inl ⟨h1, h2⟩
  | call h1 h2 => exact .inr ⟨_, rfl, h1, h2⟩

theorem Part.infix_inv {l r : Ast} {op : Text} {a' : Ast} (h : Part K pos P (.infix l op r) a') :
    ((∀ x ∈ refNames (.infix l op r), ¬ P x) ∧ Means K pos (.infix l op r) a') ∨
    ∃ l' r', a' = .infix l' op r' ∧ Part K pos P l l' ∧ Part K pos P r r' := by
  cases h with
  | same => exact .inr ⟨l, r, rfl, .same, .same⟩
  | done h1 _ h2 => exact .inl ⟨h1, h2⟩
  | «infix» h1 h2 => exact .inr ⟨_, _, rfl, h1, h2⟩

theorem Part.var_inv {n : Text} {a a' : Ast} (h : Part K pos P (.var n a) a') :
    ((∀ x ∈ refNames (.var n a), ¬ P x) ∧ Means K pos (.var n a) a') ∨ ∃ b, a' = .var n b ∧ Part K pos P a b := by
  cases h with
  | same => exact .inr ⟨a, rfl, .same⟩
  | done h1 _ h2 => exact .inl ⟨h1, h2⟩
  | var h1 => exact .inr ⟨_, rfl, h1⟩

theorem Part.uses {a a' : Ast} (h : Part K pos P a a') {m : Name} (hu : Uses a' m) : Uses a m ∨ ¬ Defined K m := by
  induction h with
  | same => exact .inl hu
  | done _ _ h => exact .inr fun hd => means_free h m hd hu
  | @call n as bs hl _ ih =>
    rcases uses_call_inv hu with rfl | ⟨b, hb, hu⟩
    · exact .inl (by simp [Uses, callNames])
    · obtain ⟨i, hi⟩ := List.getElem?_of_mem hb
      have : i < as.length := by rw [← hl]; exact (List.getElem?_eq_some_iff.mp hi).1
      rcases ih i _ b (List.getElem?_eq_getElem this) hi hu with h | h
      · exact .inl (uses_call (List.getElem_mem this) h)
      · exact .inr h
  | «infix» _ _ h1 h2 =>
    rcases uses_infix.mp hu with hu | hu
    · exact (h1 hu).imp (fun h => uses_infix.mpr (.inl h)) id
    · exact (h2 hu).imp (fun h => uses_infix.mpr (.inr h)) id
  | var _ ih => exact (ih (uses_var.mp hu)).imp uses_var.mpr id

theorem Part.refs (hh : Hygienic K pos P) {a a' : Ast} (h : Part K pos P a a') {r : Text} (hr : r ∈ refNames a') : r ∈ refNames a ∨ ¬ P r := by
  induction h with
  | same => exact .inl hr
  | done h1 _ h => exact .inr (means_refs hh h h1 r hr)
  | @call n as bs hl _ ih =>
    simp only [refNames, refNamesL_eq, List.mem_flatMap] at hr ⊢
    obtain ⟨b, hb, hr⟩ := hr
    obtain ⟨i, hi⟩ := List.getElem?_of_mem hb
    have : i < as.length := by rw [← hl]; exact (List.getElem?_eq_some_iff.mp hi).1
    exact (ih i _ b (List.getElem?_eq_getElem this) hi hr).imp (fun h => ⟨_, List.getElem_mem this, h⟩) id
  | «infix» _ _ h1 h2 =>
    simp only [refNames, List.mem_append] at hr ⊢
    rcases hr with hr | hr
    · exact (h1 hr).imp .inl id
    · exact (h2 hr).imp .inr id
  | var _ ih => simp only [refNames] at hr ⊢; exact ih hr

theorem Part.plain (hw : Wf K pos) {a a' : Ast} (h : Part K pos P a a') (ha : plain a) : Ast.plain a' := by
  induction h with
  | same => exact ha
  | done _ _ h => exact means_plain hw h ha
  | @call n as bs hl _ ih =>
    simp only [Ast.plain, plainL_iff] at ha ⊢
    intro b hb
    obtain ⟨i, hi⟩ := List.getElem?_of_mem hb
    have : i < as.length := by rw [← hl]; exact (List.getElem?_eq_some_iff.mp hi).1
    exact ih i _ b (List.getElem?_eq_getElem this) hi (ha _ (List.getElem_mem this))
  | «infix» _ _ h1 h2 => simp only [Ast.plain, Bool.and_eq_true] at ha ⊢; exact ⟨h1 ha.1, h2 ha.2⟩
  | var _ ih => simp only [Ast.plain] at ha ⊢; exact ih ha

theorem part_subst_same {σ σ' : Text → Option Ast} (hσ : ∀ x, (σ x = none ∧ σ' x = none) ∨ ∃ e e', σ x = some e ∧ σ' x = some e' ∧ Part K pos P e e')
    (a : Ast) (ha : plain a) : Part K pos P (subst σ a) (subst σ' a) := by
  induction a using Ast.ind with
  | hcall n args ih =>
    simp only [plain, plainL_iff] at ha
    simp only [subst, substL_eq]
    refine .call (by simp) fun i a b h1 h2 => ?_
    simp only [List.getElem?_map, Option.map_eq_some_iff] at h1 h2
    obtain ⟨a', h1, rfl⟩ := h1
    obtain ⟨b', h2, rfl⟩ := h2
    rw [h1] at h2; cases h2
    have := List.mem_of_getElem? h1
    exact ih a' this (ha a' this)
  | hinfix l op r h1 h2 => simp only [plain, Bool.and_eq_true] at ha; exact .infix (h1 ha.1) (h2 ha.2)
  | hfn n ps b ih => simp [plain] at ha
  | hvar n b ih => simp only [plain] at ha; exact .var (ih ha)
  | href y =>
    simp only [subst]
    rcases hσ y with ⟨h1, h2⟩ | ⟨e, e', h1, h2, h3⟩
    · rw [h1, h2]; exact .same
    · rw [h1, h2]; exact h3
  | _ => simp only [subst]; exact .same

theorem Part.subst (hh : Hygienic K pos P) {σ σ' : Text → Option Ast}
    (hσ : ∀ x, (σ x = none ∧ σ' x = none) ∨ ∃ e e', σ x = some e ∧ σ' x = some e' ∧ Part K pos P e e')
    (hP : ∀ x e, σ x = some e → P x) {a a' : Ast} (h : Part K pos P a a') (ha : Ast.plain a) : Part K pos P (Ast.subst σ a) (Ast.subst σ' a') := by
  induction h with
  | same => exact part_subst_same hσ _ ha
  | @done a v h1 hpl h =>
    have hn : ∀ x, ¬ P x → σ x = none := by
      intro x hx
      cases hs : σ x with
      | none => rfl
      | some e => exact absurd (hP x e hs) hx
    rw [subst_id_of_not_mem σ a fun x hx => hn x (h1 x hx), subst_id_of_not_mem σ' v fun x hx => by
      rcases hσ x with ⟨_, h2⟩ | ⟨e, e', h2, _⟩
      · exact h2
      · rw [hn x (means_refs hh h h1 x hx)] at h2; cases h2]
    exact .done h1 hpl h
  | @call n as bs hl _ ih =>
    simp only [Ast.plain, plainL_iff] at ha
    simp only [Ast.subst, substL_eq]
    refine .call (by simp [hl]) fun i a b h1 h2 => ?_
    simp only [List.getElem?_map, Option.map_eq_some_iff] at h1 h2
    obtain ⟨a', h1, rfl⟩ := h1
    obtain ⟨b', h2, rfl⟩ := h2
    exact ih i a' b' h1 h2 (ha a' (List.mem_of_getElem? h1))
  | «infix» _ _ h1 h2 => simp only [Ast.plain, Bool.and_eq_true] at ha; exact .infix (h1 ha.1) (h2 ha.2)
  | var _ ih => simp only [Ast.plain] at ha; exact .var (ih ha)

theorem part_bind {ps : List Text} {as bs : List Ast} (hl : bs.length = as.length)
    (h : ∀ (i : Nat) a b, as[i]? = some a → bs[i]? = some b → Part K pos P a b) (x : Text) :
    (bind ps as x = none ∧ bind ps bs x = none) ∨ ∃ e e', bind ps as x = some e ∧ bind ps bs x = some e' ∧ Part K pos P e e' := by
  induction ps generalizing as bs with
  | nil => simp [bind]
  | cons p ps ih =>
    cases as with
    | nil =>
      cases bs with
      | nil => simp [bind]
      | cons b bs => simp at hl
    | cons a as =>
      cases bs with
      | nil => simp at hl
      | cons b bs =>
        simp only [bind, List.zip_cons_cons, List.lookup_cons]
        by_cases hx : x = p
        · subst hx; simp; exact h 0 a b rfl rfl
        · rw [beq_false_of_ne hx]
          exact ih (by simpa using hl) fun i a b h1 h2 => h (i + 1) a b (by simpa using h1) (by simpa using h2)

theorem Linked.defined (hL : Linked K L pos P) {n : Name} (h : Defined L n) : Defined K n := by
  cases n with
  | v x =>
    obtain ⟨d', hd⟩ := Option.isSome_iff_exists.mp h
    obtain ⟨d, _, _, h1, _⟩ := hL.vars x d' hd
    simp [Defined, h1]
  | f x =>
    obtain ⟨d', hd⟩ := Option.isSome_iff_exists.mp h
    obtain ⟨_, _, _, _, h1, _⟩ := hL.fns x d' hd
    simp [Defined, h1]

/-- A formula means in `L`, with parts replaced by what they mean, what it means in `K`. -/
theorem linked_means (hw : Wf K pos) (hT : Tidy K pos order P) (hL : Linked K L pos P) {a b : Ast} (h : Means K pos a b) {a' : Ast} (hpl : plain a)
    (hp : Part K pos P a a') (hc : ∀ m, Uses a' m → Defined K m → Defined L m) : Means L pos a' b := by
  have hself : ∀ {a v b : Ast}, plain a → Means K pos a v → Means K pos a b → Means L pos v b := by
    intro a v b hpl h1 h2
    rw [means_expand hw hT.acyclic h2, ← means_expand hw hT.acyclic h1]
    exact means_self v (means_plain hw h1 hpl) fun n hn => means_free h1 n (hL.defined hn)
  induction h generalizing a' with
  | @leaf a h =>
    have : a' = a := by
      cases hp with
      | same => rfl
      | done _ _ hm =>
        have h1 := means_expand hw hT.acyclic hm
        rw [h1, expand, interp_leaf h]
      | @call n _ _ _ => exact absurd (show Uses _ (.f n) by simp [Uses, callNames]) (h (.f n))
      | @«infix» l op r l' r' h1 h2 =>
        have hg : ∀ {a a' : Ast}, Part K pos P a a' → (∀ m, ¬ Uses a m) → a' = a := by
          intro a a' hp h
          induction hp with
          | same => rfl
          | done _ _ hm => rw [means_expand hw hT.acyclic hm, expand, interp_leaf h]
          | @call n _ _ _ => exact absurd (show Uses _ (.f n) by simp [Uses, callNames]) (h (.f n))
          | «infix» _ _ h1 h2 => rw [h1 fun m hu => h m (uses_infix.mpr (.inl hu)), h2 fun m hu => h m (uses_infix.mpr (.inr hu))]
          | var _ h1 => rw [h1 fun m hu => h m (uses_var.mpr hu)]
        rw [hg h1 fun m hu => h m (uses_infix.mpr (.inl hu)), hg h2 fun m hu => h m (uses_infix.mpr (.inr hu))]
      | @var n a a' h1 =>
        have hg : ∀ {a a' : Ast}, Part K pos P a a' → (∀ m, ¬ Uses a m) → a' = a := by
          intro a a' hp h
          induction hp with
          | same => rfl
          | done _ _ hm => rw [means_expand hw hT.acyclic hm, expand, interp_leaf h]
          | @call n _ _ _ => exact absurd (show Uses _ (.f n) by simp [Uses, callNames]) (h (.f n))
          | «infix» _ _ h1 h2 => rw [h1 fun m hu => h m (uses_infix.mpr (.inl hu)), h2 fun m hu => h m (uses_infix.mpr (.inr hu))]
          | var _ h1 => rw [h1 fun m hu => h m (uses_var.mpr hu)]
        rw [hg h1 fun m hu => h m (uses_var.mpr hu)]
    rw [this]
    exact .leaf h
  | @ref x h =>
    cases hp with
    | same =>
      refine .ref ?_
      cases hx : L.variables x with
      | none => rfl
      | some d =>
        obtain ⟨d, _, _, h1, _⟩ := hL.vars x d hx
        rw [h] at h1; cases h1
    | done _ _ hm => exact hself rfl hm (.ref h)
  | @value x d a b h1 h2 h3 ih =>
    cases hp with
    | same =>
      have hd : Defined L (.v x) := hc (.v x) (by simp [Uses, refNames]) (by simp [Defined, h1])
      obtain ⟨d', hd'⟩ := Option.isSome_iff_exists.mp hd
      obtain ⟨d₀, a₀, a', e1, e2, e3, e4, e5⟩ := hL.vars x d' hd'
      rw [h1] at e1; cases e1
      rw [h2] at e2; cases e2
      obtain ⟨a₁, e6, e7⟩ := hw.vars x d h1
      rw [h2] at e6; cases e6
      exact .value hd' e3 (ih e7 e4 e5)
    | done _ _ hm => exact hself rfl hm (.value h1 h2 h3)
  | @call f args bs h hl hm ih =>
    rcases hp.call_inv with ⟨_, hm'⟩ | ⟨cs, rfl, hcl, hcs⟩
    · exact hself hpl hm' (.call h hl hm)
    · simp only [plain, plainL_iff] at hpl
      refine .call ?_ (by omega) fun i c b h1 h2 => ?_
      · cases hf : L.functions f with
        | none => rfl
        | some d =>
          obtain ⟨_, _, _, _, h1, _⟩ := hL.fns f d hf
          rw [h] at h1; cases h1
      · have hi : i < args.length := by rw [← hl]; exact (List.getElem?_eq_some_iff.mp h2).1
        have ha := List.getElem?_eq_getElem hi
        exact ih i _ b ha h2 (hpl _ (List.getElem_mem hi)) (hcs i _ c ha h1) fun m hu => hc m (uses_call (List.mem_of_getElem? h1) hu)
  | @body f nm ps body args b h1 h2 h3 ih =>
    rcases hp.call_inv with ⟨_, hm'⟩ | ⟨cs, rfl, hcl, hcs⟩
    · exact hself hpl hm' (.body h1 h2 h3)
    · simp only [plain, plainL_iff] at hpl
      have hd : Defined L (.f f) := hc (.f f) (by simp [Uses, callNames]) (by simp [Defined, h1])
      obtain ⟨d', hd'⟩ := Option.isSome_iff_exists.mp hd
      obtain ⟨nm', ps', body₀, body', e1, rfl, e3, e4⟩ := hL.fns f d' hd'
      rw [h1] at e1; cases e1
      obtain ⟨_, _, _, e, hpb⟩ := hw.fns _ _ h1
      cases e
      have hlen : cs.length = ps.length := by omega
      refine .body hd' hlen (ih ?_ ?_ ?_)
      · exact plain_subst _ hpb fun x e he => hpl e (bind_some_mem _ _ _ _ he).2
      · refine e3.subst hT.hygienic (part_bind hcl hcs) (fun x e he => ?_) hpb
        exact hT.hygienic.params f nm ps body h1 x (bind_some_mem _ _ _ _ he).1
      · intro m hu hm
        rcases uses_subst body' hu with ⟨g1, g2⟩ | ⟨x, e, g1, g2, g3⟩
        · refine e4 m g1 ?_ hm
          rintro p hp rfl
          obtain ⟨e, he⟩ := bind_mem ps cs hlen p hp
          rw [g2 p rfl] at he; simp at he
        · exact hc m (uses_call (bind_some_mem _ _ _ _ g2).2 g3) hm
  | «infix» h1 h2 ih1 ih2 =>
    rcases hp.infix_inv with ⟨_, hm'⟩ | ⟨l', r', rfl, g1, g2⟩
    · exact hself hpl hm' (.infix h1 h2)
    · simp only [plain, Bool.and_eq_true] at hpl
      exact .infix (ih1 hpl.1 g1 fun m hu => hc m (uses_infix.mpr (.inl hu))) (ih2 hpl.2 g2 fun m hu => hc m (uses_infix.mpr (.inr hu)))
  | var h1 ih =>
    rcases hp.var_inv with ⟨_, hm'⟩ | ⟨b', rfl, g1⟩
    · exact hself hpl hm' (.var h1)
    · simp only [plain] at hpl
      exact .var (ih hpl g1 fun m hu => hc m (uses_var.mpr hu))

/-! ### The trouble-free conditions carry over -/

theorem mentions_linked (hL : Linked K L pos P) {n m : Name} (h : Mentions L pos n m) (hm : Defined K m) : Mentions K pos n m := by
  cases n with
  | v x =>
    obtain ⟨d', a', h1, h2, h3⟩ := h
    obtain ⟨d, a, a'', e1, e2, e3, e4, -⟩ := hL.vars x d' h1
    rw [h2] at e3; cases e3
    rcases e4.uses h3 with h | h
    · exact ⟨d, a, e1, e2, h⟩
    · exact absurd hm h
  | f g =>
    obtain ⟨nm, ps, body', h1, h2, h3⟩ := h
    obtain ⟨nm', ps', body, body'', e1, e2, e3, -⟩ := hL.fns g _ h1
    cases e2
    rcases e3.uses h2 with h | h
    · exact ⟨nm, ps, body, e1, h, h3⟩
    · exact absurd hm h

theorem defined_of_mentions {n m : Name} (h : Mentions L pos n m) : Defined L n := by
  cases n with
  | v x => obtain ⟨d', a', h1, -⟩ := h; simp [Defined, h1]
  | f g => obtain ⟨nm, ps, body', h1, -⟩ := h; simp [Defined, h1]

theorem needs_linked (hL : Linked K L pos P) {n m : Name} (h : Needs L pos n m) (hm : Defined K m) : Needs K pos n m := by
  induction h with
  | refl => exact .refl
  | tail _ h ih => exact (ih (hL.defined (defined_of_mentions h))).tail (mentions_linked hL h hm)

theorem apart_free (ps : List Text) (a : Ast) (h : ∀ g ∈ callNames a, L.functions g = none) : Apart L pos ps a := by
  induction a using Ast.ind with
  | hcall n args ih =>
    simp only [callNames, callNamesL_eq, List.mem_cons, List.mem_flatMap] at h
    simp only [Apart, ApartL_iff]
    exact ⟨fun a ha => ih a ha fun g hg => h g (.inr ⟨a, ha, hg⟩), fun hn => by rw [h n (.inl rfl)] at hn; cases hn⟩
  | hinfix l op r h1 h2 =>
    simp only [callNames, List.mem_append] at h
    exact ⟨h1 fun g hg => h g (.inl hg), h2 fun g hg => h g (.inr hg)⟩
  | hfn n ps b ih => exact ih h
  | hvar n b ih => exact ih h
  | _ => trivial

theorem arity_free (a : Ast) (h : ∀ g ∈ callNames a, L.functions g = none) : arityOk L a := by
  induction a using Ast.ind with
  | hcall n args ih =>
    simp only [callNames, callNamesL_eq, List.mem_cons, List.mem_flatMap] at h
    simp only [arityOk, arityOkL_iff]
    exact ⟨fun a ha => ih a ha fun g hg => h g (.inr ⟨a, ha, hg⟩), fun _ _ _ hn => by rw [h n (.inl rfl)] at hn; cases hn⟩
  | hinfix l op r h1 h2 =>
    simp only [callNames, List.mem_append] at h
    exact ⟨h1 fun g hg => h g (.inl hg), h2 fun g hg => h g (.inr hg)⟩
  | hfn n ps b ih => exact ih h
  | hvar n b ih => exact ih h
  | _ => trivial

theorem means_free_fns (hL : Linked K L pos P) {a v : Ast} (h : Means K pos a v) : ∀ g ∈ callNames v, L.functions g = none := by
  intro g hg
  cases hf : L.functions g with
  | none => rfl
  | some d => exact absurd hg (means_free h (.f g) (hL.defined (n := .f g) (by simp [Defined, hf])))

theorem fn_defined (hL : Linked K L pos P) {g : Text} (h : (L.functions g).isSome) : (K.functions g).isSome := hL.defined (n := .f g) h

theorem apart_same (hL : Linked K L pos P) (ps : List Text) (a : Ast) (h : Apart K pos ps a) : Apart L pos ps a := by
  induction a using Ast.ind with
  | hcall n args ih =>
    simp only [Apart, ApartL_iff] at h ⊢
    refine ⟨fun a ha => ih a ha (h.1 a ha), fun hn a ha m hu hp g hg h1 h2 => ?_⟩
    have hg' := fn_defined hL hg
    exact h.2 (fn_defined hL hn) a ha m hu hp g hg' (needs_linked hL h1 hg') (needs_linked hL h2 hg')
  | hinfix l op r h1 h2 => exact ⟨h1 h.1, h2 h.2⟩
  | hfn n ps b ih => exact ih h
  | hvar n b ih => exact ih h
  | _ => trivial

theorem Part.apart (hL : Linked K L pos P) (ps : List Text) {a a' : Ast} (hp : Part K pos P a a') (h : Apart K pos ps a) : Apart L pos ps a' := by
  induction hp with
  | same => exact apart_same hL ps _ h
  | done _ _ hm => exact apart_free ps _ (means_free_fns hL hm)
  | @call n as bs hl hps ih =>
    have hget : ∀ b ∈ bs, ∃ (i : Nat) (a : Ast), as[i]? = some a ∧ bs[i]? = some b ∧ a ∈ as := by
      intro b hb
      obtain ⟨i, hi⟩ := List.getElem?_of_mem hb
      have : i < as.length := by rw [← hl]; exact (List.getElem?_eq_some_iff.mp hi).1
      exact ⟨i, _, List.getElem?_eq_getElem this, hi, List.getElem_mem this⟩
    simp only [Apart, ApartL_iff] at h ⊢
    refine ⟨fun b hb => ?_, fun hn b hb m hu hpm g hg h1 h2 => ?_⟩
    · obtain ⟨i, a, e1, e2, e3⟩ := hget b hb
      exact ih i a b e1 e2 (h.1 a e3)
    · obtain ⟨i, a, e1, e2, e3⟩ := hget b hb
      have hg' := fn_defined hL hg
      have h2' := needs_linked hL h2 hg'
      rcases (hps i a b e1 e2).uses hu with hu' | hu'
      · exact h.2 (fn_defined hL hn) a e3 m hu' hpm g hg' (needs_linked hL h1 hg') h2'
      · rcases Relation.ReflTransGen.cases_head h2' with e | ⟨c, e, -⟩
        · exact hu' (by rw [e]; exact hg')
        · exact hu' (defined_of_mentions e)
  | «infix» _ _ h1 h2 => exact ⟨h1 h.1, h2 h.2⟩
  | var _ ih => exact ih h

theorem arity_same (hL : Linked K L pos P) (a : Ast) (h : arityOk K a) : arityOk L a := by
  induction a using Ast.ind with
  | hcall n args ih =>
    simp only [arityOk, arityOkL_iff] at h ⊢
    refine ⟨fun a ha => ih a ha (h.1 a ha), fun nm ps body' hf => ?_⟩
    obtain ⟨nm', ps', body, body'', e1, e2, -⟩ := hL.fns n _ hf
    cases e2
    exact h.2 _ _ _ e1
  | hinfix l op r h1 h2 => exact ⟨h1 h.1, h2 h.2⟩
  | hfn n ps b ih => exact ih h
  | hvar n b ih => exact ih h
  | _ => trivial

theorem Part.arity (hL : Linked K L pos P) {a a' : Ast} (hp : Part K pos P a a') (h : arityOk K a) : arityOk L a' := by
  induction hp with
  | same => exact arity_same hL _ h
  | done _ _ hm => exact arity_free _ (means_free_fns hL hm)
  | @call n as bs hl hps ih =>
    simp only [arityOk, arityOkL_iff] at h ⊢
    refine ⟨fun b hb => ?_, fun nm ps body' hf => ?_⟩
    · obtain ⟨i, hi⟩ := List.getElem?_of_mem hb
      have : i < as.length := by rw [← hl]; exact (List.getElem?_eq_some_iff.mp hi).1
      exact ih i _ b (List.getElem?_eq_getElem this) hi (h.1 _ (List.getElem_mem this))
    · obtain ⟨nm', ps', body, body'', e1, e2, -⟩ := hL.fns n _ hf
      cases e2
      rw [hl]; exact h.2 _ _ _ e1
  | «infix» _ _ h1 h2 => exact ⟨h1 h.1, h2 h.2⟩
  | var _ ih => exact ih h

theorem Linked.wf (hL : Linked K L pos P) (hw : Wf K pos) : Wf L pos where
  fns := by
    intro g d h
    obtain ⟨nm, ps, body, body', e1, e2, e3, -⟩ := hL.fns g d h
    obtain ⟨_, _, _, e, hp⟩ := hw.fns _ _ e1
    cases e
    exact ⟨nm, ps, body', e2, e3.plain hw hp⟩
  vars := by
    intro x d h
    obtain ⟨d₀, a, a', e1, e2, e3, e4, -⟩ := hL.vars x d h
    obtain ⟨_, e, hp⟩ := hw.vars _ _ e1
    rw [e2] at e; cases e
    exact ⟨a', e3, e4.plain hw hp⟩

theorem Linked.tidy (hL : Linked K L pos P) (hT : Tidy K pos order P) : Tidy L pos order P where
  acyclic := ⟨fun n hn => hT.acyclic.1 n (hL.defined hn), fun n m hn hm h =>
    hT.acyclic.2 n m (hL.defined hn) (hL.defined hm) (mentions_linked hL h (hL.defined hm))⟩
  hygienic := {
    params := by
      intro g nm ps body' h
      obtain ⟨_, _, body, _, e1, e2, -⟩ := hL.fns g _ h
      cases e2
      exact hT.hygienic.params g nm ps body e1
    vars := by
      intro x d' a' h1 h2 r hr
      obtain ⟨d, a, a'', e1, e2, e3, e4, -⟩ := hL.vars x d' h1
      rw [h2] at e3; cases e3
      rcases e4.refs hT.hygienic hr with h | h
      · exact hT.hygienic.vars x d a e1 e2 r h
      · exact h
    bodies := by
      intro g nm ps body' h r hr hrp
      obtain ⟨_, _, body, _, e1, e2, e3, -⟩ := hL.fns g _ h
      cases e2
      rcases e3.refs hT.hygienic hr with h | h
      · exact hT.hygienic.bodies g nm ps body e1 r h hrp
      · exact h }
  apart := {
    vars := by
      intro x d' a' h1 h2
      obtain ⟨d, a, a'', e1, e2, e3, e4, -⟩ := hL.vars x d' h1
      rw [h2] at e3; cases e3
      exact e4.apart hL [] (hT.apart.vars x d a e1 e2)
    fns := by
      intro g nm ps body' h
      obtain ⟨_, _, body, _, e1, e2, e3, -⟩ := hL.fns g _ h
      cases e2
      exact e3.apart hL ps (hT.apart.fns g nm ps body e1) }
  arityVars := by
    intro x d' a' h1 h2
    obtain ⟨d, a, a'', e1, e2, e3, e4, -⟩ := hL.vars x d' h1
    rw [h2] at e3; cases e3
    exact e4.arity hL (hT.arityVars x d a e1 e2)
  arityFns := by
    intro g nm ps body' h
    obtain ⟨_, _, body, _, e1, e2, e3, -⟩ := hL.fns g _ h
    cases e2
    exact e3.arity hL (hT.arityFns g nm ps body e1)

/-- A formula is evaluated in `L`, with parts replaced by what they mean, to what it means in `K`. -/
theorem linked_eval (hw : Wf K pos) (hT : Tidy K pos order P) (hL : Linked K L pos P) {a a' : Ast} (hpl : plain a) (hr : ∀ r ∈ refNames a, ¬ P r)
    (ha : Apart K pos [] a) (har : arityOk K a) (hp : Part K pos P a a') (hc : ∀ m, Uses a' m → Defined K m → Defined L m) :
    ∃ b, Means K pos a b ∧ ∀ o, Eval L pos a' o ↔ o = .ok b := by
  obtain ⟨b, hb⟩ := means_exists hw hT.acyclic hT.arityVars hT.arityFns a hpl har
  have hb' := linked_means hw hT hL hb hpl hp hc
  have hTL := hL.tidy hT
  obtain ⟨-, c, -, h2, h3⟩ := C21_meaning_partial L pos order P (hL.wf hw) hTL.acyclic hTL.hygienic hTL.apart hTL.arityVars hTL.arityFns a'
    (hp.plain hw hpl) (fun r h => (hp.refs hT.hygienic h).elim (hr r) id) (hp.apart hL [] ha) (hp.arity hL har)
  cases h2 b hb'
  exact ⟨b, hb, h3⟩

end
end Verif.Ast
