import Verif.Ast.Link
/-
Replacing uses of definitions by the definitions (C107).
-/
namespace Verif.Ast

/-! ## Specification -/

/-- The second formula is the first one with some variables replaced by their values, and some calls of functions by the bodies with the arguments put in
for the parameters; in the replacements again some may be replaced.  The names `ps` are parameters of the function the formula is the body of. -/
inductive Inlined (sc : Scope) (pos : Option Addr) (ps : List Text) : Ast → Ast → Prop
  | same {a} : Inlined sc pos ps a a
  | value {x d v v'} : x ∉ ps → sc.variables x = some d → resolve pos d = some v → Inlined sc pos ps v v' → Inlined sc pos ps (.ref x) v'
  | body {f nm qs b args c} : sc.functions f = some (.fn nm qs b) → args.length = qs.length → Inlined sc pos ps (subst (bind qs args) b) c →
      Inlined sc pos ps (.call f args) c
  | call {n as bs} : bs.length = as.length → (∀ (i : Nat) a b, as[i]? = some a → bs[i]? = some b → Inlined sc pos ps a b) →
      Inlined sc pos ps (.call n as) (.call n bs)
  | infix {l op r l' r'} : Inlined sc pos ps l l' → Inlined sc pos ps r r' → Inlined sc pos ps (.infix l op r) (.infix l' op r')
  | var {n a a'} : Inlined sc pos ps a a' → Inlined sc pos ps (.var n a) (.var n a')

/-- The scope `L` holds the definitions of `K`, with some uses of definitions replaced; definitions that are not used any more may be missing. -/
structure InlinedScope (K L : Scope) (pos : Option Addr) : Prop where
  vars : ∀ x d', L.variables x = some d' → ∃ d a a', K.variables x = some d ∧ resolve pos d = some a ∧ resolve pos d' = some a' ∧
    Inlined K pos [] a a' ∧ ∀ m, Uses a' m → Defined K m → Defined L m
  fns : ∀ g d', L.functions g = some d' → ∃ nm ps body body', K.functions g = some (.fn nm ps body) ∧ d' = .fn nm ps body' ∧
    Inlined K pos ps body body' ∧ ∀ m, Uses body' m → (∀ p ∈ ps, m ≠ .v p) → Defined K m → Defined L m

/-! ## Proofs -/

section
variable {K L : Scope} {pos : Option Addr} {P : Text → Prop} {order : List Name}

theorem refs_subst {qs : List Text} {args : List Ast} (hl : args.length = qs.length) {b : Ast} {r : Text} (h : r ∈ refNames (subst (bind qs args) b)) :
    (r ∈ refNames b ∧ r ∉ qs) ∨ ∃ e ∈ args, r ∈ refNames e := by
  rcases uses_subst (m := .v r) b h with ⟨h1, h2⟩ | ⟨x, e, h1, h2, h3⟩
  · refine .inl ⟨h1, fun hq => ?_⟩
    obtain ⟨e, -, he⟩ := bind_mem qs args hl r hq
    rw [h2 r rfl] at he; cases he
  · exact .inr ⟨e, (bind_some_mem qs args x e h2).2, h3⟩

/-- What the new formula refers to, the old one does, or it is no parameter. -/
theorem Inlined.refs (hh : Hygienic K pos P) {ps : List Text} {a a' : Ast} (h : Inlined K pos ps a a') {r : Text} (hr : r ∈ refNames a') :
    r ∈ refNames a ∨ ¬ P r := by
  induction h with
  | same => exact .inl hr
  | value _ h1 h2 _ ih =>
    rcases ih hr with h | h
    · exact .inr (hh.vars _ _ _ h1 h2 r h)
    · exact .inr h
  | body h1 hl _ ih =>
    rcases ih hr with h | h
    · rcases refs_subst hl h with ⟨k1, k2⟩ | ⟨e, k1, k2⟩
      · exact .inr (hh.bodies _ _ _ _ h1 r k1 k2)
      · left
        simp only [refNames, refNamesL_eq, List.mem_flatMap]
        exact ⟨e, k1, k2⟩
    · exact .inr h
  | @call n as bs hl _ ih =>
    simp only [refNames, refNamesL_eq, List.mem_flatMap] at hr ⊢
    obtain ⟨b, hb, hr⟩ := hr
    obtain ⟨i, hi⟩ := List.getElem?_of_mem hb
    have hlt : i < as.length := by rw [← hl]; exact (List.getElem?_eq_some_iff.mp hi).1
    exact (ih i _ b (List.getElem?_eq_getElem hlt) hi hr).imp_left fun h => ⟨_, List.getElem_mem hlt, h⟩
  | «infix» _ _ h1 h2 =>
    simp only [refNames, List.mem_append] at hr ⊢
    rcases hr with hr | hr
    · exact (h1 hr).imp_left .inl
    · exact (h2 hr).imp_left .inr
  | var _ ih => exact ih hr

theorem Inlined.plain (hw : Wf K pos) {ps : List Text} {a a' : Ast} (h : Inlined K pos ps a a') (ha : plain a) : Ast.plain a' := by
  induction h with
  | same => exact ha
  | value _ h1 h2 _ ih =>
    obtain ⟨_, e, hp⟩ := hw.vars _ _ h1
    rw [h2] at e; cases e
    exact ih hp
  | @body f nm qs b args c h1 hl _ ih =>
    obtain ⟨_, _, _, e, hp⟩ := hw.fns _ _ h1
    cases e
    simp only [Ast.plain, plainL_iff] at ha
    exact ih (plain_subst b hp fun x e he => ha e (bind_some_mem qs args x e he).2)
  | @call n as bs hl _ ih =>
    simp only [Ast.plain, plainL_iff] at ha ⊢
    intro b hb
    obtain ⟨i, hi⟩ := List.getElem?_of_mem hb
    have hlt : i < as.length := by rw [← hl]; exact (List.getElem?_eq_some_iff.mp hi).1
    exact ih i _ b (List.getElem?_eq_getElem hlt) hi (ha _ (List.getElem_mem hlt))
  | «infix» _ _ h1 h2 =>
    simp only [Ast.plain, Bool.and_eq_true] at ha ⊢
    exact ⟨h1 ha.1, h2 ha.2⟩
  | var _ ih => simp only [Ast.plain] at ha ⊢; exact ih ha

/-- What the new formula uses, the old one needs. -/
theorem Inlined.uses {ps : List Text} {a a' : Ast} (h : Inlined K pos ps a a') {m : Name} (hu : Uses a' m) (hm : ∀ p ∈ ps, m ≠ .v p) :
    ∃ m₀, Uses a m₀ ∧ (∀ p ∈ ps, m₀ ≠ .v p) ∧ Needs K pos m₀ m := by
  induction h with
  | same => exact ⟨m, hu, hm, .refl⟩
  | @value x d v v' hx h1 h2 _ ih =>
    obtain ⟨m₀, k1, k2, k3⟩ := ih hu
    refine ⟨.v x, by simp [Uses, refNames], ?_, .head ⟨d, v, h1, h2, k1⟩ k3⟩
    rintro p hp ⟨⟩
    exact hx hp
  | @body f nm qs b args c h1 hl _ ih =>
    obtain ⟨m₀, k1, k2, k3⟩ := ih hu
    rcases uses_subst b k1 with ⟨g1, g2⟩ | ⟨x, e, g1, g2, g3⟩
    · refine ⟨.f f, by simp [Uses, callNames], by simp, .head ⟨nm, qs, b, h1, g1, ?_⟩ k3⟩
      rintro q hq rfl
      obtain ⟨e, -, he⟩ := bind_mem qs args hl q hq
      rw [g2 q rfl] at he; cases he
    · exact ⟨m₀, uses_call (bind_some_mem qs args x e g2).2 g3, k2, k3⟩
  | @call n as bs hl _ ih =>
    rcases uses_call_inv hu with rfl | ⟨b, hb, hu⟩
    · exact ⟨.f n, by simp [Uses, callNames], hm, .refl⟩
    · obtain ⟨i, hi⟩ := List.getElem?_of_mem hb
      have hlt : i < as.length := by rw [← hl]; exact (List.getElem?_eq_some_iff.mp hi).1
      obtain ⟨m₀, k1, k2⟩ := ih i _ b (List.getElem?_eq_getElem hlt) hi hu
      exact ⟨m₀, uses_call (List.getElem_mem hlt) k1, k2⟩
  | «infix» _ _ h1 h2 =>
    rcases uses_infix.mp hu with hu | hu
    · obtain ⟨m₀, k1, k2⟩ := h1 hu; exact ⟨m₀, uses_infix.mpr (.inl k1), k2⟩
    · obtain ⟨m₀, k1, k2⟩ := h2 hu; exact ⟨m₀, uses_infix.mpr (.inr k1), k2⟩
  | var _ ih =>
    obtain ⟨m₀, k1, k2⟩ := ih (uses_var.mp hu)
    exact ⟨m₀, uses_var.mpr k1, k2⟩

/-! ### The meaning is the same -/

/-- Parameters matter only for formulas that refer to them. -/
theorem interp_params {V : Text → Option Ast} {F : Text → Option (List Ast → Ast)} {ρ ρ' : Text → Option Ast} (a : Ast)
    (h : ∀ r ∈ refNames a, ρ r = ρ' r) : interp V F ρ a = interp V F ρ' a := by
  induction a using Ast.ind with
  | hcall n args ih =>
    have : args.map (interp V F ρ) = args.map (interp V F ρ') := List.map_congr_left fun b hb => ih b hb fun r hr => h r (by
      simp only [refNames, refNamesL_eq, List.mem_flatMap]; exact ⟨b, hb, hr⟩)
    simp only [interp, interpL_eq, this]
  | hinfix l op r h1 h2 =>
    simp only [refNames, List.mem_append] at h
    simp only [interp, h1 fun r hr => h r (.inl hr), h2 fun r hr => h r (.inr hr)]
  | hfn _ _ _ ih => simp only [interp, ih h]
  | hvar _ _ ih => simp only [interp, ih h]
  | href y => simp only [interp, h y (by simp [refNames])]
  | _ => simp only [interp]

theorem bind_map {f : Ast → Ast} {qs : List Text} {es : List Ast} (y : Text) : bind qs (es.map f) y = (bind qs es y).map f := by
  induction qs generalizing es with
  | nil => rfl
  | cons p qs ih =>
    cases es with
    | nil => rfl
    | cons e es =>
      have ih := ih (es := es)
      simp only [bind, List.zip_cons_cons, List.lookup_cons, List.map_cons] at ih ⊢
      by_cases hp : y = p
      · subst hp; simp
      · rw [beq_false_of_ne hp]; exact ih

theorem interp_subst_with {V : Text → Option Ast} {F : Text → Option (List Ast → Ast)} {ρ : Text → Option Ast} {qs : List Text} {es : List Ast}
    (hl : es.length = qs.length) (a : Ast) (ha : ∀ r ∈ refNames a, r ∉ qs → ρ r = none) :
    interp V F ρ (subst (bind qs es) a) = interp V F (bindD qs (es.map (interp V F ρ))) a := by
  induction a using Ast.ind with
  | hcall n args ih =>
    have : (args.map (subst (bind qs es))).map (interp V F ρ) = args.map (interp V F (bindD qs (es.map (interp V F ρ)))) := by
      rw [List.map_map]
      exact List.map_congr_left fun b hb => ih b hb fun r hr => ha r (by
        simp only [refNames, refNamesL_eq, List.mem_flatMap]; exact ⟨b, hb, hr⟩)
    simp only [subst, substL_eq, interp, interpL_eq, this]
  | hinfix l op r h1 h2 =>
    simp only [refNames, List.mem_append] at ha
    simp only [subst, interp, h1 fun r hr => ha r (.inl hr), h2 fun r hr => ha r (.inr hr)]
  | hfn _ _ _ ih => simp only [subst, interp, ih ha]
  | hvar _ _ ih => simp only [subst, interp, ih ha]
  | href y =>
    simp only [subst, interp, bindD]
    by_cases hy : y ∈ qs
    · obtain ⟨e, -, hb⟩ := bind_mem qs es hl y hy
      simp [hb, bind_map, hy]
    · rw [bind_none qs es y hy]; simp [hy, interp, ha y (by simp [refNames]) hy]
  | _ => simp [subst, interp]

/-- The expansions agree, whatever the values of the parameters. -/
theorem Inlined.interp (hw : Wf K pos) (hac : Acyclic K pos order) (hh : Hygienic K pos P) {ps : List Text} (hps : ∀ p ∈ ps, P p) {ρ : Text → Option Ast}
    (hρ : ∀ x, (ρ x).isSome ↔ x ∈ ps) {a a' : Ast} (h : Inlined K pos ps a a') :
    interp (tables K pos order.length).1 (tables K pos order.length).2 ρ a = interp (tables K pos order.length).1 (tables K pos order.length).2 ρ a' := by
  have hno : ∀ x, x ∉ ps → ρ x = none := fun x hx => by
    have := mt (hρ x).mp hx
    simpa using this
  induction h with
  | same => rfl
  | @value x d v v' hx h1 h2 _ ih =>
    rw [← ih, Ast.interp]
    simp only [hno x hx]
    rw [table_var hw hac ⟨d, h1, h2⟩]
    exact interp_params v fun r hr => (hno r fun hp => hh.vars _ _ _ h1 h2 r hr (hps r hp)).symm
  | @body f nm qs b args c h1 hl _ ih =>
    rw [← ih, interp_subst_with hl b fun r hr hq => hno r fun hp => hh.bodies _ _ _ _ h1 r hr hq (hps r hp), Ast.interp, table_fn hw hac h1, interpL_eq]
  | @call n as bs hl _ ih =>
    have : as.map (Ast.interp (tables K pos order.length).1 (tables K pos order.length).2 ρ) =
        bs.map (Ast.interp (tables K pos order.length).1 (tables K pos order.length).2 ρ) := by
      refine List.ext_getElem (by simp [hl]) fun i k1 k2 => ?_
      rw [List.getElem_map, List.getElem_map]
      rw [List.length_map] at k1 k2
      exact ih i _ _ (List.getElem?_eq_getElem k1) (List.getElem?_eq_getElem k2)
    simp only [Ast.interp, interpL_eq, this]
  | «infix» _ _ h1 h2 => simp only [Ast.interp, h1, h2]
  | var _ ih => simp only [Ast.interp, ih]

/-- What a formula means with the new definitions, it means with the old ones. -/
theorem inlined_expand (hw : Wf K pos) (hac : Acyclic K pos order) (hh : Hygienic K pos P) (hL : InlinedScope K L pos) {a b : Ast} (h : Means L pos a b)
    (hc : ∀ m, Uses a m → Defined K m → Defined L m) : b = expand K pos order a := by
  induction h with
  | leaf h => exact (interp_leaf h).symm
  | @ref x h =>
    rw [expand, interp]
    have hK : K.variables x = none := by
      cases hx : K.variables x with
      | none => rfl
      | some d =>
        have := hc (.v x) (by simp [Uses, refNames]) (by simp [Defined, hx])
        simp [Defined, h] at this
    have : (tables K pos order.length).1 x = none := by
      cases order.length with
      | zero => rfl
      | succ k => simp [tables, hK]
    simp [this]
  | @value x d' a b h1 h2 _ ih =>
    obtain ⟨d, v, v', e1, e2, e3, e4, e5⟩ := hL.vars x d' h1
    rw [h2] at e3; cases e3
    rw [expand, interp]
    simp only
    rw [table_var hw hac ⟨d, e1, e2⟩, ih e5]
    exact (e4.interp hw hac hh (by simp) (ρ := noρ) (by simp)).symm
  | @call f args bs h hl _ ih =>
    have hK : K.functions f = none := by
      cases hx : K.functions f with
      | none => rfl
      | some d =>
        have := hc (.f f) (by simp [Uses, callNames]) (by simp [Defined, hx])
        simp [Defined, h] at this
    rw [expand, interp]
    have : (tables K pos order.length).2 f = none := by
      cases order.length with
      | zero => rfl
      | succ k => simp [tables, hK]
    simp only [this, interpL_eq]
    congr 1
    refine List.ext_getElem (by simp [hl]) fun i h1 h2 => ?_
    rw [List.getElem_map]
    have hi : i < args.length := by omega
    exact ih i _ _ (List.getElem?_eq_getElem hi) (List.getElem?_eq_getElem h1) fun m hu => hc m (uses_call (List.getElem_mem hi) hu)
  | @body f nm ps body' args b h1 h2 _ ih =>
    obtain ⟨nm, ps, body, body'', e1, e2, e3, e4⟩ := hL.fns f _ h1
    cases e2
    rw [ih ?_, expand, interp_subst_bind h2, expand, interp, table_fn hw hac e1, interpL_eq]
    · exact (e3.interp hw hac hh (fun p hp => hh.params _ _ _ _ e1 p hp) (fun x => by unfold bindD; split <;> simp [*])).symm
    · intro m hu
      rcases uses_subst body' hu with ⟨g1, g2⟩ | ⟨x, e, g1, g2, g3⟩
      · refine e4 m g1 ?_
        rintro q hq rfl
        obtain ⟨e, -, he⟩ := bind_mem ps args h2 q hq
        rw [g2 q rfl] at he; cases he
      · exact hc m (uses_call (bind_some_mem ps args x e g2).2 g3)
  | «infix» _ _ ih1 ih2 => rw [ih1 fun m hu => hc m (uses_infix.mpr (.inl hu)), ih2 fun m hu => hc m (uses_infix.mpr (.inr hu))]; rfl
  | var _ ih => rw [ih fun m hu => hc m (uses_var.mpr hu)]; rfl

/-! ### The trouble-free conditions carry over -/

theorem InlinedScope.defined (hL : InlinedScope K L pos) {n : Name} (h : Defined L n) : Defined K n := by
  cases n with
  | v x =>
    obtain ⟨d', h⟩ := Option.isSome_iff_exists.mp h
    obtain ⟨d, _, _, e, -⟩ := hL.vars x d' h
    simp [Defined, e]
  | f g =>
    obtain ⟨d', h⟩ := Option.isSome_iff_exists.mp h
    obtain ⟨_, _, _, _, e, -⟩ := hL.fns g d' h
    simp [Defined, e]

theorem mentions_inlined (hL : InlinedScope K L pos) {n m : Name} (h : Mentions L pos n m) : ∃ m₀, Mentions K pos n m₀ ∧ Needs K pos m₀ m := by
  cases n with
  | v x =>
    obtain ⟨d', a', h1, h2, h3⟩ := h
    obtain ⟨d, a, a'', e1, e2, e3, e4, -⟩ := hL.vars x d' h1
    rw [h2] at e3; cases e3
    obtain ⟨m₀, k1, -, k3⟩ := e4.uses h3 (by simp)
    exact ⟨m₀, ⟨d, a, e1, e2, k1⟩, k3⟩
  | f g =>
    obtain ⟨nm, ps, body', h1, h2, h3⟩ := h
    obtain ⟨nm', ps', body, body'', e1, e2, e3, -⟩ := hL.fns g _ h1
    cases e2
    obtain ⟨m₀, k1, k2, k3⟩ := e3.uses h2 h3
    exact ⟨m₀, ⟨nm, ps, body, e1, k1, k2⟩, k3⟩

theorem needs_inlined (hL : InlinedScope K L pos) {n m : Name} (h : Needs L pos n m) : Needs K pos n m := by
  induction h with
  | refl => exact .refl
  | tail _ h ih =>
    obtain ⟨m₀, k1, k2⟩ := mentions_inlined hL h
    exact (ih.tail k1).trans k2

theorem needs_order (hac : Acyclic K pos order) {n m : Name} (h : Needs K pos n m) (hm : Defined K m) : order.idxOf m ≤ order.idxOf n := by
  unfold Needs at h
  induction h using Relation.ReflTransGen.head_induction_on with
  | refl => exact Nat.le_refl _
  | @head a c h1 h2 ih =>
    have hc : Defined K c := by
      rcases Relation.ReflTransGen.cases_head h2 with rfl | ⟨e, k, -⟩
      · exact hm
      · exact defined_of_mentions k
    have := hac.2 a c (defined_of_mentions h1) hc h1
    omega

theorem apart_more {ps : List Text} (a : Ast) (h : Apart K pos [] a) : Apart K pos ps a := by
  induction a using Ast.ind with
  | hcall n args ih =>
    simp only [Apart, ApartL_iff] at h ⊢
    exact ⟨fun a ha => ih a ha (h.1 a ha), fun hn a ha m hu _ => h.2 hn a ha m hu (by simp)⟩
  | hinfix l op r h1 h2 => exact ⟨h1 h.1, h2 h.2⟩
  | hfn n ps b ih => exact ih h
  | hvar n b ih => exact ih h
  | _ => trivial

theorem apart_subst_with {f : Text} {ps qs : List Text} {args : List Ast} (hl : args.length = qs.length) (hargs : ∀ e ∈ args, Apart K pos ps e)
    (hsep : ∀ e ∈ args, ∀ m, Uses e m → (∀ p ∈ ps, m ≠ .v p) → ∀ g, (K.functions g).isSome → Needs K pos (.f f) (.f g) → ¬ Needs K pos m (.f g))
    (a : Ast) (ha : Apart K pos qs a) (hcalls : ∀ h ∈ callNames a, Needs K pos (.f f) (.f h)) : Apart K pos ps (subst (bind qs args) a) := by
  induction a using Ast.ind with
  | hcall n as ih =>
    simp only [Apart, ApartL_iff, subst, substL_eq, List.mem_map, forall_exists_index, and_imp, forall_apply_eq_imp_iff₂] at ha ⊢
    refine ⟨fun a h => ih a h (ha.1 a h) fun x hx => hcalls x (by
      simp only [callNames, callNamesL_eq, List.mem_flatMap, List.mem_cons]; exact .inr ⟨a, h, hx⟩), fun hn a h m hu hps g hg hng hmg => ?_⟩
    rcases uses_subst a hu with ⟨h1, h2⟩ | ⟨x, e, h1, h2, h3⟩
    · refine ha.2 hn a h m h1 ?_ g hg hng hmg
      rintro p hp rfl
      obtain ⟨e, he⟩ := bind_mem qs args hl p hp
      rw [h2 p rfl] at he; simp at he
    · exact hsep e (bind_some_mem qs args x e h2).2 m h3 hps g hg ((hcalls n (by simp [callNames])).trans hng) hmg
  | hinfix l op r h1 h2 =>
    simp only [Apart, subst, callNames, List.mem_append] at ha hcalls ⊢
    exact ⟨h1 ha.1 fun x hx => hcalls x (.inl hx), h2 ha.2 fun x hx => hcalls x (.inr hx)⟩
  | hfn _ _ _ ih => simp only [Apart, subst, callNames] at ha hcalls ⊢; exact ih ha hcalls
  | hvar _ _ ih => simp only [Apart, subst, callNames] at ha hcalls ⊢; exact ih ha hcalls
  | href y =>
    simp only [subst]
    cases hy : bind qs args y with
    | none => simp [Apart]
    | some e => exact hargs e (bind_some_mem qs args y e hy).2
  | _ => simp [Apart, subst]

theorem arity_subst {σ : Text → Option Ast} (a : Ast) (ha : arityOk K a) (hσ : ∀ x e, σ x = some e → arityOk K e) : arityOk K (subst σ a) := by
  induction a using Ast.ind with
  | hcall n args ih =>
    simp only [arityOk, arityOkL_iff, subst, substL_eq, List.mem_map, forall_exists_index, and_imp, forall_apply_eq_imp_iff₂, List.length_map] at ha ⊢
    exact ⟨fun a h => ih a h (ha.1 a h), ha.2⟩
  | hinfix l op r h1 h2 => exact ⟨h1 ha.1, h2 ha.2⟩
  | hfn _ _ _ ih => exact ih ha
  | hvar _ _ ih => exact ih ha
  | href y =>
    simp only [subst]
    cases hy : σ y with
    | none => trivial
    | some e => exact hσ y e hy
  | _ => trivial

theorem inlined_fn (hL : InlinedScope K L pos) {g : Text} (h : (L.functions g).isSome) : (K.functions g).isSome := hL.defined (n := .f g) h

theorem apart_kept (hL : InlinedScope K L pos) (ps : List Text) (a : Ast) (h : Apart K pos ps a) : Apart L pos ps a := by
  induction a using Ast.ind with
  | hcall n args ih =>
    simp only [Apart, ApartL_iff] at h ⊢
    exact ⟨fun a ha => ih a ha (h.1 a ha), fun hn a ha m hu hp g hg h1 h2 =>
      h.2 (inlined_fn hL hn) a ha m hu hp g (inlined_fn hL hg) (needs_inlined hL h1) (needs_inlined hL h2)⟩
  | hinfix l op r h1 h2 => exact ⟨h1 h.1, h2 h.2⟩
  | hfn n ps b ih => exact ih h
  | hvar n b ih => exact ih h
  | _ => trivial

theorem Inlined.apart (has : ApartScope K pos) (hL : InlinedScope K L pos) (ps : List Text) {a a' : Ast} (hp : Inlined K pos ps a a')
    (h : Apart K pos ps a) : Apart L pos ps a' := by
  induction hp with
  | same => exact apart_kept hL ps _ h
  | value _ h1 h2 _ ih => exact ih (apart_more _ (has.vars _ _ _ h1 h2))
  | @body f nm qs b args c h1 hl _ ih =>
    simp only [Apart, ApartL_iff] at h
    refine ih (apart_subst_with hl h.1 (fun e he m hu hm g hg => h.2 (by simp [h1]) e he m hu hm g hg) b (has.fns _ _ _ _ h1) fun g hg => ?_)
    exact .single ⟨nm, qs, b, h1, hg, by simp⟩
  | @call n as bs hl hps ih =>
    have hget : ∀ b ∈ bs, ∃ (i : Nat) (a : Ast), as[i]? = some a ∧ bs[i]? = some b ∧ a ∈ as := by
      intro b hb
      obtain ⟨i, hi⟩ := List.getElem?_of_mem hb
      have : i < as.length := by rw [← hl]; exact (List.getElem?_eq_some_iff.mp hi).1
      exact ⟨i, _, List.getElem?_eq_getElem this, hi, List.getElem_mem this⟩
    simp only [Apart, ApartL_iff] at h ⊢
    refine ⟨fun b hb => ?_, fun hn b hb m hu hpm g hg h1 h2 => ?_⟩
    · obtain ⟨i, a, e1, e2, e3⟩ := hget b hb
      exact ih i a b e1 e2 (h.1 a e3)
    · obtain ⟨i, a, e1, e2, e3⟩ := hget b hb
      obtain ⟨m₀, k1, k2, k3⟩ := (hps i a b e1 e2).uses hu hpm
      exact h.2 (inlined_fn hL hn) a e3 m₀ k1 k2 g (inlined_fn hL hg) (needs_inlined hL h1) (k3.trans (needs_inlined hL h2))
  | «infix» _ _ h1 h2 => exact ⟨h1 h.1, h2 h.2⟩
  | var _ ih => exact ih h

theorem arity_kept (hL : InlinedScope K L pos) (a : Ast) (h : arityOk K a) : arityOk L a := by
  induction a using Ast.ind with
  | hcall n args ih =>
    simp only [arityOk, arityOkL_iff] at h ⊢
    refine ⟨fun a ha => ih a ha (h.1 a ha), fun nm ps body' hf => ?_⟩
    obtain ⟨nm', ps', body, body'', e1, e2, -⟩ := hL.fns n _ hf
    cases e2
    exact h.2 _ _ _ e1
  | hinfix l op r h1 h2 => exact ⟨h1 h.1, h2 h.2⟩
  | hfn n ps b ih => exact ih h
  | hvar n b ih => exact ih h
  | _ => trivial

theorem Inlined.arity (hv : ∀ x d v, K.variables x = some d → resolve pos d = some v → arityOk K v)
    (hf : ∀ g nm ps body, K.functions g = some (.fn nm ps body) → arityOk K body) (hL : InlinedScope K L pos) {ps : List Text} {a a' : Ast}
    (hp : Inlined K pos ps a a') (h : arityOk K a) : arityOk L a' := by
  induction hp with
  | same => exact arity_kept hL _ h
  | value _ h1 h2 _ ih => exact ih (hv _ _ _ h1 h2)
  | @body f nm qs b args c h1 hl _ ih =>
    simp only [arityOk, arityOkL_iff] at h
    exact ih (arity_subst b (hf _ _ _ _ h1) fun x e he => h.1 e (bind_some_mem qs args x e he).2)
  | @call n as bs hl hps ih =>
    simp only [arityOk, arityOkL_iff] at h ⊢
    refine ⟨fun b hb => ?_, fun nm ps body' hf => ?_⟩
    · obtain ⟨i, hi⟩ := List.getElem?_of_mem hb
      have : i < as.length := by rw [← hl]; exact (List.getElem?_eq_some_iff.mp hi).1
      exact ih i _ b (List.getElem?_eq_getElem this) hi (h.1 _ (List.getElem_mem this))
    · obtain ⟨nm', ps', body, body'', e1, e2, -⟩ := hL.fns n _ hf
      cases e2
      rw [hl]; exact h.2 _ _ _ e1
  | «infix» _ _ h1 h2 => exact ⟨h1 h.1, h2 h.2⟩
  | var _ ih => exact ih h

theorem InlinedScope.wf (hL : InlinedScope K L pos) (hw : Wf K pos) : Wf L pos where
  fns := by
    intro g d h
    obtain ⟨nm, ps, body, body', e1, e2, e3, -⟩ := hL.fns g d h
    obtain ⟨_, _, _, e, hp⟩ := hw.fns _ _ e1
    cases e
    exact ⟨nm, ps, body', e2, e3.plain hw hp⟩
  vars := by
    intro x d h
    obtain ⟨d₀, a, a', e1, e2, e3, e4, -⟩ := hL.vars x d h
    obtain ⟨_, e, hp⟩ := hw.vars _ _ e1
    rw [e2] at e; cases e
    exact ⟨a', e3, e4.plain hw hp⟩

theorem InlinedScope.tidy (hL : InlinedScope K L pos) (hT : Tidy K pos order P) : Tidy L pos order P where
  acyclic := ⟨fun n hn => hT.acyclic.1 n (hL.defined hn), fun n m hn hm h => by
    obtain ⟨m₀, k1, k2⟩ := mentions_inlined hL h
    have h1 : Defined K m₀ := by
      rcases Relation.ReflTransGen.cases_head k2 with rfl | ⟨e, k, -⟩
      · exact hL.defined hm
      · exact defined_of_mentions k
    have h2 := hT.acyclic.2 n m₀ (hL.defined hn) h1 k1
    have h3 := needs_order hT.acyclic k2 (hL.defined hm)
    omega⟩
  hygienic := {
    params := by
      intro g nm ps body' h
      obtain ⟨_, _, body, _, e1, e2, -⟩ := hL.fns g _ h
      cases e2
      exact hT.hygienic.params g nm ps body e1
    vars := by
      intro x d' a' h1 h2 r hr
      obtain ⟨d, a, a'', e1, e2, e3, e4, -⟩ := hL.vars x d' h1
      rw [h2] at e3; cases e3
      rcases e4.refs hT.hygienic hr with h | h
      · exact hT.hygienic.vars x d a e1 e2 r h
      · exact h
    bodies := by
      intro g nm ps body' h r hr hrp
      obtain ⟨_, _, body, _, e1, e2, e3, -⟩ := hL.fns g _ h
      cases e2
      rcases e3.refs hT.hygienic hr with h | h
      · exact hT.hygienic.bodies g nm ps body e1 r h hrp
      · exact h }
  apart := {
    vars := by
      intro x d' a' h1 h2
      obtain ⟨d, a, a'', e1, e2, e3, e4, -⟩ := hL.vars x d' h1
      rw [h2] at e3; cases e3
      exact e4.apart hT.apart hL [] (hT.apart.vars x d a e1 e2)
    fns := by
      intro g nm ps body' h
      obtain ⟨_, _, body, _, e1, e2, e3, -⟩ := hL.fns g _ h
      cases e2
      exact e3.apart hT.apart hL ps (hT.apart.fns g nm ps body e1) }
  arityVars := by
    intro x d' a' h1 h2
    obtain ⟨d, a, a'', e1, e2, e3, e4, -⟩ := hL.vars x d' h1
    rw [h2] at e3; cases e3
    exact e4.arity hT.arityVars hT.arityFns hL (hT.arityVars x d a e1 e2)
  arityFns := by
    intro g nm ps body' h
    obtain ⟨_, _, body, _, e1, e2, e3, -⟩ := hL.fns g _ h
    cases e2
    exact e3.arity hT.arityVars hT.arityFns hL (hT.arityFns g nm ps body e1)

/-- C107, a formula.  Replace some uses of definitions in a formula, and in the definitions, by the definitions, and remove definitions that are not used
any more.  The outcome is the same, namely what the formula means. -/
theorem C107_formula (hw : Wf K pos) (hT : Tidy K pos order P) (hL : InlinedScope K L pos) {a a' : Ast} (hpl : plain a) (hr : ∀ r ∈ refNames a, ¬ P r)
    (ha : Apart K pos [] a) (har : arityOk K a) (hp : Inlined K pos [] a a') (hc : ∀ m, Uses a' m → Defined K m → Defined L m) :
    ∃ b, Means K pos a b ∧ Means L pos a' b ∧ (∀ o, Eval K pos a o ↔ o = .ok b) ∧ ∀ o, Eval L pos a' o ↔ o = .ok b := by
  have hTL := hL.tidy hT
  obtain ⟨-, b, k1, -, k3⟩ := C21_meaning_partial K pos order P hw hT.acyclic hT.hygienic hT.apart hT.arityVars hT.arityFns a hpl hr ha har
  obtain ⟨-, b', m1, -, m3⟩ := C21_meaning_partial L pos order P (hL.wf hw) hTL.acyclic hTL.hygienic hTL.apart hTL.arityVars hTL.arityFns a'
    (hp.plain hw hpl) (fun r h => (hp.refs hT.hygienic h).elim (hr r) id) (hp.apart hT.apart hL [] ha) (hp.arity hT.arityVars hT.arityFns hL har)
  have : b' = b := by
    rw [inlined_expand hw hT.acyclic hT.hygienic hL m1 hc, means_expand hw hT.acyclic k1]
    exact (hp.interp hw hT.acyclic hT.hygienic (by simp) (ρ := noρ) (by simp)).symm
  subst this
  exact ⟨b', k1, m1, k3, m3⟩

end

/-! ### A concrete case -/

/-- `fn add(a, b) a + b`: of the definitions of `demo2` the others are not needed any more when their uses are replaced. -/
def demo2Rest : Scope := .ofLists [] [def' "add" ["a", "b"] (op (R "a") "+" (R "b"))]

/-- `=add(5 * 2, 5) - SUM(1 * 2)` -/
def demo2Inlined : Ast := op (call "add" [op (I 5) "*" (I 2), I 5]) "-" (call "SUM" [op (I 1) "*" (I 2)])

theorem demo2_inlined (pos : Option Addr) : Inlined demo2 pos [] demo2Formula demo2Inlined := by
  have hrate : Inlined demo2 pos [] (R "rate") (I 5) := .value (d := .var (T "rate") (I 5)) (by simp) rfl rfl .same
  have hdouble : ∀ a b, Inlined demo2 pos [] a b → Inlined demo2 pos [] (call "double" [a]) (op b "*" (I 2)) := by
    intro a b h
    refine .body (nm := T "double") (qs := [T "n"]) (b := op (R "n") "*" (I 2)) rfl rfl (.infix ?_ .same)
    exact h
  refine .infix (.call rfl fun i a b h1 h2 => ?_) (.call rfl fun i a b h1 h2 => ?_)
  · match i with
    | 0 => cases h1; cases h2; exact hdouble _ _ hrate
    | 1 => cases h1; cases h2; exact hrate
    | i + 2 => cases h1
  · match i with
    | 0 => cases h1; cases h2; exact hdouble _ _ .same
    | i + 1 => cases h1

theorem demo2_rest (pos : Option Addr) : InlinedScope demo2 demo2Rest pos where
  vars := fun x d h => by cases h
  fns := fun g d h => by
    have := mem_of_lookup _ _ _ h
    simp only [List.mem_cons, Prod.mk.injEq, List.not_mem_nil, or_false] at this
    obtain ⟨rfl, rfl⟩ := this
    refine ⟨T "add", [T "a", T "b"], op (R "a") "+" (R "b"), _, rfl, rfl, .same, fun m hu hp => ?_⟩
    cases m <;> simp [Uses, refNames, callNames] at hu hp
    rcases hu with hu | hu
    · exact absurd hu hp.1
    · exact absurd hu hp.2

/-- Both are evaluated to the same. -/
example (o : Outcome) : Eval demo2 none demo2Formula o ↔ Eval demo2Rest none demo2Inlined o := by
  obtain ⟨b, -, -, h1, h2⟩ := C107_formula (demo2_wf none) ⟨demo2_acyclic none, demo2_hygienic none, demo2_apart none, (demo2_arity none).1, (demo2_arity none).2.1⟩
    (demo2_rest none) (a := demo2Formula) (by decide) (by intro r hr; simp [demo2Formula, refNames, refNamesL] at hr; subst hr; decide)
    (demo2Formula_apart _) (demo2_arity none).2.2 (demo2_inlined none) (by
      intro m hu hd
      cases m with
      | v x => simp [demo2Inlined, Uses, refNames, refNamesL] at hu
      | f g =>
        simp only [demo2Inlined, Uses, callNames, callNamesL, List.append_nil, List.nil_append, List.mem_append, List.mem_cons, List.not_mem_nil, or_false] at hu
        rcases hu with rfl | rfl
        · simp [Defined, demo2Rest]; decide
        · exact absurd hd (by simp [Defined]; decide))
  rw [h1, h2]

end Verif.Ast
