import Verif.Loader.Resolve
import Verif.Ast.LinkFn
/-
Evaluating the definitions of a module that holds part of the definitions of a program.
-/
namespace Verif.Loader
open Verif.Ast

section
variable {K L : Scope} {pos : Option Addr} {P : Text → Prop} {order : List Name}

/-- The definitions of a module of the program, before or during their evaluation. -/
structure LibScope (K L : Scope) (pos : Option Addr) (P : Text → Prop) : Prop where
  linked : Linked K L pos P
  form : ∀ x d, L.variables x = some d → ∃ a, d = .var x a
  named : ∀ x d, L.variables x = some d → ¬ P x

/-- The variable has been worked out. -/
def DoneVar (K L : Scope) (pos : Option Addr) (x : Text) : Prop :=
  ∃ d a v, K.variables x = some d ∧ resolve pos d = some a ∧ L.variables x = some (.var x v) ∧ Ast.Means K pos a v

/-- The definitions of a module after their evaluation. -/
structure Evald (K S : Scope) (pos : Option Addr) (P : Text → Prop) : Prop where
  vars : ∀ x d', S.variables x = some d' → ¬ P x ∧ DoneVar K S pos x
  fns : ∀ g d', S.functions g = some d' → ∃ nm ps body body', K.functions g = some (.fn nm ps body) ∧ d' = .fn nm ps body' ∧
    Part K pos P body body' ∧ ∀ x ∈ refNames body', x ∉ ps → K.variables x = none

theorem LibScope.still (h : LibScope K L pos P) : ∀ x d, L.variables x = some d → resolve none d = resolve pos d := by
  intro x d hd
  obtain ⟨a, rfl⟩ := h.form x d hd
  rfl

/-- One variable is worked out. -/
theorem lib_var (hw : Wf K pos) (hT : Tidy K pos order P) (h : LibScope K L pos P) {x : Text} {d : Ast} (hd : L.variables x = some d) :
    ∃ v, (∀ o, Eval L none d o ↔ o = .ok (.var x v)) ∧
      LibScope K ⟨L.functions, fun k => if k = x then some (.var x v) else L.variables k, L.exports⟩ pos P ∧
      DoneVar K ⟨L.functions, fun k => if k = x then some (.var x v) else L.variables k, L.exports⟩ pos x := by
  obtain ⟨a', rfl⟩ := h.form x d hd
  obtain ⟨dK, a, a'', e1, e2, e3, e4, e5⟩ := h.linked.vars x _ hd
  cases e3
  obtain ⟨_, e6, hpl⟩ := hw.vars x dK e1
  rw [e2] at e6; cases e6
  obtain ⟨b, hb, hev⟩ := linked_eval hw hT h.linked (a := .var x a) (a' := .var x a') hpl (hT.hygienic.vars x dK a e1 e2) (hT.apart.vars x dK a e1 e2)
    (hT.arityVars x dK a e1 e2) (.var e4) (fun m hm => e5 m (uses_var.mp hm))
  have hbv : ∃ v, b = .var x v ∧ Ast.Means K pos a v := by
    cases hb with
    | leaf hl =>
      refine ⟨a, rfl, .leaf fun m hm => hl m (uses_var.mpr hm)⟩
    | var hm => exact ⟨_, rfl, hm⟩
  obtain ⟨v, rfl, hm⟩ := hbv
  have hdef : ∀ n, Defined L n → Defined ⟨L.functions, fun k => if k = x then some (.var x v) else L.variables k, L.exports⟩ n := by
    intro n hn
    cases n with
    | f g => exact hn
    | v y =>
      simp only [Defined]
      split
      · rfl
      · exact hn
  refine ⟨v, fun o => by rw [eval_pos h.still]; exact hev o, ⟨⟨fun y d' hy => ?_, fun g d' hg => ?_⟩, fun y d' hy => ?_, fun y d' hy => ?_⟩, ?_⟩
  · simp only at hy
    split at hy
    · rename_i hyx; subst hyx; cases hy
      exact ⟨dK, a, v, e1, e2, rfl, .done (hT.hygienic.vars y dK a e1 e2) hpl hm, fun m hu hK => absurd hu (means_free hm m hK)⟩
    · obtain ⟨d₀, a₀, a₁, f1, f2, f3, f4, f5⟩ := h.linked.vars y d' hy
      exact ⟨d₀, a₀, a₁, f1, f2, f3, f4, fun m hu hK => hdef m (f5 m hu hK)⟩
  · obtain ⟨nm, ps, body, body', f1, f2, f3, f4⟩ := h.linked.fns g d' hg
    exact ⟨nm, ps, body, body', f1, f2, f3, fun m hu hp hK => hdef m (f4 m hu hp hK)⟩
  · simp only at hy
    split at hy
    · rename_i hyx; subst hyx; cases hy; exact ⟨v, rfl⟩
    · exact h.form y d' hy
  · simp only at hy
    split at hy
    · rename_i hyx; subst hyx; exact h.named _ _ hd
    · exact h.named y d' hy
  · exact ⟨dK, a, v, e1, e2, by simp, hm⟩

/-- All variables are worked out. -/
theorem lib_vars (hw : Wf K pos) (hT : Tidy K pos order P) (l : List (Text × Ast)) (h : LibScope K L pos P) (hn : (l.map (·.1)).Nodup)
    (hl : ∀ k a, (k, a) ∈ l → L.variables k = some a) (hd : ∀ x d, L.variables x = some d → x ∉ l.map (·.1) → DoneVar K L pos x) :
    ∃ S, LibScope K S pos P ∧ (∀ x d, S.variables x = some d → DoneVar K S pos x) ∧ S.functions = L.functions ∧ S.exports = L.exports ∧
      (∀ x, (S.variables x).isSome ↔ (L.variables x).isSome) ∧ ∀ o, EvalVars l L o ↔ o = .ok S := by
  induction l generalizing L with
  | nil =>
    refine ⟨L, h, fun x d hx => hd x d hx (by simp), rfl, rfl, fun _ => Iff.rfl, fun o => ⟨fun h => ?_, ?_⟩⟩
    · cases h; rfl
    · rintro rfl; exact .nil
  | cons e l ih =>
    obtain ⟨x, d⟩ := e
    have hx := hl x d (by simp)
    rw [List.map_cons, List.nodup_cons] at hn
    obtain ⟨v, hev, hL', hdone⟩ := lib_var hw hT h hx
    have hkeep : ∀ y, y ≠ x → DoneVar K L pos y → DoneVar K ⟨L.functions, fun k => if k = x then some (.var x v) else L.variables k, L.exports⟩ pos y := by
      rintro y hy ⟨d, a, w, g1, g2, g3, g4⟩
      exact ⟨d, a, w, g1, g2, by simp [hy, g3], g4⟩
    obtain ⟨S, s1, s2, s3, s4, s5, s6⟩ := ih hL' hn.2 (fun k a hk => by
      have hkx : k ≠ x := by rintro rfl; exact hn.1 (List.mem_map.mpr ⟨_, hk, rfl⟩)
      simp only [if_neg hkx]
      exact hl k a (List.mem_cons_of_mem _ hk)) (fun y d' hy hyl => by
      by_cases hyx : y = x
      · subst hyx; exact hdone
      · simp only [if_neg hyx] at hy
        exact hkeep y hyx (hd y d' hy (by simp only [List.map_cons, List.mem_cons, not_or]; exact ⟨hyx, hyl⟩)))
    refine ⟨S, s1, s2, s3, s4, fun y => ?_, fun o => ⟨fun h => ?_, ?_⟩⟩
    · rw [s5]
      by_cases hyx : y = x
      · subst hyx; simp [hx]
      · simp [hyx]
    · cases h with
      | cons h1 h2 =>
        cases (hev _).mp h1
        exact (s6 _).mp h2
      | err h1 => cases (hev _).mp h1
      | panic h1 => cases (hev _).mp h1
    · rintro rfl
      exact .cons ((hev _).mpr rfl) ((s6 _).mpr rfl)

theorem settled_of_done (h : LibScope K L pos P) (hd : ∀ x d, L.variables x = some d → DoneVar K L pos x) : Settled L pos := by
  rintro x v ⟨d, hx, hr⟩ n hn
  obtain ⟨d₀, a, w, g1, g2, g3, g4⟩ := hd x d hx
  rw [g3] at hx; cases hx
  cases hr
  exact means_free g4 n (h.linked.defined hn)

theorem values_of_done (h : LibScope K L pos P) (hd : ∀ x d, L.variables x = some d → DoneVar K L pos x) :
    ∀ x v, values L pos x = some v → ¬ P x ∧ Defined K (.v x) ∧ Ast.Means K pos (.ref x) v := by
  intro x v hv
  obtain ⟨d, hx, hr⟩ := values_some.mp hv
  obtain ⟨d₀, a, w, g1, g2, g3, g4⟩ := hd x d hx
  have hp := h.named x d hx
  rw [g3] at hx; cases hx
  cases hr
  exact ⟨hp, by simp [Defined, g1], .value g1 g2 g4⟩

/-- The function has lost its variables. -/
def DoneFn (K L : Scope) (g : Text) : Prop :=
  ∀ nm ps body', L.functions g = some (.fn nm ps body') → ∀ x ∈ refNames body', x ∉ ps → K.variables x = none

/-- One function definition is evaluated. -/
theorem lib_fn (hw : Wf K pos) (h : LibScope K L pos P) (hd : ∀ x d, L.variables x = some d → DoneVar K L pos x)
    {g : Text} {d : Ast} (hg : L.functions g = some d) :
    ∃ d', (∀ o, Eval L none d o ↔ o = .ok d') ∧
      LibScope K ⟨fun k => if k = g then some d' else L.functions k, L.variables, L.exports⟩ pos P ∧
      DoneFn K ⟨fun k => if k = g then some d' else L.functions k, L.variables, L.exports⟩ g := by
  obtain ⟨nm, ps, body, body', e1, rfl, e3, e4⟩ := h.linked.fns g d hg
  have hs := settled_of_done h hd
  have hval := values_of_done h hd
  obtain ⟨_, _, _, e, hpl⟩ := hw.fns g _ e1
  cases e
  have huse : ∀ m, Uses (subst (values L pos) body') m → Defined K m → Uses body' m ∧ ∀ x, m = .v x → L.variables x = none := by
    intro m hu hK
    rcases uses_subst body' hu with ⟨u1, u2⟩ | ⟨x, e, -, u2, u3⟩
    · refine ⟨u1, fun x hx => ?_⟩
      cases hxv : L.variables x with
      | none => rfl
      | some d =>
        obtain ⟨a, rfl⟩ := h.form x d hxv
        have := u2 x hx
        simp [values, hxv, resolve] at this
    · obtain ⟨d, hx, hr⟩ := values_some.mp u2
      obtain ⟨d₀, a, w, g1, g2, g3, g4⟩ := hd x d hx
      rw [g3] at hx; cases hx; cases hr
      exact absurd u3 (means_free g4 m hK)
  have hdef : ∀ n, Defined L n → Defined ⟨fun k => if k = g then some (.fn nm ps (subst (values L pos) body')) else L.functions k, L.variables, L.exports⟩ n := by
    intro n hn
    cases n with
    | v x => exact hn
    | f y =>
      simp only [Defined]
      split
      · rfl
      · exact hn
  refine ⟨.fn nm ps (subst (values L pos) body'), fun o => by rw [eval_pos h.still]; exact eval_fn (h.linked.wf hw) hs nm ps body' o,
    ⟨⟨fun y d' hy => ?_, fun k d' hk => ?_⟩, h.form, h.named⟩, ?_⟩
  · obtain ⟨d₀, a₀, a₁, f1, f2, f3, f4, f5⟩ := h.linked.vars y d' hy
    exact ⟨d₀, a₀, a₁, f1, f2, f3, f4, fun m hu hK => hdef m (f5 m hu hK)⟩
  · simp only at hk
    split at hk
    · rename_i hkg; subst hkg; cases hk
      exact ⟨nm, ps, body, _, e1, rfl, e3.values hval hpl, fun m hu hp hK => hdef m (e4 m (huse m hu hK).1 hp hK)⟩
    · obtain ⟨nm', ps', b, b', f1, f2, f3, f4⟩ := h.linked.fns k d' hk
      exact ⟨nm', ps', b, b', f1, f2, f3, fun m hu hp hK => hdef m (f4 m hu hp hK)⟩
  · intro nm' ps' b' hb x hx hxp
    simp only [if_true] at hb
    cases hb
    cases hK : K.variables x with
    | none => rfl
    | some dK =>
      have hKd : Defined K (.v x) := by simp [Defined, hK]
      obtain ⟨u1, u2⟩ := huse (.v x) hx hKd
      have := e4 (.v x) u1 (by rintro p hp ⟨⟩; exact hxp hp) hKd
      simp [Defined, u2 x rfl] at this

/-- All function definitions are evaluated. -/
theorem lib_fns (hw : Wf K pos) (l : List (Text × Ast)) (h : LibScope K L pos P) (hd : ∀ x d, L.variables x = some d → DoneVar K L pos x)
    (hn : (l.map (·.1)).Nodup) (hl : ∀ k a, (k, a) ∈ l → L.functions k = some a)
    (hf : ∀ g, g ∉ l.map (·.1) → DoneFn K L g) :
    ∃ S, LibScope K S pos P ∧ (∀ g, DoneFn K S g) ∧ S.variables = L.variables ∧ S.exports = L.exports ∧
      (∀ x, (S.functions x).isSome ↔ (L.functions x).isSome) ∧ ∀ o, EvalFns l L o ↔ o = .ok S := by
  induction l generalizing L with
  | nil =>
    refine ⟨L, h, fun g => hf g (by simp), rfl, rfl, fun _ => Iff.rfl, fun o => ⟨fun h => ?_, ?_⟩⟩
    · cases h; rfl
    · rintro rfl; exact .nil
  | cons e l ih =>
    obtain ⟨x, d⟩ := e
    have hx := hl x d (by simp)
    rw [List.map_cons, List.nodup_cons] at hn
    obtain ⟨v, hev, hL', hdone⟩ := lib_fn hw h hd hx
    obtain ⟨S, s1, s2, s3, s4, s5, s6⟩ := ih hL' hd hn.2 (fun k a hk => by
      have hkx : k ≠ x := by rintro rfl; exact hn.1 (List.mem_map.mpr ⟨_, hk, rfl⟩)
      simp only [if_neg hkx]
      exact hl k a (List.mem_cons_of_mem _ hk)) (fun y hyl => by
      by_cases hyx : y = x
      · subst hyx; exact hdone
      · intro nm ps b' hb
        simp only [if_neg hyx] at hb
        exact hf y (by simp only [List.map_cons, List.mem_cons, not_or]; exact ⟨hyx, hyl⟩) nm ps b' hb)
    refine ⟨S, s1, s2, s3, s4, fun y => ?_, fun o => ⟨fun h => ?_, ?_⟩⟩
    · rw [s5]
      by_cases hyx : y = x
      · subst hyx; simp [hx]
      · simp [hyx]
    · cases h with
      | cons h1 h2 =>
        cases (hev _).mp h1
        exact (s6 _).mp h2
      | err h1 => cases (hev _).mp h1
      | panic h1 => cases (hev _).mp h1
    · rintro rfl
      exact .cons ((hev _).mpr rfl) ((s6 _).mpr rfl)

theorem exists_enum (m : Text → Option Ast) (ks : List Text) (h : ∀ k, (m k).isSome → k ∈ ks) : ∃ l, IsEnum l m := by
  have key : ∀ ks : List Text, ∃ l : List (Text × Ast), (l.map (·.1)).Nodup ∧ ∀ k v, (k, v) ∈ l ↔ k ∈ ks ∧ m k = some v := by
    intro ks
    induction ks with
    | nil => exact ⟨[], by simp, by simp⟩
    | cons k ks ih =>
      obtain ⟨l, h1, h2⟩ := ih
      by_cases hk : k ∈ ks
      · exact ⟨l, h1, fun k' v => by rw [h2, List.mem_cons]; constructor
                                     · rintro ⟨a, b⟩; exact ⟨.inr a, b⟩
                                     · rintro ⟨rfl | a, b⟩; exacts [⟨hk, b⟩, ⟨a, b⟩]⟩
      · cases hm : m k with
        | none =>
          refine ⟨l, h1, fun k' v => ?_⟩
          rw [h2, List.mem_cons]
          constructor
          · rintro ⟨a, b⟩; exact ⟨.inr a, b⟩
          · rintro ⟨rfl | a, b⟩
            · rw [hm] at b; cases b
            · exact ⟨a, b⟩
        | some w =>
          refine ⟨(k, w) :: l, ?_, fun k' v => ?_⟩
          · rw [List.map_cons, List.nodup_cons]
            refine ⟨fun h => hk ?_, h1⟩
            obtain ⟨⟨a, b⟩, h3, rfl⟩ := List.mem_map.mp h
            exact ((h2 a b).mp h3).1
          · rw [List.mem_cons, h2, List.mem_cons, Prod.mk.injEq]
            constructor
            · rintro (⟨rfl, rfl⟩ | ⟨a, b⟩)
              · exact ⟨.inl rfl, hm⟩
              · exact ⟨.inr a, b⟩
            · rintro ⟨rfl | a, b⟩
              · rw [hm] at b; cases b; exact .inl ⟨rfl, rfl⟩
              · exact .inr ⟨a, b⟩
  obtain ⟨l, h1, h2⟩ := key ks
  exact ⟨l, h1, fun k v => by rw [h2]; exact ⟨fun h => h.2, fun hm => ⟨h k (by simp [hm]), hm⟩⟩⟩

/-- The definitions of a module are evaluated, whatever the orders of the hash maps. -/
theorem lib_eval (hw : Wf K pos) (hT : Tidy K pos order P) (h : LibScope K L pos P) :
    (∃ S, EvalScope L (.ok S)) ∧ ∀ o, EvalScope L o → ∃ S, o = .ok S ∧ Evald K S pos P ∧ (∀ n, Defined S n ↔ Defined L n) ∧ S.exports = L.exports := by
  have hvars : ∀ l, IsEnum l L.variables → _ := fun l hl =>
    lib_vars hw hT l h hl.1 (fun k a hk => (hl.2 k a).mp hk) fun x d hx hxl => absurd (List.mem_map.mpr ⟨(x, d), (hl.2 x d).mpr hx, rfl⟩) hxl
  have hfns : ∀ {S : Scope}, LibScope K S pos P → (∀ x d, S.variables x = some d → DoneVar K S pos x) → ∀ l, IsEnum l S.functions → _ :=
    fun {S} h hd l hl => lib_fns hw l h hd hl.1 (fun k a hk => (hl.2 k a).mp hk) fun g hg nm ps b' hb =>
      absurd (List.mem_map.mpr ⟨(g, _), (hl.2 g _).mpr hb, rfl⟩) hg
  constructor
  · obtain ⟨l, hl⟩ := exists_enum L.variables (order.filterMap fun n => match n with | .v x => some x | .f _ => none) fun k hk => by
      rw [List.mem_filterMap]; exact ⟨.v k, hT.acyclic.1 _ (h.linked.defined (n := .v k) hk), rfl⟩
    obtain ⟨S, s1, s2, s3, s4, s5, s6⟩ := hvars l hl
    obtain ⟨l', hl'⟩ := exists_enum S.functions (order.filterMap fun n => match n with | .f x => some x | .v _ => none) fun k hk => by
      rw [List.mem_filterMap]; exact ⟨.f k, hT.acyclic.1 _ (s1.linked.defined (n := .f k) hk), rfl⟩
    obtain ⟨S', -, -, -, -, -, t6⟩ := hfns s1 s2 l' hl'
    exact ⟨S', .ok hl ((s6 _).mpr rfl) hl' ((t6 _).mpr rfl)⟩
  · intro o ho
    cases ho with
    | @ok l l' sc' _ h1 h2 h3 h4 =>
      obtain ⟨S, s1, s2, s3, s4, s5, s6⟩ := hvars l h1
      cases (s6 _).mp h2
      obtain ⟨S', t1, t2, t3, t4, t5, t6⟩ := hfns s1 s2 l' h3
      cases (t6 _).mp h4
      refine ⟨S', rfl, ⟨fun x d' hx => ⟨t1.named x d' hx, ?_⟩, fun g d' hg => ?_⟩, fun n => ?_, by rw [t4, s4]⟩
      · rw [t3] at hx
        obtain ⟨d, a, v, g1, g2, g3, g4⟩ := s2 x d' hx
        exact ⟨d, a, v, g1, g2, by rw [t3]; exact g3, g4⟩
      · obtain ⟨nm, ps, body, body', e1, rfl, e3, e4⟩ := t1.linked.fns g d' hg
        exact ⟨nm, ps, body, body', e1, rfl, e3, t2 g nm ps body' hg⟩
      · cases n with
        | v x => simp only [Defined]; rw [t3]; exact s5 x
        | f x => simp only [Defined]; rw [t5, s3]
    | @err l e h1 h2 =>
      obtain ⟨S, s1, s2, s3, s4, s5, s6⟩ := hvars l h1
      cases (s6 _).mp h2
    | @panic l h1 h2 =>
      obtain ⟨S, s1, s2, s3, s4, s5, s6⟩ := hvars l h1
      cases (s6 _).mp h2

end
end Verif.Loader
