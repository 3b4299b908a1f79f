import Verif.Loader.Program
/-
Programs of several modules: what the formulas of the main module evaluate to.
-/
namespace Verif.Loader
open Verif.Ast

/-! ## Specification -/

/-- The definitions `K` and, for names that it does not define, the variables `ext`. -/
def withVars (K : Scope) (ext : Text → Option Ast) : Scope :=
  { K with «variables» := fun x => (K.variables x).or (ext x) }

/-- Modules use only what they see.  `ext` are the variables that only the main module can use: the named cells and the values given with `-k`. -/
structure Separate (fetch : MPath → Except LoadError Mod) (main : Mod) (K : Scope) (ext : Text → Option Ast) : Prop where
  /-- the other modules use only what they see, in particular none of `ext` -/
  libs : ∀ p m, Reach fetch main p → fetch p = .ok m → Covered fetch (withVars K ext) m
  /-- none of their variables has the name of a parameter -/
  params : ∀ p m x d, Reach fetch main p → fetch p = .ok m → m.scope.variables x = some d → ¬ IsParam K x
  /-- so does the main module -/
  own : Covered fetch K main
  /-- `ext` does not define a name that a module defines which the main module does not see -/
  names : ∀ x d, ext x = some d → Defined K (.v x) → Sees fetch main (.v x)

/-- The formula uses only what the main module sees. -/
def UsesSeen (fetch : MPath → Except LoadError Mod) (main : Mod) (K : Scope) (a : Ast) : Prop := ∀ n, Uses a n → Defined K n → Sees fetch main n

/-! ## Proofs -/

section
variable {fetch : MPath → Except LoadError Mod} {mainPath : MPath} {main : Mod} {K : Scope} {ext : Text → Option Ast}

theorem defined_withVars {K : Scope} {ext : Text → Option Ast} {n : Name} : Defined (withVars K ext) n ↔ Defined K n ∨ ∃ x d, n = .v x ∧ ext x = some d := by
  cases n with
  | v x =>
    simp only [Defined, withVars, Option.isSome_or, Bool.or_eq_true, Name.v.injEq, Option.isSome_iff_exists (x := ext x)]
    constructor
    · rintro (h | ⟨d, h⟩)
      · exact .inl h
      · exact .inr ⟨x, d, rfl, h⟩
    · rintro (h | ⟨_, d, rfl, h⟩)
      · exact .inl h
      · exact .inr ⟨d, h⟩
  | f g => simp [Defined, withVars]

theorem covered_of_withVars {m : Mod} (h : Covered fetch (withVars K ext) m) : Covered fetch K m where
  vars := fun x a h1 n h2 h3 => h.vars x a h1 n h2 (defined_withVars.mpr (.inl h3))
  fns := fun g nm ps body h1 n h2 h3 h4 => h.fns g nm ps body h1 n h2 h3 (defined_withVars.mpr (.inl h4))
  calls := fun g nm ps body h1 h2 => h.calls g nm ps body h1 h2

theorem tidy_params {K K' : Scope} {pos : Option Addr} {order : List Name} {P : Text → Prop} (hf : K'.functions = K.functions) (h : Tidy K' pos order P) :
    Tidy K' pos order (IsParam K) := by
  have hsub : ∀ p, IsParam K p → P p := by
    rintro p ⟨g, nm, ps, body, h1, h2⟩
    exact h.hygienic.params g nm ps body (by rw [hf]; exact h1) p h2
  refine ⟨h.acyclic, ⟨fun g nm ps body h1 p hp => ⟨g, nm, ps, body, by rw [← hf]; exact h1, hp⟩, ?_, ?_⟩, h.apart, h.arityVars, h.arityFns⟩
  · exact fun x d a h1 h2 r hr hp => h.hygienic.vars x d a h1 h2 r hr (hsub r hp)
  · exact fun g nm ps body h1 r hr hn hp => h.hygienic.bodies g nm ps body h1 r hr hn (hsub r hp)

/-- The modules of the program are loaded, and a formula of the main module is evaluated to what it means with the definitions of all modules. -/
theorem program_eval {load : MPath → Except LoadError Mod} {order₀ : List Name} {P₀ : Text → Prop} (hl : Loadable fetch mainPath main)
    (hg : ∀ p m, Reach fetch main p → fetch p = .ok m → Reads fetch load p m) (hu : IsUnion fetch main K)
    (hvar : ∀ x d, K.variables x = some d → ∃ a, d = .var x a) (hw₀ : Wf K none) (hT₀ : Tidy K none order₀ P₀) (hsep : Separate fetch main K ext) :
    (∃ o, LoadMain load mainPath main o) ∧ ∀ o, LoadMain load mainPath main o → ∃ sc : Scope, o = .ok sc ∧
      ∀ (pos : Option Addr) (f : Ast) (order : List Name) (P : Text → Prop), Wf (withVars K ext) pos → Tidy (withVars K ext) pos order P →
        plain f → (∀ r ∈ refNames f, ¬ P r) → Apart (withVars K ext) pos [] f → arityOk (withVars K ext) f → UsesSeen fetch main K f →
        (∀ x d a, ext x = some d → resolve pos d = some a → UsesSeen fetch main K a) →
        ∃ b, Means (withVars K ext) pos f b ∧ (∀ b', Means (withVars K ext) pos f b' → b' = b) ∧
          ∀ o, Eval (withVars sc ext) pos f o ↔ o = .ok b := by
  have hin : ∀ p m, Reach fetch main p → fetch p = .ok m → InProgram fetch main m := fun p m h1 h2 => .inr ⟨p, h1, h2⟩
  have hown : ∀ pos m, InProgram fetch main m → Own K pos m := fun pos m hm =>
    ⟨fun x d h => have h' := (hu.vars x d).mpr ⟨m, hm, h⟩; ⟨h', hvar x d h'⟩,
      fun g d h => by
        have h' := (hu.fns g d).mpr ⟨m, hm, h⟩
        obtain ⟨nm, ps, body, e, -⟩ := hw₀.fns g d h'
        exact ⟨h', nm, ps, body, e⟩⟩
  have hown' : ∀ pos m, InProgram fetch main m → Own (withVars K ext) pos m := fun pos m hm =>
    ⟨fun x d h => by
        obtain ⟨e1, e2⟩ := (hown pos m hm).vars x d h
        exact ⟨by simp [withVars, e1], e2⟩, (hown pos m hm).fns⟩
  have h0 := load_linked (P := IsParam K) hl hg hw₀ (tidy_params rfl hT₀) fun p m h1 h2 =>
    ⟨hown none m (hin p m h1 h2), covered_of_withVars (hsep.libs p m h1 h2), fun x d => hsep.params p m x d h1 h2⟩
  refine ⟨h0.1, fun o ho => ?_⟩
  obtain ⟨sc, ds₀, rfl, -⟩ := h0.2 o ho
  refine ⟨sc, rfl, fun pos f order P hw hT hpl hr ha har hf hval => ?_⟩
  have hT' := tidy_params (K := K) (K' := withVars K ext) rfl hT
  have hsub : ∀ p, IsParam K p → P p := by
    rintro p ⟨g, nm, ps, body, h1, h2⟩
    exact hT.hygienic.params g nm ps body h1 p h2
  obtain ⟨-, hload⟩ := load_linked (P := IsParam K) hl hg hw hT' fun p m h1 h2 =>
    ⟨hown' pos m (hin p m h1 h2), hsep.libs p m h1 h2, fun x d => hsep.params p m x d h1 h2⟩
  obtain ⟨_, ds, e, hds, hv, hfn, hsees⟩ := hload _ ho
  cases e
  have hseen : ∀ n, Defined (withVars K ext) n → (Defined K n → Sees fetch main n) → Defined (withVars sc ext) n := by
    intro n hn h
    rcases defined_withVars.mp hn with hn | hn
    · exact defined_withVars.mpr (.inl ((hsees n).mpr (h hn)))
    · exact defined_withVars.mpr (.inr hn)
  have hmain : InProgram fetch main main := .inl rfl
  have hL : Linked (withVars K ext) (withVars sc ext) pos (IsParam K) := by
    refine merge_linked (own := main.scope) (ds := ds) (ext := ext) hw hT' (fun k => by simp only [withVars, hv]) (fun k => hfn k)
      (.inr ⟨fun x d hx => ?_, fun g d hg => ?_⟩) hds (fun g nm ps body hg hK h hh hKh => ?_) (fun x d hx he => ?_)
    · obtain ⟨e1, a, rfl⟩ := (hown' pos main hmain).vars x d hx
      exact ⟨e1, a, rfl, fun n hu hK => hseen n hK (hsep.own.vars x a hx n hu)⟩
    · obtain ⟨e1, nm, ps, body, rfl⟩ := (hown' pos main hmain).fns g d hg
      exact ⟨e1, nm, ps, body, rfl, fun n hu hp hK => hseen n hK (hsep.own.fns g nm ps body hg n hu hp)⟩
    · exact hseen _ hKh fun h' => hsep.own.calls g nm ps body ((hsees (.f g)).mp hg) hK h hh h'
    · have hno : K.variables x = none := by
        cases hk : K.variables x with
        | none => rfl
        | some d' =>
          have := (hsees (.v x)).mpr (hsep.names x d he (by simp [Defined, hk]))
          simp only [Defined, hv, hx] at this
          cases this
      have hkx : (withVars K ext).variables x = some d := by simp [withVars, hno, he]
      obtain ⟨a, e2, -⟩ := hw.vars x d hkx
      exact ⟨hkx, a, e2, fun n hu hK => hseen n hK (hval x d a he e2 n hu)⟩
  obtain ⟨b, hb, hev⟩ := linked_eval hw hT' hL hpl (fun r h hp => hr r h (hsub r hp)) ha har .same fun n hu hK => hseen n hK (hf n hu)
  refine ⟨b, hb, fun b' hb' => ?_, hev⟩
  obtain ⟨-, c, -, h2, -⟩ := C21_meaning_partial (withVars K ext) pos order P hw hT.acyclic hT.hygienic hT.apart hT.arityVars hT.arityFns f hpl hr ha har
  rw [h2 b hb, h2 b' hb']

end
end Verif.Loader
