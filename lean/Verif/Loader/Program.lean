import Verif.Loader.Linked
/-
Programs of several modules: what a module sees, and what loading gives the main module.
-/
namespace Verif.Loader
open Verif.Ast

/-! ## Specification -/

/-- The text of a name. -/
def nameText : Name → Text
  | .v x => x
  | .f g => g

/-- The names that a module sees: those it defines, and those that a module it uses sees and exports. -/
inductive Sees (fetch : MPath → Except LoadError Mod) : Mod → Name → Prop
  | own {m n} : Defined m.scope n → Sees fetch m n
  | used {m n q m'} : q ∈ m.required → fetch q = .ok m' → nameText n ∈ m'.scope.exports → Sees fetch m' n → Sees fetch m n

/-- The module is the main module or one that it uses, directly or not. -/
def InProgram (fetch : MPath → Except LoadError Mod) (main m : Mod) : Prop := m = main ∨ ∃ p, Reach fetch main p ∧ fetch p = .ok m

/-- `K` has the definitions of all modules; no name has different definitions in two of them. -/
structure IsUnion (fetch : MPath → Except LoadError Mod) (main : Mod) (K : Scope) : Prop where
  vars : ∀ x d, K.variables x = some d ↔ ∃ m, InProgram fetch main m ∧ m.scope.variables x = some d
  fns : ∀ g d, K.functions g = some d ↔ ∃ m, InProgram fetch main m ∧ m.scope.functions g = some d

/-- The name is a parameter of a function. -/
def IsParam (K : Scope) (p : Text) : Prop := ∃ g nm ps body, K.functions g = some (.fn nm ps body) ∧ p ∈ ps

/-- The modules can be read from their sources, and do not use each other in a circle. -/
structure Loadable (fetch : MPath → Except LoadError Mod) (mainPath : MPath) (main : Mod) : Prop where
  fresh : ∀ p, Reach fetch main p → ∃ m, fetch p = .ok m ∧ m.dirty = false ∧ m.needsEval = true
  finite : ∃ modules : List MPath, ∀ p, Reach fetch main p → p ∈ modules
  once : main.required.Nodup
  acyclic : ∃ rank : MPath → Nat, (∀ q ∈ main.required, rank q < rank mainPath) ∧
    ∀ p m, Reach fetch main p → fetch p = .ok m → ∀ q ∈ m.required, rank q < rank p

/-- What the definitions of module `m` use is seen by `m`, if it is defined in `K` at all; so are the functions called by the functions that `m` sees. -/
structure Covered (fetch : MPath → Except LoadError Mod) (K : Scope) (m : Mod) : Prop where
  vars : ∀ x a, m.scope.variables x = some (.var x a) → ∀ n, Uses a n → Defined K n → Sees fetch m n
  fns : ∀ g nm ps body, m.scope.functions g = some (.fn nm ps body) → ∀ n, Uses body n → (∀ p ∈ ps, n ≠ .v p) → Defined K n → Sees fetch m n
  calls : ∀ g nm ps body, Sees fetch m (.f g) → K.functions g = some (.fn nm ps body) → ∀ h ∈ callNames body, Defined K (.f h) → Sees fetch m (.f h)

/-- The definitions that evaluating the module `q` can give when modules are read with `src`: its own definitions, together with evaluated definitions
of the modules that it uses, are evaluated; this may be done again with what it gave. -/
inductive Result (src : MPath → Except LoadError Mod) : MPath → Scope → Prop
  | first {q m sc S} {scopes : List (MPath × Scope)} (R : MPath → Scope) : src q = .ok m → (∀ r ∈ m.required, scopes.lookup r = some (R r)) →
      (∀ r ∈ m.required, Result src r (R r)) → mergeReqs scopes m.scope m.required.reverse = some sc → EvalScope sc (.ok S) → Result src q S
  | again {q m own sc S} {scopes : List (MPath × Scope)} (R : MPath → Scope) : src q = .ok m → Result src q own →
      (∀ r ∈ m.required, scopes.lookup r = some (R r)) →
      (∀ r ∈ m.required, Result src r (R r)) → mergeReqs scopes own m.required.reverse = some sc → EvalScope sc (.ok S) → Result src q S

/-- Reading the module `p` with `load` gives the module `m`, not changed, or evaluated before. -/
def Reads (src load : MPath → Except LoadError Mod) (p : MPath) (m : Mod) : Prop :=
  ∃ m', load p = .ok m' ∧ m'.required = m.required ∧ m'.dirty = false ∧ m'.needsEval = true ∧ (m'.scope = m.scope ∨ Result src p m'.scope)

/-! ## Proofs -/

section
variable {fetch : MPath → Except LoadError Mod} {mainPath : MPath} {main : Mod} {K L : Scope} {pos : Option Addr} {P : Text → Prop} {order : List Name}

/-- The evaluated definitions of module `m`. -/
structure Ready (fetch : MPath → Except LoadError Mod) (K : Scope) (pos : Option Addr) (P : Text → Prop) (m : Mod) (S : Scope) : Prop where
  evald : Evald K S pos P
  sees : ∀ n, Defined S n ↔ Sees fetch m n
  exports : S.exports = m.scope.exports

/-- The definitions of module `m` are those of `K`. -/
structure Own (K : Scope) (pos : Option Addr) (m : Mod) : Prop where
  vars : ∀ x d, m.scope.variables x = some d → K.variables x = some d ∧ ∃ a, d = .var x a
  fns : ∀ g d, m.scope.functions g = some d → K.functions g = some d ∧ ∃ nm ps body, d = .fn nm ps body

theorem isSome_findVar {ds : List Scope} {k : Text} : (ds.findSome? (offersVar k)).isSome ↔ ∃ d ∈ ds, k ∈ d.exports ∧ (d.variables k).isSome := by
  rw [List.findSome?_isSome_iff]
  constructor
  · rintro ⟨d, hd, h⟩
    refine ⟨d, hd, ?_⟩
    simp only [offersVar] at h
    split at h
    · exact ⟨by assumption, h⟩
    · cases h
  · rintro ⟨d, hd, h1, h2⟩
    exact ⟨d, hd, by simp only [offersVar, h1, if_true]; exact h2⟩

theorem isSome_findFn {ds : List Scope} {k : Text} : (ds.findSome? (offersFn k)).isSome ↔ ∃ d ∈ ds, k ∈ d.exports ∧ (d.functions k).isSome := by
  rw [List.findSome?_isSome_iff]
  constructor
  · rintro ⟨d, hd, h⟩
    refine ⟨d, hd, ?_⟩
    simp only [offersFn] at h
    split at h
    · exact ⟨by assumption, h⟩
    · cases h
  · rintro ⟨d, hd, h1, h2⟩
    exact ⟨d, hd, by simp only [offersFn, h1, if_true]; exact h2⟩

theorem findVar_mem {ds : List Scope} {k : Text} {a : Ast} (h : ds.findSome? (offersVar k) = some a) : ∃ d ∈ ds, d.variables k = some a := by
  obtain ⟨d, hd, h⟩ := List.exists_of_findSome?_eq_some h
  simp only [offersVar] at h
  split at h
  · exact ⟨d, hd, h⟩
  · cases h

theorem findFn_mem {ds : List Scope} {k : Text} {a : Ast} (h : ds.findSome? (offersFn k) = some a) : ∃ d ∈ ds, d.functions k = some a := by
  obtain ⟨d, hd, h⟩ := List.exists_of_findSome?_eq_some h
  simp only [offersFn] at h
  split at h
  · exact ⟨d, hd, h⟩
  · cases h

/-- What a module sees after merging. -/
theorem merge_sees {m : Mod} {own : Scope} {ds : List Scope} (hown : own = m.scope ∨ Ready fetch K pos P m own)
    (hv : ∀ k, L.variables k = (own.variables k).or (ds.findSome? (offersVar k)))
    (hf : ∀ k, L.functions k = (own.functions k).or (ds.findSome? (offersFn k)))
    (h1 : ∀ d ∈ ds, ∃ q ∈ m.required, ∃ m', fetch q = .ok m' ∧ Ready fetch K pos P m' d)
    (h2 : ∀ q ∈ m.required, ∃ d ∈ ds, ∃ m', fetch q = .ok m' ∧ Ready fetch K pos P m' d) (n : Name) : Defined L n ↔ Sees fetch m n := by
  have key : Defined L n ↔ Defined own n ∨ ∃ d ∈ ds, nameText n ∈ d.exports ∧ Defined d n := by
    cases n with
    | v x => simp only [Defined, hv, Option.isSome_or, Bool.or_eq_true, isSome_findVar, nameText]
    | f x => simp only [Defined, hf, Option.isSome_or, Bool.or_eq_true, isSome_findFn, nameText]
  rw [key]
  constructor
  · rintro (h | ⟨d, hd, he, hn⟩)
    · rcases hown with rfl | hr
      · exact .own h
      · exact (hr.sees n).mp h
    · obtain ⟨q, hq, m', e1, e2⟩ := h1 d hd
      exact .used hq e1 (by rw [← e2.exports]; exact he) ((e2.sees n).mp hn)
  · intro h
    rcases hown with rfl | hr
    on_goal 2 => exact .inl ((hr.sees n).mpr h)
    cases h with
    | own h => exact .inl h
    | used hq hfq he hs =>
      obtain ⟨d, hd, m', e1, e2⟩ := h2 _ hq
      rw [hfq] at e1; cases e1
      exact .inr ⟨d, hd, by rw [e2.exports]; exact he, (e2.sees n).mpr hs⟩

/-- Merging keeps to the definitions of the program. -/
theorem merge_linked {own : Scope} {ds : List Scope} {ext : Text → Option Ast} (hw : Wf K pos) (hT : Tidy K pos order P)
    (hv : ∀ k, L.variables k = ((own.variables k).or (ds.findSome? (offersVar k))).or (ext k))
    (hf : ∀ k, L.functions k = (own.functions k).or (ds.findSome? (offersFn k)))
    (hown : Evald K own pos P ∨
      (∀ x d, own.variables x = some d → K.variables x = some d ∧ ∃ a, resolve pos d = some a ∧ ∀ m, Uses a m → Defined K m → Defined L m) ∧
      ∀ g d, own.functions g = some d → K.functions g = some d ∧
        ∃ nm ps body, d = .fn nm ps body ∧ ∀ m, Uses body m → (∀ p ∈ ps, m ≠ .v p) → Defined K m → Defined L m)
    (hds : ∀ d ∈ ds, Evald K d pos P)
    (hcalls : ∀ g nm ps body, Defined L (.f g) → K.functions g = some (.fn nm ps body) → ∀ h ∈ callNames body, Defined K (.f h) → Defined L (.f h))
    (hext : ∀ x d, (own.variables x).or (ds.findSome? (offersVar x)) = none → ext x = some d →
      K.variables x = some d ∧ ∃ a, resolve pos d = some a ∧ ∀ m, Uses a m → Defined K m → Defined L m) : Linked K L pos P where
  vars := by
    have hdone : ∀ S x d', Evald K S pos P → S.variables x = some d' → ∃ d a a', K.variables x = some d ∧ resolve pos d = some a ∧
        resolve pos d' = some a' ∧ Part K pos P a a' ∧ ∀ m, Uses a' m → Defined K m → Defined L m := by
      intro S x d' hS hx
      obtain ⟨-, d, a, v, e1, e2, e3, e4⟩ := hS.vars x d' hx
      rw [hx] at e3; cases e3
      obtain ⟨_, e5, hpl⟩ := hw.vars x d e1
      rw [e2] at e5; cases e5
      exact ⟨d, a, v, e1, e2, rfl, .done (hT.hygienic.vars x d a e1 e2) hpl e4, fun m hu hK => absurd hu (means_free e4 m hK)⟩
    intro x d' hx
    rw [hv, Option.or_eq_some_iff, Option.or_eq_some_iff] at hx
    rcases hx with (hx | ⟨-, hx⟩) | ⟨hn, hx⟩
    · rcases hown with hS | ⟨hown, -⟩
      · exact hdone own x d' hS hx
      · obtain ⟨e1, a, e2, e3⟩ := hown x d' hx
        exact ⟨d', a, a, e1, e2, e2, .same, e3⟩
    · obtain ⟨S, hS, hx⟩ := findVar_mem hx
      exact hdone S x d' (hds S hS) hx
    · obtain ⟨e1, a, e2, e3⟩ := hext x d' hn hx
      exact ⟨d', a, a, e1, e2, e2, .same, e3⟩
  fns := by
    intro g d' hg
    have hg' := hg
    have hdone : ∀ S, Evald K S pos P → S.functions g = some d' → ∃ nm ps body body', K.functions g = some (.fn nm ps body) ∧ d' = .fn nm ps body' ∧
        Part K pos P body body' ∧ ∀ m, Uses body' m → (∀ p ∈ ps, m ≠ .v p) → Defined K m → Defined L m := by
      intro S hS hg
      obtain ⟨nm, ps, body, body', e1, rfl, e3, e4⟩ := hS.fns g d' hg
      refine ⟨nm, ps, body, body', e1, rfl, e3, fun m hu hp hK => ?_⟩
      cases m with
      | v x =>
        have := e4 x hu (fun hx => hp x hx rfl)
        simp [Defined, this] at hK
      | f h =>
        rcases e3.uses hu with hu' | hu'
        · exact hcalls g nm ps body (by simp [Defined, hg']) e1 h hu' hK
        · exact absurd hK hu'
    rw [hf, Option.or_eq_some_iff] at hg
    rcases hg with hg | ⟨-, hg⟩
    · rcases hown with hS | ⟨-, hfn⟩
      · exact hdone own hS hg
      · obtain ⟨e1, nm, ps, body, rfl, e3⟩ := hfn g d' hg
        exact ⟨nm, ps, body, body, e1, rfl, .same, e3⟩
    · obtain ⟨S, hS, hg⟩ := findFn_mem hg
      exact hdone S (hds S hS) hg

/-- One module is evaluated. -/
theorem module_step (hw : Wf K pos) (hT : Tidy K pos order P) {m : Mod} (ho : Own K pos m) (hc : Covered fetch K m)
    (hp : ∀ x d, m.scope.variables x = some d → ¬ P x) {own : Scope} (hown : own = m.scope ∨ Ready fetch K pos P m own) {scopes : List (MPath × Scope)}
    (hs : ∀ q ∈ m.required, ∃ m' S, fetch q = .ok m' ∧ scopes.lookup q = some S ∧ Ready fetch K pos P m' S) :
    ∃ sc, mergeReqs scopes own m.required.reverse = some sc ∧ (∃ S, EvalScope sc (.ok S)) ∧
      ∀ o, EvalScope sc o → ∃ S, o = .ok S ∧ Ready fetch K pos P m S := by
  cases hm : mergeReqs scopes own m.required.reverse with
  | none =>
    obtain ⟨p, hp, hl⟩ := mergeReqs_none.mp hm
    obtain ⟨_, S, _, h, _⟩ := hs p (List.mem_reverse.mp hp)
    rw [hl] at h; cases h
  | some sc =>
    obtain ⟨ds, d1, d2, d3, d4⟩ := mergeReqs_spec hm
    have h1 : ∀ d ∈ ds, ∃ q ∈ m.required, ∃ m', fetch q = .ok m' ∧ Ready fetch K pos P m' d := by
      intro d hd
      have : some d ∈ m.required.reverse.map (scopes.lookup ·) := by rw [d1]; exact List.mem_map.mpr ⟨d, hd, rfl⟩
      obtain ⟨q, hq, hq'⟩ := List.mem_map.mp this
      rw [List.mem_reverse] at hq
      obtain ⟨m', S, e1, e2, e3⟩ := hs q hq
      rw [hq'] at e2; cases e2
      exact ⟨q, hq, m', e1, e3⟩
    have h2 : ∀ q ∈ m.required, ∃ d ∈ ds, ∃ m', fetch q = .ok m' ∧ Ready fetch K pos P m' d := by
      intro q hq
      obtain ⟨m', S, e1, e2, e3⟩ := hs q hq
      have : scopes.lookup q ∈ ds.map some := by rw [← d1]; exact List.mem_map.mpr ⟨q, List.mem_reverse.mpr hq, rfl⟩
      obtain ⟨d, hd, hd'⟩ := List.mem_map.mp this
      rw [e2] at hd'; cases hd'
      exact ⟨_, hd, m', e1, e3⟩
    have hsees := fun n => merge_sees hown d3 d4 h1 h2 n
    have hds : ∀ d ∈ ds, Evald K d pos P := fun d hd => by
      obtain ⟨_, _, _, _, h⟩ := h1 d hd; exact h.evald
    have hL : LibScope K sc pos P := by
      refine ⟨merge_linked (ds := ds) (ext := fun _ => none) hw hT (fun k => by rw [d3, Option.or_none]) d4 (hown.elim (fun e => .inr (e ▸ ⟨fun x d hx => ?_, fun g d hg => ?_⟩)) (fun h => .inl h.evald)) hds
        (fun g nm ps body hg hK h hh hKh => (hsees _).mpr (hc.calls g nm ps body ((hsees _).mp hg) hK h hh hKh)) (fun x d _ h => by cases h), ?_, ?_⟩
      · obtain ⟨e1, a, rfl⟩ := ho.vars x d hx
        exact ⟨e1, a, rfl, fun n hu hK => (hsees n).mpr (hc.vars x a hx n hu hK)⟩
      · obtain ⟨e1, nm, ps, body, rfl⟩ := ho.fns g d hg
        exact ⟨e1, nm, ps, body, rfl, fun n hu hp hK => (hsees n).mpr (hc.fns g nm ps body hg n hu hp hK)⟩
      · intro x d hx
        rw [d3, Option.or_eq_some_iff] at hx
        rcases hx with hx | ⟨-, hx⟩
        · rcases hown with rfl | hr
          · exact (ho.vars x d hx).2
          · obtain ⟨-, _, _, v, _, _, e3, _⟩ := hr.evald.vars x d hx
            rw [hx] at e3; cases e3; exact ⟨v, rfl⟩
        · obtain ⟨S, hS, hx⟩ := findVar_mem hx
          obtain ⟨-, _, _, v, _, _, e3, _⟩ := (hds S hS).vars x d hx
          rw [hx] at e3; cases e3; exact ⟨v, rfl⟩
      · intro x d hx
        rw [d3, Option.or_eq_some_iff] at hx
        rcases hx with hx | ⟨-, hx⟩
        · rcases hown with rfl | hr
          · exact hp x d hx
          · exact (hr.evald.vars x d hx).1
        · obtain ⟨S, hS, hx⟩ := findVar_mem hx
          exact ((hds S hS).vars x d hx).1
    obtain ⟨e1, e2⟩ := lib_eval hw hT hL
    refine ⟨sc, rfl, e1, fun o ho => ?_⟩
    obtain ⟨S, rfl, s1, s2, s3⟩ := e2 o ho
    exact ⟨S, rfl, s1, fun n => by rw [s2, hsees], by rw [s3, d2]; exact hown.elim (fun e => by rw [e]) (fun h => h.exports)⟩

/-- Evaluated definitions are as they should be. -/
theorem result_ready (hw : Wf K pos) (hT : Tidy K pos order P)
    (hlib : ∀ p m, Reach fetch main p → fetch p = .ok m → Own K pos m ∧ Covered fetch K m ∧ ∀ x d, m.scope.variables x = some d → ¬ P x)
    {q : MPath} {S : Scope} (h : Result fetch q S) :
    Reach fetch main q → ∃ m, fetch q = .ok m ∧ Ready fetch K pos P m S := by
  induction h with
  | @first q m sc S scopes R h1 h2 h3 h4 h5 ih =>
    intro hr
    obtain ⟨ho, hc, hP⟩ := hlib q m hr h1
    obtain ⟨sc', e1, -, e2⟩ := module_step hw hT ho hc hP (own := m.scope) (.inl rfl) (scopes := scopes) fun r hr' => by
      obtain ⟨m', f1, f2⟩ := ih r hr' (.indirect hr h1 hr')
      exact ⟨m', R r, f1, h2 r hr', f2⟩
    rw [h4] at e1; cases e1
    obtain ⟨S', e, hR⟩ := e2 _ h5
    cases e
    exact ⟨m, h1, hR⟩
  | @again q m own sc S scopes R h1 _ h2 h3 h4 h5 iho ih =>
    intro hr
    obtain ⟨ho, hc, hP⟩ := hlib q m hr h1
    obtain ⟨m', e0, hro⟩ := iho hr
    rw [h1] at e0; cases e0
    obtain ⟨sc', e1, -, e2⟩ := module_step hw hT ho hc hP (own := own) (.inr hro) (scopes := scopes) fun r hr' => by
      obtain ⟨m', f1, f2⟩ := ih r hr' (.indirect hr h1 hr')
      exact ⟨m', R r, f1, h2 r hr', f2⟩
    rw [h4] at e1; cases e1
    obtain ⟨S', e, hR⟩ := e2 _ h5
    cases e
    exact ⟨m, h1, hR⟩

/-- All modules are evaluated. -/
theorem deps_linked (hw : Wf K pos) (hT : Tidy K pos order P) (ord : List MPath)
    {loaded : List (MPath × Mod)} {scopes : List (MPath × Scope)}
    (hs : ∀ q, scopes.lookup q = (loaded.lookup q).map (·.scope)) (hn : ord.Nodup)
    (hb : ∀ l1 p l2, ord = l1 ++ p :: l2 → ∀ m, loaded.lookup p = some m → ∀ q ∈ m.required, q ∉ p :: l2)
    (hsrc : ∀ p ∈ ord, ∀ m', loaded.lookup p = some m' → ∃ m, fetch p = .ok m ∧ m'.required = m.required ∧ m'.needsEval = true ∧
      (m'.scope = m.scope ∨ Ready fetch K pos P m m'.scope) ∧ Own K pos m ∧ Covered fetch K m ∧ ∀ x d, m.scope.variables x = some d → ¬ P x)
    (hdone : ∀ q, q ∉ ord → ∀ m', loaded.lookup q = some m' → ∃ m, fetch q = .ok m ∧ Ready fetch K pos P m m'.scope)
    (hreq : ∀ p ∈ ord, ∀ m, loaded.lookup p = some m → ∀ q ∈ m.required, (loaded.lookup q).isSome) :
    (∃ loaded', EvalDeps ord loaded scopes (.ok loaded')) ∧ ∀ o, EvalDeps ord loaded scopes o → ∃ loaded', o = .ok loaded' ∧
      (∀ q, (loaded'.lookup q).isSome ↔ (loaded.lookup q).isSome) ∧
      ∀ q m', loaded'.lookup q = some m' → ∃ m, fetch q = .ok m ∧ Ready fetch K pos P m m'.scope := by
  induction ord generalizing loaded scopes with
  | nil =>
    refine ⟨⟨loaded, .nil⟩, fun o h => ?_⟩
    cases h
    exact ⟨loaded, rfl, fun _ => Iff.rfl, fun q m' h => hdone q (by simp) m' h⟩
  | cons p ps ih =>
    rw [List.nodup_cons] at hn
    cases hl : loaded.lookup p with
    | none =>
      obtain ⟨⟨l', h1⟩, h2⟩ := ih (loaded := loaded) (scopes := scopes) hs hn.2 (fun l1 q l2 e => hb (p :: l1) q l2 (by rw [e]; rfl))
        (fun q hq => hsrc q (List.mem_cons_of_mem _ hq))
        (fun q hq m' hm => by
          by_cases hqp : q = p
          · subst hqp; rw [hl] at hm; cases hm
          · exact hdone q (by simp only [List.mem_cons, not_or]; exact ⟨hqp, hq⟩) m' hm)
        (fun q hq => hreq q (List.mem_cons_of_mem _ hq))
      refine ⟨⟨l', .skip hl h1⟩, fun o h => ?_⟩
      cases h with
      | skip _ h => exact h2 o h
      | evaled h => rw [hl] at h; cases h
      | missing h => rw [hl] at h; cases h
      | err h => rw [hl] at h; cases h
      | panic h => rw [hl] at h; cases h
      | eval h => rw [hl] at h; cases h
    | some m =>
      obtain ⟨m₀, hfp, hrq, hne, hown, ho, hc, hP⟩ := hsrc p (by simp) m hl
      obtain ⟨sc, hmr, ⟨S, hS⟩, hall⟩ := module_step hw hT ho hc hP hown (scopes := scopes) fun q hq => by
        rw [← hrq] at hq
        obtain ⟨m', hm'⟩ := Option.isSome_iff_exists.mp (hreq p (by simp) m hl q hq)
        obtain ⟨m'', e1, e2⟩ := hdone q (hb [] p ps rfl m hl q hq) m' hm'
        exact ⟨m'', m'.scope, e1, by rw [hs, hm']; rfl, e2⟩
      rw [← hrq] at hmr
      have hls := fun (S : Scope) q => lookup_setScope loaded p q S
      have hneq : ∀ S q, q ≠ p → (setScope loaded p S).lookup q = loaded.lookup q := by
        intro S q hq
        rw [hls]; simp [hq]
      have hp' : ∀ S, (setScope loaded p S).lookup p = some { m with scope := S } := by intro S; rw [hls, hl]; simp
      have hsome : ∀ S q, ((setScope loaded p S).lookup q).isSome ↔ (loaded.lookup q).isSome := by
        intro S q
        by_cases hq : q = p
        · subst hq; rw [hp', hl]; simp
        · rw [hneq S q hq]
      have next : ∀ S, Ready fetch K pos P m₀ S → _ := fun S hR => ih (loaded := setScope loaded p S) (scopes := (p, S) :: scopes) (by
          intro q
          rw [List.lookup_cons]
          by_cases hq : q = p
          · subst hq; rw [hp']; simp
          · have : (q == p) = false := by simp [hq]
            rw [this, hneq S q hq]; exact hs q) hn.2 (by
          intro l1 q l2 e m' hm' r hr
          have hqp : q ≠ p := by
            rintro rfl
            exact hn.1 (by rw [e]; simp)
          rw [hneq S q hqp] at hm'
          exact hb (p :: l1) q l2 (by rw [e]; rfl) m' hm' r hr) (by
          intro q hq m' hm'
          have hqp : q ≠ p := fun e => hn.1 (e ▸ hq)
          rw [hneq S q hqp] at hm'
          exact hsrc q (List.mem_cons_of_mem _ hq) m' hm') (by
          intro q hq m' hm'
          by_cases hqp : q = p
          · subst hqp
            rw [hp'] at hm'; cases hm'
            exact ⟨m₀, hfp, hR⟩
          · rw [hneq S q hqp] at hm'
            exact hdone q (by simp only [List.mem_cons, not_or]; exact ⟨hqp, hq⟩) m' hm') (by
          intro q hq m' hm' r hr
          have hqp : q ≠ p := fun e => hn.1 (e ▸ hq)
          rw [hneq S q hqp] at hm'
          rw [hsome]
          exact hreq q (List.mem_cons_of_mem _ hq) m' hm' r hr)
      constructor
      · obtain ⟨S', e, hR⟩ := hall _ hS
        cases e
        obtain ⟨⟨l', h1⟩, -⟩ := next S hR
        exact ⟨l', .eval hl hne hmr hS h1⟩
      · intro o h
        cases h with
        | skip h => rw [hl] at h; cases h
        | evaled h h' => rw [hl] at h; cases h; rw [hne] at h'; cases h'
        | missing h _ h' => rw [hl] at h; cases h; rw [hmr] at h'; cases h'
        | err h _ h' h'' =>
          rw [hl] at h; cases h; rw [hmr] at h'; cases h'
          obtain ⟨_, e, _⟩ := hall _ h''; cases e
        | panic h _ h' h'' =>
          rw [hl] at h; cases h; rw [hmr] at h'; cases h'
          obtain ⟨_, e, _⟩ := hall _ h''; cases e
        | eval h _ h' h'' hrest =>
          rw [hl] at h; cases h; rw [hmr] at h'; cases h'
          obtain ⟨S', e, hR⟩ := hall _ h''
          cases e
          obtain ⟨-, hn'⟩ := next _ hR
          obtain ⟨l', e1, e2, e3⟩ := hn' o hrest
          exact ⟨l', e1, fun q => by rw [e2, hsome], e3⟩

/-- There is an order in which modules come after those they use. -/
theorem tarjan_exists {g : Graph} (rank : MPath → Nat)
    (h : ∀ i j, (i, j) ∈ g.edges → ∃ p q, g.nodes[i]? = some p ∧ g.nodes[j]? = some q ∧ rank q < rank p) : ∃ order, Tarjan g order := by
  let r : Nat → Nat := fun i => match g.nodes[i]? with | some p => rank p | none => 0
  let le : Nat → Nat → Bool := fun i j => decide (r i ≤ r j)
  have hperm : ((List.range g.nodes.length).mergeSort le).Perm (List.range g.nodes.length) := List.mergeSort_perm _ _
  have hsorted : ((List.range g.nodes.length).mergeSort le).Pairwise (fun a b => le a b = true) :=
    List.pairwise_mergeSort (fun a b c h1 h2 => by simp only [le, decide_eq_true_eq] at *; omega) (fun a b => by simp only [le, Bool.or_eq_true, decide_eq_true_eq]; omega) _
  refine ⟨(List.range g.nodes.length).mergeSort le, hperm, fun i j hij _ hne => ?_⟩
  obtain ⟨p, q, h1, h2, h3⟩ := h i j hij
  have hi : i ∈ (List.range g.nodes.length).mergeSort le := hperm.mem_iff.mpr (List.mem_range.mpr (List.getElem?_eq_some_iff.mp h1).1)
  have hj : j ∈ (List.range g.nodes.length).mergeSort le := hperm.mem_iff.mpr (List.mem_range.mpr (List.getElem?_eq_some_iff.mp h2).1)
  generalize (List.range g.nodes.length).mergeSort le = l at hi hj hsorted
  rcases Nat.lt_trichotomy (l.idxOf j) (l.idxOf i) with h | h | h
  · exact h
  · exfalso
    have e1 := List.getElem_idxOf (List.idxOf_lt_length_iff.mpr hi)
    have e2 := List.getElem_idxOf (List.idxOf_lt_length_iff.mpr hj)
    refine hne ?_
    rw [← e1, ← e2]
    congr 1
    exact h.symm
  · exfalso
    have := List.pairwise_iff_getElem.mp hsorted (l.idxOf i) (l.idxOf j) (List.idxOf_lt_length_iff.mpr hi) (List.idxOf_lt_length_iff.mpr hj) h
    rw [List.getElem_idxOf, List.getElem_idxOf] at this
    have h4 : r i = rank p := by simp only [r, h1]
    have h5 : r j = rank q := by simp only [r, h2]
    simp only [le, decide_eq_true_eq, h4, h5] at this
    omega

/-- What is reached does not depend on how the modules are read. -/
theorem reach_load {load : MPath → Except LoadError Mod} (hg : ∀ p m, Reach fetch main p → fetch p = .ok m → Reads fetch load p m)
    (hall : ∀ p, Reach fetch main p → ∃ m, fetch p = .ok m) (p : MPath) : Reach load main p ↔ Reach fetch main p := by
  constructor
  · intro h
    induction h with
    | direct h => exact .direct h
    | @indirect p q m' _ h2 h3 ih =>
      obtain ⟨m, hm⟩ := hall q ih
      obtain ⟨m'', e1, e2, -⟩ := hg q m ih hm
      rw [h2] at e1; cases e1
      exact .indirect ih hm (e2 ▸ h3)
  · intro h
    induction h with
    | direct h => exact .direct h
    | @indirect p q m h1 h2 h3 ih =>
      obtain ⟨m'', e1, e2, -⟩ := hg q m h1 h2
      exact .indirect ih e1 (e2 ▸ h3)

/-- What loading gives the main module. -/
theorem load_linked {load : MPath → Except LoadError Mod} (hl : Loadable fetch mainPath main)
    (hg : ∀ p m, Reach fetch main p → fetch p = .ok m → Reads fetch load p m) (hw : Wf K pos) (hT : Tidy K pos order P)
    (hlib : ∀ p m, Reach fetch main p → fetch p = .ok m → Own K pos m ∧ Covered fetch K m ∧ ∀ x d, m.scope.variables x = some d → ¬ P x) :
    (∃ o, LoadMain load mainPath main o) ∧ ∀ o, LoadMain load mainPath main o → ∃ (sc : Scope) (ds : List Scope), o = .ok sc ∧ (∀ d ∈ ds, Evald K d pos P) ∧
      (∀ k, sc.variables k = (main.scope.variables k).or (ds.findSome? (offersVar k))) ∧
      (∀ k, sc.functions k = (main.scope.functions k).or (ds.findSome? (offersFn k))) ∧ ∀ n, Defined sc n ↔ Sees fetch main n := by
  obtain ⟨rank, hr1, hr2⟩ := hl.acyclic
  have hsome : ∀ p, Reach fetch main p → ∃ m, fetch p = .ok m := fun p hp => by
    obtain ⟨m, h, -⟩ := hl.fresh p hp; exact ⟨m, h⟩
  have hreach := reach_load hg hsome
  have hread : ∀ p, Reach fetch main p → ∃ m, fetch p = .ok m ∧ Reads fetch load p m := fun p hp => by
    obtain ⟨m, h⟩ := hsome p hp; exact ⟨m, h, hg p m hp h⟩
  have main_facts : ∀ n s, Steps load (init main) n s → Finished s → ∀ it : List (MPath × Mod), it.Perm s.loaded →
      (∀ p, ¬ Marked (dependencyGraph mainPath main.required it) it p) ∧
      (∃ ord, Tarjan (dependencyGraph mainPath main.required it) ord) ∧ s.failed = [] ∧
      ∀ ord, Tarjan (dependencyGraph mainPath main.required it) ord →
        (∃ loaded', EvalDeps (ord.filterMap ((dependencyGraph mainPath main.required it).nodes[·]?)) it (it.map fun e => (e.1, e.2.scope)) (.ok loaded')) ∧
        ∀ o, EvalDeps (ord.filterMap ((dependencyGraph mainPath main.required it).nodes[·]?)) it (it.map fun e => (e.1, e.2.scope)) o →
          ∃ loaded', o = .ok loaded' ∧ (∀ q, (loaded'.lookup q).isSome ↔ (it.lookup q).isSome) ∧
          ∀ q m', loaded'.lookup q = some m' → ∃ m, fetch q = .ok m ∧ Ready fetch K pos P m m'.scope := by
    intro n s h1 h2 it hp
    have hkeys : (it.map (·.1)).Nodup := (hp.map (·.1)).nodup_iff.mpr (C32_once load main n s h1).2.2.1
    have hlook : ∀ p m', it.lookup p = some m' → ∃ m, Reach fetch main p ∧ fetch p = .ok m ∧ m'.required = m.required ∧ m'.dirty = false ∧
        m'.needsEval = true ∧ (m'.scope = m.scope ∨ Result fetch p m'.scope) := by
      intro p m' h
      obtain ⟨e1, e2⟩ := (loaded_lookup h1 h2 hp p m').mp h
      rw [hreach] at e1
      obtain ⟨m, e3, m'', e4, e5⟩ := hread p e1
      rw [e2] at e4; cases e4
      exact ⟨m, e1, e3, e5⟩
    have hneeds : ∀ p q, Needs mainPath main.required it p q → rank q < rank p := by
      rintro p q (⟨rfl, hq⟩ | ⟨m, hm, hq⟩)
      · exact hr1 q hq
      · obtain ⟨m₀, e1, e2, e3, -⟩ := hlook p m ((lookup_of_mem hkeys).mpr hm)
        exact hr2 p m₀ e1 e2 q (e3 ▸ hq)
    have hac : ∀ p, ¬ Relation.TransGen (Needs mainPath main.required it) p p := by
      intro p h
      have : ∀ q, Relation.TransGen (Needs mainPath main.required it) p q → rank q < rank p := by
        intro q h
        induction h with
        | single h => exact hneeds _ _ h
        | tail _ h ih => exact Nat.lt_trans (hneeds _ _ h) ih
      exact Nat.lt_irrefl _ (this p h)
    have hmain : mainPath ∉ main.required := fun h => Nat.lt_irrefl _ (hr1 _ h)
    obtain ⟨g1, g2, g3, g4, g5⟩ := graph_spec mainPath main.required it hl.once hmain
    refine ⟨?_, ?_, ?_, fun ord ht => ?_⟩
    · rintro p ⟨_, q, m, _, _, _, hq, hd, _⟩
      obtain ⟨_, _, _, _, e4, -⟩ := hlook q m hq
      rw [e4] at hd; cases hd
    · refine tarjan_exists rank fun i j hij => ?_
      obtain ⟨p, q, e1, e2, e3⟩ := (g3 i j).mp hij
      exact ⟨p, q, e1, e2, hneeds p q e3⟩
    · refine List.eq_nil_iff_forall_not_mem.mpr fun ⟨p, e⟩ he => ?_
      obtain ⟨e1, e2⟩ := ((C33_result load main n s h1 h2).2 p e).mp he
      obtain ⟨_, _, m, e3, -⟩ := hread p ((hreach p).mp e1)
      rw [e2] at e3; cases e3
    · obtain ⟨t1, t2, t3⟩ := tarjan_before mainPath main.required it ord hkeys hl.once hac ht
      refine deps_linked (fetch := fetch) hw hT _ (lookup_scopes it) t1 t2 (fun p _ m hm => ?_) (fun q hq m' hm' => ?_) (fun p _ m hm q hq => ?_)
      · obtain ⟨m₀, e1, e2, e3, -, e4, e5⟩ := hlook p m hm
        refine ⟨m₀, e2, e3, e4, e5.imp id fun h => ?_, hlib p m₀ e1 e2⟩
        obtain ⟨_, e6, e7⟩ := result_ready hw hT hlib h e1
        rw [e2] at e6; cases e6
        exact e7
      · exact absurd (t3 q m' ((lookup_of_mem hkeys).mp hm')) hq
      · obtain ⟨m₀, e1, e2, e3, -⟩ := hlook p m hm
        have hq' := Reach.indirect e1 e2 (e3 ▸ hq)
        obtain ⟨_, _, m', e4, -⟩ := hread q hq'
        rw [(loaded_lookup h1 h2 hp q m').mpr ⟨(hreach q).mpr hq', e4⟩]; rfl
  have hreq : ∀ n s, Steps load (init main) n s → Finished s → ∀ it : List (MPath × Mod), it.Perm s.loaded → ∀ q ∈ main.required, (it.lookup q).isSome := by
    intro n s h1 h2 it hp q hq
    obtain ⟨_, _, m', e3, -⟩ := hread q (.direct hq)
    rw [(loaded_lookup h1 h2 hp q m').mpr ⟨.direct hq, e3⟩]; rfl
  have hmerge : ∀ loaded' : List (MPath × Mod), (∀ q ∈ main.required, (loaded'.lookup q).isSome) → ∃ sc, mergeDirect main.scope loaded' main.required = some sc :=
    fun loaded' h => mergeDirect_some_iff.mpr ⟨hl.once, fun p hp => Option.isSome_iff_exists.mp (h p hp)⟩
  constructor
  · obtain ⟨modules, hfin⟩ := hl.finite
    obtain ⟨k, s, h1, h2⟩ := C33_ends load main modules (fun p hp => hfin p ((hreach p).mp hp)) 0 _ .refl
    obtain ⟨f1, ⟨ord, f2⟩, f3, f4⟩ := main_facts _ s h1 h2 s.loaded (List.Perm.refl _)
    obtain ⟨⟨loaded', f5⟩, f6⟩ := f4 ord f2
    obtain ⟨_, e, f7, -⟩ := f6 _ f5
    cases e
    obtain ⟨sc, hsc⟩ := hmerge loaded' fun q hq => (f7 q).mpr (hreq _ s h1 h2 s.loaded (List.Perm.refl _) q hq)
    exact ⟨.ok sc, _, s, h1, h2, .ok (List.Perm.refl _) f1 f2 f5 f3 hsc⟩
  · rintro o ⟨n, s, h1, h2, h⟩
    cases h with
    | stuck hp hm => exact absurd hm ((main_facts n s h1 h2 _ hp).1 _)
    | evalError hp _ ht he =>
      obtain ⟨_, e, _⟩ := ((main_facts n s h1 h2 _ hp).2.2.2 _ ht).2 _ he
      cases e
    | evalPanic hp _ ht he ho =>
      obtain ⟨_, e, _⟩ := ((main_facts n s h1 h2 _ hp).2.2.2 _ ht).2 _ he
      rcases ho with rfl | rfl <;> cases e
    | failures hp _ _ _ hf => exact absurd (main_facts n s h1 h2 _ hp).2.2.1 hf
    | unwrapNone hp _ ht he _ hn =>
      obtain ⟨_, e, f7, _⟩ := ((main_facts n s h1 h2 _ hp).2.2.2 _ ht).2 _ he
      cases e
      obtain ⟨sc, hsc⟩ := hmerge _ fun q hq => (f7 q).mpr (hreq n s h1 h2 _ hp q hq)
      rw [hn] at hsc; cases hsc
    | @ok it ord loaded' sc hp _ ht he _ hm =>
      obtain ⟨_, e, f7, f8⟩ := ((main_facts n s h1 h2 _ hp).2.2.2 _ ht).2 _ he
      cases e
      obtain ⟨-, ms, m1, m2, m3, m4⟩ := mergeDirect_spec hm
      have hd1 : ∀ m' ∈ ms, ∃ q ∈ main.required, loaded'.lookup q = some m' := by
        intro m' hm'
        have : some m' ∈ main.required.map (loaded'.lookup ·) := by rw [m1]; exact List.mem_map.mpr ⟨m', hm', rfl⟩
        exact List.mem_map.mp this
      have h1' : ∀ d ∈ ms.map (·.scope), ∃ q ∈ main.required, ∃ m', fetch q = .ok m' ∧ Ready fetch K pos P m' d := by
        intro d hd
        obtain ⟨m', hm', rfl⟩ := List.mem_map.mp hd
        obtain ⟨q, hq, e⟩ := hd1 m' hm'
        exact ⟨q, hq, f8 q m' e⟩
      have h2' : ∀ q ∈ main.required, ∃ d ∈ ms.map (·.scope), ∃ m', fetch q = .ok m' ∧ Ready fetch K pos P m' d := by
        intro q hq
        have : loaded'.lookup q ∈ ms.map some := by rw [← m1]; exact List.mem_map.mpr ⟨q, hq, rfl⟩
        obtain ⟨m', hm', e⟩ := List.mem_map.mp this
        exact ⟨m'.scope, List.mem_map.mpr ⟨m', hm', rfl⟩, f8 q m' e.symm⟩
      have hv : ∀ k, sc.variables k = (main.scope.variables k).or ((ms.map (·.scope)).findSome? (offersVar k)) := by
        intro k; rw [m3, List.findSome?_map]; rfl
      have hf : ∀ k, sc.functions k = (main.scope.functions k).or ((ms.map (·.scope)).findSome? (offersFn k)) := by
        intro k; rw [m4, List.findSome?_map]; rfl
      refine ⟨sc, ms.map (·.scope), rfl, fun d hd => ?_, hv, hf, fun n => merge_sees (.inl rfl) hv hf h1' h2' n⟩
      obtain ⟨_, _, _, _, h⟩ := h1' d hd
      exact h.evald

end
end Verif.Loader
