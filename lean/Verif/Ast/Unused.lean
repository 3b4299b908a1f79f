import Verif.Ast.Rename
/-
Definitions that are not used (C99).
-/
namespace Verif.Ast

/-- None of the names `U` is used in the formula. -/
def Without (U : Name → Prop) (a : Ast) : Prop := ∀ n, U n → ¬ Uses a n

/-- The definition of a function uses none of the names `U`, but for its own parameters. -/
def FnWithout (U : Name → Prop) : Ast → Prop
  | .fn _ ps body => ∀ n, U n → Uses body n → ∃ p ∈ ps, n = .v p
  | d => Without U d

/-- The two scopes define the same, except for the names `U`, which the other definitions do not use. -/
structure SameBut (U : Name → Prop) (pos : Option Addr) (sc sc' : Scope) : Prop where
  vars : ∀ x, ¬ U (.v x) → sc.variables x = sc'.variables x
  fns : ∀ g, ¬ U (.f g) → sc.functions g = sc'.functions g
  varsClear : ∀ x d v, ¬ U (.v x) → sc.variables x = some d → resolve pos d = some v → Without U v
  fnsClear : ∀ g d, ¬ U (.f g) → sc.functions g = some d → FnWithout U d

section
variable {U : Name → Prop} {pos : Option Addr} {sc sc' : Scope}

theorem SameBut.symm (h : SameBut U pos sc sc') : SameBut U pos sc' sc :=
  ⟨fun x hx => (h.vars x hx).symm, fun g hg => (h.fns g hg).symm, fun x d v hx hd => h.varsClear x d v hx (by rw [h.vars x hx]; exact hd),
    fun g d hg hd => h.fnsClear g d hg (by rw [h.fns g hg]; exact hd)⟩

theorem Without.ref {a : Ast} (h : Without U a) {r : Text} (hr : r ∈ refNames a) : ¬ U (.v r) := fun hU => h _ hU hr
theorem Without.call {a : Ast} (h : Without U a) {g : Text} (hg : g ∈ callNames a) : ¬ U (.f g) := fun hU => h _ hU hg

theorem varRefs_sameBut (h : SameBut U pos sc sc') {a : Ast} (ha : Without U a) : varRefs sc a = varRefs sc' a := by
  have key : ∀ a : Ast, (∀ r ∈ refNames a, sc.variables r = sc'.variables r) → varRefs sc a = varRefs sc' a := by
    intro a
    induction a using Ast.ind with
    | hcall n args ih =>
      intro hr
      simp only [varRefs, varRefsL_eq]
      exact flatMap_congr' fun a ha => ih a ha fun r h' => hr r (by simp only [refNames, refNamesL_eq, List.mem_flatMap]; exact ⟨a, ha, h'⟩)
    | hfn n ps b ih => exact ih
    | hvar n a ih => exact ih
    | hinfix l op r ih1 ih2 =>
      intro hr
      simp only [varRefs]
      rw [ih1 fun x hx => hr x (List.mem_append_left _ hx), ih2 fun x hx => hr x (List.mem_append_right _ hx)]
    | href r => intro hr; simp only [varRefs]; rw [hr r (by simp [refNames])]
    | _ => intro _; rfl
  exact key a fun r hr => h.vars r (ha.ref hr)

theorem fnRefs_sameBut (h : SameBut U pos sc sc') {a : Ast} (ha : Without U a) : fnRefs sc a = fnRefs sc' a := by
  have key : ∀ a : Ast, (∀ r ∈ callNames a, sc.functions r = sc'.functions r) → fnRefs sc a = fnRefs sc' a := by
    intro a
    induction a using Ast.ind with
    | hcall n args ih =>
      intro hr
      simp only [fnRefs, fnRefsL_eq]
      rw [hr n (by simp [callNames])]
      congr 1
      exact flatMap_congr' fun a ha => ih a ha fun r h' => hr r (by
        simp only [callNames, callNamesL_eq, List.mem_cons, List.mem_flatMap]; exact .inr ⟨a, ha, h'⟩)
    | hfn n ps b ih => exact ih
    | hvar n a ih => exact ih
    | hinfix l op r ih1 ih2 =>
      intro hr
      simp only [fnRefs]
      rw [ih1 fun x hx => hr x (List.mem_append_left _ hx), ih2 fun x hx => hr x (List.mem_append_right _ hx)]
    | _ => intro _; rfl
  exact key a fun r hr => h.fns r (ha.call hr)

theorem resolveVars_sameBut (h : SameBut U pos sc sc') {vs : List Text} (hv : ∀ v ∈ vs, ¬ U (.v v)) :
    resolveVars sc pos vs = resolveVars sc' pos vs ∧ ∀ σ, resolveVars sc pos vs = some σ → ∀ p ∈ σ, Without U p.2 := by
  induction vs with
  | nil => exact ⟨rfl, fun σ hσ => by cases hσ; simp⟩
  | cons v vs ih =>
    obtain ⟨i1, i2⟩ := ih fun w hw => hv w (by simp [hw])
    simp only [resolveVars]
    rw [← h.vars v (hv v (by simp))]
    cases hd : sc.variables v with
    | none => exact ⟨i1, i2⟩
    | some d =>
      dsimp only
      rw [← i1]
      refine ⟨rfl, fun σ hσ => ?_⟩
      cases hr : resolve pos d with
      | none => rw [hr] at hσ; cases hσ
      | some a =>
        cases hs : resolveVars sc pos vs with
        | none => rw [hr, hs] at hσ; cases hσ
        | some rest =>
          rw [hr, hs] at hσ
          cases hσ
          intro p hp
          rcases List.mem_cons.mp hp with rfl | hp
          · exact h.varsClear v d a (hv v (by simp)) hd hr
          · exact i2 rest hs p hp

/-- The names in a formula after parameters were replaced. -/
theorem uses_replaceSeq (σ : List (Text × Ast)) (b : Ast) (n : Name) (h : Uses (replaceSeq σ b) n) :
    (Uses b n ∧ ∀ p ∈ σ, n ≠ .v p.1) ∨ ∃ p ∈ σ, Uses p.2 n := by
  induction σ generalizing b with
  | nil => exact .inl ⟨h, by simp⟩
  | cons p σ ih =>
    rcases ih (replaceVar p.1 p.2 b) h with ⟨h1, h2⟩ | ⟨q, hq, h1⟩
    · cases n with
      | v x =>
        rcases (mem_refNames_replaceVar ..).mp h1 with ⟨h3, h4⟩ | ⟨_, h4⟩
        · refine .inl ⟨h3, fun q hq => ?_⟩
          rcases List.mem_cons.mp hq with rfl | hq
          · exact fun e => h4 (Name.v.inj e)
          · exact h2 q hq
        · exact .inr ⟨p, by simp, h4⟩
      | f g =>
        rcases (mem_callNames_replaceVar ..).mp h1 with h3 | ⟨_, h4⟩
        · exact .inl ⟨h3, by simp⟩
        · exact .inr ⟨p, by simp, h4⟩
    · exact .inr ⟨q, by simp [hq], h1⟩

theorem replaceSeq_without {σ : List (Text × Ast)} {a : Ast} (ha : Without U a) (hσ : ∀ p ∈ σ, Without U p.2) : Without U (replaceSeq σ a) := by
  intro n hn hu
  rcases uses_replaceSeq σ a n hu with ⟨h, _⟩ | ⟨p, hp, h⟩
  · exact ha n hn h
  · exact hσ p hp n hn h

theorem Without.args {g : Text} {args : List Ast} (h : Without U (.call g args)) {a : Ast} (ha : a ∈ args) : Without U a := by
  intro n hn hu
  refine h n hn ?_
  cases n with
  | v x => simp only [Uses, refNames, refNamesL_eq, List.mem_flatMap]; exact ⟨a, ha, hu⟩
  | f x => simp only [Uses, callNames, callNamesL_eq, List.mem_cons, List.mem_flatMap]; exact .inr ⟨a, ha, hu⟩

theorem Without.left {l r : Ast} {op : Text} (h : Without U (.infix l op r)) : Without U l := by
  intro n hn hu
  refine h n hn ?_
  cases n <;> exact List.mem_append_left _ hu
theorem Without.right {l r : Ast} {op : Text} (h : Without U (.infix l op r)) : Without U r := by
  intro n hn hu
  refine h n hn ?_
  cases n <;> exact List.mem_append_right _ hu

theorem callFns_without_of {f : Text} {fd : Ast} {args as' : List Ast} (hw : ∀ a ∈ args, Without U a)
    (h : ∀ a ∈ args, ∀ b, Without U a → callFn f fd a = .ok b → Without U b) (hc : callFns f fd args = .ok as') : ∀ b ∈ as', Without U b := by
  induction args generalizing as' with
  | nil => cases hc; simp
  | cons a as ih =>
    simp only [callFns] at hc
    cases h1 : callFn f fd a with
    | error e => rw [h1] at hc; cases hc
    | ok a' =>
      cases h2 : callFns f fd as with
      | error e => rw [h1, h2] at hc; cases hc
      | ok bs =>
        rw [h1, h2] at hc
        cases hc
        intro b hb
        rcases List.mem_cons.mp hb with rfl | hb
        · exact h a (by simp) b (hw a (by simp)) h1
        · exact ih (fun c hc => hw c (by simp [hc])) (fun c hc => h c (by simp [hc])) h2 b hb

theorem callFn_without {f : Text} {fd : Ast} (hf : FnWithout U fd) {a b : Ast} (ha : Without U a) (h : callFn f fd a = .ok b) : Without U b := by
  induction a using Ast.ind generalizing b with
  | hcall g args ih =>
    simp only [callFn] at h
    split at h
    · split at h
      · rename_i nm ps body
        split at h
        · cases h
        · rename_i hl
          cases h
          intro n hn hu
          rcases uses_replaceSeq _ _ n hu with ⟨h1, h2⟩ | ⟨p, hp, h1⟩
          · obtain ⟨p, hp, rfl⟩ := hf n hn h1
            have hlen : args.length = ps.length := by simpa using hl
            have : p ∈ (ps.zip args).map (·.1) := by rw [List.map_fst_zip (by omega)]; exact hp
            obtain ⟨q, hq, rfl⟩ := List.mem_map.mp this
            exact h2 q hq rfl
          · exact ha.args (List.of_mem_zip hp).2 n hn h1
      · rename_i d hd
        cases h
        cases fd with
        | fn nm ps body => exact absurd rfl (hd nm ps body)
        | _ => exact hf
    · split at h
      · cases h
      · rename_i args' hargs
        cases h
        have hb := callFns_without_of (fun a ha' => ha.args ha') (fun a ha' b h1 h2 => ih a ha' h1 h2) hargs
        intro n hn hu
        cases n with
        | v x =>
          simp only [Uses, refNames, refNamesL_eq, List.mem_flatMap] at hu
          obtain ⟨c, hc, h3⟩ := hu
          exact hb c hc _ hn h3
        | f x =>
          simp only [Uses, callNames, callNamesL_eq, List.mem_cons, List.mem_flatMap] at hu
          rcases hu with rfl | ⟨c, hc, h3⟩
          · exact ha _ hn (by simp [Uses, callNames])
          · exact hb c hc _ hn h3
  | hinfix l op r ih1 ih2 =>
    simp only [callFn] at h
    cases h1 : callFn f fd l with
    | error e => rw [h1] at h; cases h
    | ok l' =>
      cases h2 : callFn f fd r with
      | error e => rw [h1, h2] at h; cases h
      | ok r' =>
        rw [h1, h2] at h
        cases h
        intro n hn hu
        have h3 : Uses l' n ∨ Uses r' n := by cases n <;> exact List.mem_append.mp hu
        rcases h3 with h3 | h3
        · exact ih1 ha.left h1 n hn h3
        · exact ih2 ha.right h2 n hn h3
  | hvar m a ih =>
    simp only [callFn] at h
    cases h1 : callFn f fd a with
    | error e => rw [h1] at h; cases h
    | ok a' =>
      rw [h1] at h
      cases h
      intro n hn hu
      exact ih (fun n hn hu => ha n hn (by cases n <;> exact hu)) h1 n hn (by cases n <;> exact hu)
  | _ => cases h; exact ha

theorem evalFns_sameBut (h : SameBut U pos sc sc') {fs : List Text} (hf : ∀ g ∈ fs, ¬ U (.f g)) {a : Ast} (ha : Without U a) :
    evalFns sc fs a = evalFns sc' fs a ∧ ∀ b, evalFns sc fs a = .ok b → Without U b := by
  induction fs generalizing a with
  | nil => exact ⟨rfl, fun b hb => by cases hb; exact ha⟩
  | cons g fs ih =>
    simp only [evalFns]
    rw [← h.fns g (hf g (by simp))]
    cases hd : sc.functions g with
    | none => exact ih (fun k hk => hf k (by simp [hk])) ha
    | some d =>
      dsimp only
      cases hc : callFn g d a with
      | error e => exact ⟨rfl, fun b hb => by cases hb⟩
      | ok a' => exact ih (fun k hk => hf k (by simp [hk])) (callFn_without (h.fnsClear g d (hf g (by simp)) hd) ha hc)

theorem Round.sameBut (h : SameBut U pos sc sc') {a : Ast} (ha : Without U a) {o : Outcome} (hr : Round sc pos a o) :
    Round sc' pos a o ∧ ∀ b, o = .ok b → Without U b := by
  obtain ⟨vs, fs, h1, h2, rfl⟩ := hr
  have hv : ∀ v ∈ vs, ¬ U (.v v) := fun v hv => ha.ref ((mem_varRefs ..).mp ((h1.2 v).mp hv)).1
  have hf : ∀ g ∈ fs, ¬ U (.f g) := fun g hg => ha.call ((mem_fnRefs ..).mp ((h2.2 g).mp hg)).1
  obtain ⟨r1, r2⟩ := resolveVars_sameBut h hv
  refine ⟨⟨vs, fs, by rw [← varRefs_sameBut h ha]; exact h1, by rw [← fnRefs_sameBut h ha]; exact h2, ?_⟩, fun b hb => ?_⟩
  · simp only [Ast.round]
    rw [← r1]
    cases hσ : resolveVars sc pos vs with
    | none => rfl
    | some σ =>
      dsimp only
      rw [(evalFns_sameBut h hf (replaceSeq_without ha (r2 σ hσ))).1]
  · simp only [Ast.round] at hb
    cases hσ : resolveVars sc pos vs with
    | none => rw [hσ] at hb; cases hb
    | some σ =>
      rw [hσ] at hb
      dsimp only at hb
      have := (evalFns_sameBut h hf (replaceSeq_without ha (r2 σ hσ))).2
      cases he : evalFns sc fs (replaceSeq σ a) with
      | error e => rw [he] at hb; cases hb
      | ok b' => rw [he] at hb; cases hb; exact this b he

theorem Stops.sameBut (h : SameBut U pos sc sc') {a : Ast} (ha : Without U a) (last : Refs) : Stops sc last a ↔ Stops sc' last a := by
  unfold Stops refsOf
  rw [varRefs_sameBut h ha, fnRefs_sameBut h ha]

theorem Loop.sameBut (h : SameBut U pos sc sc') {last : Refs} {a : Ast} (ha : Without U a) {o : Outcome} (hl : Loop sc pos last a o) : Loop sc' pos last a o := by
  induction hl with
  | stop hs => exact .stop ((Stops.sameBut h ha _).mp hs)
  | @again last a a' o hs hr _ ih =>
    obtain ⟨h1, h2⟩ := Round.sameBut h ha hr
    have h3 : refsOf sc a = refsOf sc' a := by unfold refsOf; rw [varRefs_sameBut h ha, fnRefs_sameBut h ha]
    refine .again (fun h' => hs ((Stops.sameBut h ha _).mpr h')) h1 ?_
    rw [← h3]
    exact ih (h2 a' rfl)
  | err hs hr => exact .err (fun h' => hs ((Stops.sameBut h ha _).mpr h')) (Round.sameBut h ha hr).1
  | panic hs hr => exact .panic (fun h' => hs ((Stops.sameBut h ha _).mpr h')) (Round.sameBut h ha hr).1

/-- The outcomes of an evaluation do not depend on definitions that are not used. -/
theorem eval_sameBut_iff (h : SameBut U pos sc sc') {a : Ast} (ha : Without U a) (o : Outcome) : Eval sc pos a o ↔ Eval sc' pos a o :=
  ⟨Loop.sameBut h ha, Loop.sameBut h.symm ha⟩

end
end Verif.Ast
