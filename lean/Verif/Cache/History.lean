import Verif.Cache.Props
/-
C37 for main modules that use no other module: in all histories of edits and compilations.
-/
namespace Verif.Cache
open Verif.Ast Verif.Loader Verif.Sheet

/-- The histories of a directory: it starts without object files; then sources are saved (each at a later time than
anything before) and the main module is compiled (with or without `--no-cache`), always with the same compiler and the same
values given with `-k`.  The contents saved as the main module have the property `Ok`. -/
inductive History {C : Type} (parse : C → Except LoadError Parsed) (version : Nat) (kv : Text → Option Ast) (mainPath : MPath)
    (Ok : C → Prop) : FS C → Nat → Prop
  | start {fs clock} : (∀ p, fs.obj p = none) → (∀ p c t, fs.src p = some (c, t) → t ≤ clock) →
      (∀ c t, fs.src mainPath = some (c, t) → Ok c) → History parse version kv mainPath Ok fs clock
  | edit {fs clock t p c} : History parse version kv mainPath Ok fs clock → clock < t → (p = mainPath → Ok c) →
      History parse version kv mainPath Ok (fs.edit t p c) t
  | compile {fs clock t useCache o w} : History parse version kv mainPath Ok fs clock → clock ≤ t →
      Compile parse version useCache kv fs mainPath o w → History parse version kv mainPath Ok (fs.writeAll t w) t

/-- The sheet is what the current source of the main module, which uses no other, evaluates to. -/
def FromSource {C : Type} (parse : C → Except LoadError Parsed) (kv : Text → Option Ast) (mainPath : MPath) (fs : FS C) (s : Sheet) : Prop :=
  ∃ c t m, fs.src mainPath = some (c, t) ∧ parse c = .ok m ∧ EvalSheet m.scope kv m.sheet (.ok s)

theorem load_nothing {fetch : MPath → Except LoadError Mod} {mainPath : MPath} {main : Mod} {w : List (MPath × Scope)} {o : LOut}
    (hr : main.required = []) (h : LoadMainW fetch mainPath main w o) : w = [] ∧ o = .ok main.scope := by
  have hinit : init main = ⟨[], [], [], [], []⟩ := by simp [init, hr, reserve]
  have hsteps : ∀ n s, Steps fetch (init main) n s → s = ⟨[], [], [], [], []⟩ := by
    intro n s h
    rw [hinit] at h
    clear hinit
    generalize hx : (⟨[], [], [], [], []⟩ : St) = x at h
    induction h with
    | refl => rfl
    | tail _ hst ih =>
      have := ih
      subst this
      subst hx
      cases hst with
      | read h => simp at h
      | fail h => simp at h
      | spawn h => simp at h
      | insert h => simp at h
  cases h with
  | @stuck n s it p h1 _ h3 h4 =>
    have := hsteps n s h1; subst this
    have : it = [] := List.perm_nil.mp h3
    subst this
    obtain ⟨_, _, _, _, _, _, h, _⟩ := h4
    cases h
  | @eval n s it order w d o h1 _ h3 _ h5 h6 h7 =>
    have := hsteps n s h1; subst this
    have : it = [] := List.perm_nil.mp h3
    subst this
    have hw : ∀ order scopes w d, EvalDepsW order [] scopes w d → w = [] ∧ d = .ok [] := by
      intro order scopes w d h
      generalize hx : ([] : List (MPath × Mod)) = x at h
      induction h with
      | nil => subst hx; exact ⟨rfl, rfl⟩
      | skip _ _ ih => exact ih hx
      | evaled h => subst hx; cases h
      | missing h => subst hx; cases h
      | err h => subst hx; cases h
      | panic h => subst hx; cases h
      | eval h => subst hx; cases h
    obtain ⟨rfl, rfl⟩ := hw _ _ _ _ h6
    refine ⟨rfl, ?_⟩
    cases h7 with
    | failures h => exact absurd rfl h
    | unwrapNone _ h => rw [hr] at h; cases h
    | ok _ h => rw [hr] at h; cases h; rfl

section
variable {C : Type} {parse : C → Except LoadError Parsed} {version : Nat} {kv : Text → Option Ast} {mainPath : MPath}

/-- The file contains no `use`. -/
def Alone (parse : C → Except LoadError Parsed) (c : C) : Prop := ∀ m, parse c = .ok m → m.required = []

/-- What holds at every time. -/
structure Inv (parse : C → Except LoadError Parsed) (version : Nat) (kv : Text → Option Ast) (mainPath : MPath) (fs : FS C) (clock : Nat) : Prop where
  src : ∀ p c t, fs.src p = some (c, t) → t ≤ clock
  obj : ∀ p m t, fs.obj p = some (m, t) → t ≤ clock
  alone : ∀ c t, fs.src mainPath = some (c, t) → Alone parse c
  fresh : ∀ m t c t', fs.obj mainPath = some (m, t) → fs.src mainPath = some (c, t') → t' ≤ t →
    m.version = version ∧ m.needsEval = false ∧ m.required = [] ∧ ∃ pm, parse c = .ok pm ∧ EvalSheet pm.scope kv pm.sheet (.ok m.sheet)

/-- How the main module is loaded. -/
theorem load_main {fs : FS C} {clock : Nat} (hI : Inv parse version kv mainPath fs clock) {main : Module C}
    (h : loadMainModule parse version fs mainPath = .ok main) :
    (∃ c t pm, fs.src mainPath = some (c, t) ∧ parse c = .ok pm ∧ pm.required = [] ∧
      main = ⟨version, pm.required, pm.scope, pm.sheet, c, false, true⟩) ∨
    (∃ c t pm, fs.src mainPath = some (c, t) ∧ parse c = .ok pm ∧ main.required = [] ∧ main.needsEval = false ∧
      EvalSheet pm.scope kv pm.sheet (.ok main.sheet)) := by
  have hsource : loadSource parse version fs mainPath = .ok main → ∃ c t pm, fs.src mainPath = some (c, t) ∧ parse c = .ok pm ∧
      pm.required = [] ∧ main = ⟨version, pm.required, pm.scope, pm.sheet, c, false, true⟩ := by
    intro h
    rw [loadSource] at h
    split at h
    · cases h
    · rename_i c t hs
      split at h
      · cases h
      · rename_i pm hp
        cases h
        exact ⟨c, t, pm, hs, hp, hI.alone c t hs pm hp, rfl⟩
  rw [loadMainModule] at h
  split at h
  · exact Or.inl (hsource h)
  · rename_i m t ho
    rw [checkDirty] at h
    split at h
    · cases h
    · rename_i m' hm'
      split at hm'
      · cases hm'
      · rename_i c t' hs
        split at hm'
        · cases hm'
          exact Or.inl (hsource h)
        · rename_i hlt
          cases hm'
          obtain ⟨h1, h2, h3, pm, h4, h5⟩ := hI.fresh m t c t' ho hs (by omega)
          have : ¬ version < m.version := by omega
          simp only [this, decide_false, Bool.false_eq_true, if_false] at h
          cases h
          exact Or.inr ⟨c, t', pm, hs, h4, h3, h2, h5⟩

theorem compile_alone {fs : FS C} {clock : Nat} (hI : Inv parse version kv mainPath fs clock) {useCache : Bool} {o : COut}
    {w : List (MPath × Module C)} (h : Compile parse version useCache kv fs mainPath o w) :
    (∀ s, o = .ok s → FromSource parse kv mainPath fs s) ∧
    (w = [] ∨ ∃ m c t pm, w = [(mainPath, m)] ∧ fs.src mainPath = some (c, t) ∧ parse c = .ok pm ∧ m.version = version ∧
      m.needsEval = false ∧ m.required = [] ∧ EvalSheet pm.scope kv pm.sheet (.ok m.sheet)) := by
  cases h with
  | main => exact ⟨by rintro s ⟨⟩, Or.inl rfl⟩
  | deps h1 h2 h3 =>
    exfalso
    rcases load_main hI h1 with ⟨_, _, _, _, _, h, rfl⟩ | ⟨_, _, _, _, _, h, _⟩
    · obtain ⟨_, rfl⟩ := load_nothing h h2
      simp [LOut.failure] at h3
    · obtain ⟨_, rfl⟩ := load_nothing h h2
      simp [LOut.failure] at h3
  | cached h1 h2 h3 =>
    rcases load_main hI h1 with ⟨_, _, _, _, _, _, rfl⟩ | ⟨c, t, pm, a1, a2, a3, a4, a5⟩
    · cases h3
    · obtain ⟨rfl, _⟩ := load_nothing a3 h2
      refine ⟨?_, Or.inl rfl⟩
      rintro s ⟨⟩
      exact ⟨c, t, pm, a1, a2, a5⟩
  | fills h1 h2 h3 =>
    rcases load_main hI h1 with ⟨_, _, _, _, _, h, rfl⟩ | ⟨_, _, _, _, _, h, _⟩
    · obtain ⟨rfl, _⟩ := load_nothing h h2
      exact ⟨by rintro s ⟨⟩, Or.inl rfl⟩
    · obtain ⟨rfl, _⟩ := load_nothing h h2
      exact ⟨by rintro s ⟨⟩, Or.inl rfl⟩
  | cell h1 h2 h3 =>
    rcases load_main hI h1 with ⟨_, _, _, _, _, h, rfl⟩ | ⟨_, _, _, _, _, h, _⟩
    · obtain ⟨rfl, _⟩ := load_nothing h h2
      exact ⟨by rintro s ⟨⟩, Or.inl rfl⟩
    · obtain ⟨rfl, _⟩ := load_nothing h h2
      exact ⟨by rintro s ⟨⟩, Or.inl rfl⟩
  | eval h1 h2 h3 h4 h5 h6 h7 h8 h9 =>
    rcases load_main hI h1 with ⟨c, t, pm, a1, a2, a3, rfl⟩ | ⟨_, _, _, _, _, _, h, _⟩
    · obtain ⟨rfl, hsc⟩ := load_nothing a3 h2
      simp only [LOut.ok.injEq] at hsc
      subst hsc
      have he : EvalSheet pm.scope kv pm.sheet (.ok _) := ⟨_, _, _, _, _, _, h4, h5, h6, h7, h8, h9, rfl⟩
      refine ⟨?_, ?_⟩
      · rintro s ⟨⟩
        exact ⟨c, t, pm, a1, a2, he⟩
      · cases useCache with
        | false => exact Or.inl rfl
        | true => exact Or.inr ⟨_, c, t, pm, rfl, a1, a2, rfl, rfl, a3, he⟩
    · rw [h] at h3; cases h3

theorem inv_history {fs : FS C} {clock : Nat} (h : History parse version kv mainPath (Alone parse) fs clock) :
    Inv parse version kv mainPath fs clock := by
  induction h with
  | start h1 h2 h3 => exact ⟨h2, (fun p m t h => by rw [h1] at h; cases h), h3, (fun m t c t' h => by rw [h1] at h; cases h)⟩
  | @edit fs clock t p c _ hlt hok ih =>
    refine ⟨fun q c' t' hs => ?_, fun q m t' ho => ?_, fun c' t' hs => ?_, fun m tb c' t' ho hs hle => ?_⟩
    · simp only [FS.edit] at hs
      split at hs
      · cases hs; exact Nat.le_refl _
      · have := ih.src q c' t' hs; omega
    · have := ih.obj q m t' ho; omega
    · simp only [FS.edit] at hs
      split at hs
      · cases hs; rename_i e; exact hok e.symm
      · exact ih.alone c' t' hs
    · simp only [FS.edit] at hs
      split at hs
      · cases hs
        have := ih.obj _ m tb ho
        omega
      · exact ih.fresh m tb c' t' ho hs hle
  | @compile fs clock t useCache o w _ hle hc ih =>
    obtain ⟨_, hw⟩ := compile_alone ih hc
    rcases hw with rfl | ⟨m, c, tc, pm, rfl, hs, hp, hv, hn, hr, he⟩
    · exact ⟨fun p c t' h => Nat.le_trans (ih.src p c t' h) hle, fun p m t' h => Nat.le_trans (ih.obj p m t' h) hle, ih.alone, ih.fresh⟩
    · refine ⟨fun p c t' h => Nat.le_trans (ih.src p c t' h) hle, fun p m' t' h => ?_, ih.alone, fun m' tb c' t' ho hs' _ => ?_⟩
      · simp only [FS.writeAll, List.foldl_cons, List.foldl_nil, FS.writeObj] at h
        split at h
        · cases h; exact Nat.le_refl _
        · exact Nat.le_trans (ih.obj p m' t' h) hle
      · simp only [FS.writeAll, List.foldl_cons, List.foldl_nil, FS.writeObj, if_true] at ho
        cases ho
        have hs'' : fs.src mainPath = some (c', t') := hs'
        rw [hs] at hs''; cases hs''
        exact ⟨hv, hn, hr, pm, hp, he⟩

/-- C37 for main modules that use no other module: whatever the history of edits and compilations (with the same compiler
and the same `-k` values), the sheet a compilation gives is the one of the current source. -/
theorem C37_alone_partial {fs : FS C} {clock : Nat} (h : History parse version kv mainPath (Alone parse) fs clock) {useCache : Bool} {s : Sheet}
    {w : List (MPath × Module C)} (hc : Compile parse version useCache kv fs mainPath (.ok s) w) : FromSource parse kv mainPath fs s :=
  (compile_alone (inv_history h) hc).1 s rfl

end
end Verif.Cache
