import Verif.Cli.Meaning
import Verif.Loader.Meaning
/-
Runs of the program on a main file that uses other modules, when these are loaded without an error.
-/
namespace Verif.Cli
open Verif.Ast Verif.Loader Verif.Sheet Verif.Cache
open Verif.Cell hiding Target
open Verif.Target hiding MPath

section
variable {parse : Text → Except LoadError Parsed} {version : Nat} {useCache : Bool} {kv : Text → Option Ast} {fs : FS Text} {mp : MPath}
  {src : Text} {m : Parsed} {R : Scope → Prop}

/-- What the loader sees of the main module. -/
def mainMod (m : Parsed) : Mod := ⟨m.required, m.scope, false, true⟩

theorem evalDepsW_keys {order : List MPath} {loaded : List (MPath × Mod)} {scopes w : List (MPath × Scope)} {o : DepsOut}
    (h : EvalDepsW order loaded scopes w o) : ∀ e ∈ w, (loaded.lookup e.1).isSome := by
  induction h with
  | nil => simp
  | skip _ _ ih => exact ih
  | evaled _ _ _ ih => exact ih
  | missing => simp
  | err => simp
  | panic => simp
  | @eval p ps loaded scopes m sc sc' w o h1 _ _ _ _ ih =>
    intro e he
    rcases List.mem_cons.mp he with rfl | he
    · rw [h1]; rfl
    · have := ih e he
      rw [lookup_setScope, Option.isSome_map] at this
      exact this

/-- Object files are written for modules that are used. -/
theorem loadMainW_keys {fetch : MPath → Except LoadError Mod} {main : Mod} {w : List (MPath × Scope)} {o : LOut}
    (h : LoadMainW fetch mp main w o) : ∀ e ∈ w, Reach fetch main e.1 := by
  cases h with
  | stuck => simp
  | eval h1 h2 h3 _ _ h6 _ =>
    intro e he
    obtain ⟨m', hm'⟩ := Option.isSome_iff_exists.mp (evalDepsW_keys h6 e he)
    exact ((loaded_lookup h1 h2 h3 e.1 m').mp hm').1

theorem written_keys {w : List (MPath × Scope)} : ∀ x ∈ w.flatMap (written parse version useCache fs), ∃ e ∈ w, x.1 = e.1 := by
  intro x hx
  obtain ⟨e, he, hx⟩ := List.mem_flatMap.mp hx
  refine ⟨e, he, ?_⟩
  rw [written] at hx
  split at hx
  · split at hx
    · rw [List.mem_singleton] at hx; rw [hx]
    · cases hx
  · cases hx

/-- What compiling can end with when the other modules are loaded. -/
theorem compile_loaded (hs : Fresh fs mp src) (hp : parse src = .ok m)
    (hload : ∀ lo, LoadMain (fetchOf parse version useCache fs) mp (mainMod m) lo → ∃ sc, lo = .ok sc ∧ R sc)
    {co : COut} {w : List (MPath × Module Text)} (h : Compile parse version useCache kv fs mp co w) :
    (∀ e ∈ w, e.1 = mp ∨ Reach (fetchOf parse version useCache fs) (mainMod m) e.1) ∧
      ∃ sc, R sc ∧ ((co = .error ∧ evalFills m.sheet = none) ∨ (co = .error ∧ ∃ pos e, EvalSheet sc kv m.sheet (.err pos e)) ∨
        ∃ s, co = .ok s ∧ EvalSheet sc kv m.sheet (.ok s)) := by
  have hl := load_fresh (parse := parse) (version := version) hs
  rw [hp] at hl
  simp only at hl
  have hk : ∀ {w : List (MPath × Scope)} {lo : LOut}, LoadMainW (fetchOf parse version useCache fs) mp (mainMod m) w lo →
      ∀ x ∈ w.flatMap (written parse version useCache fs), x.1 = mp ∨ Reach (fetchOf parse version useCache fs) (mainMod m) x.1 := by
    intro w lo h x hx
    obtain ⟨e, he, hx⟩ := written_keys x hx
    exact .inr (hx ▸ loadMainW_keys h e he)
  cases h with
  | main h1 => rw [hl] at h1; cases h1
  | deps h1 h2 h3 =>
    rw [hl] at h1; cases h1
    obtain ⟨sc, rfl, -⟩ := hload _ (loadMainW_iff.mp ⟨_, h2⟩)
    cases h3
  | cached h1 h2 h3 => rw [hl] at h1; cases h1; cases h3
  | fills h1 h2 h3 h4 =>
    rw [hl] at h1; cases h1
    obtain ⟨sc, e, hR⟩ := hload _ (loadMainW_iff.mp ⟨_, h2⟩)
    exact ⟨hk h2, sc, hR, .inl ⟨rfl, h4⟩⟩
  | cell h1 h2 h3 h4 =>
    rw [hl] at h1; cases h1
    obtain ⟨sc, e, hR⟩ := hload _ (loadMainW_iff.mp ⟨_, h2⟩)
    cases e
    exact ⟨hk h2, _, hR, .inr (.inl ⟨rfl, _, _, h4⟩)⟩
  | eval h1 h2 h3 h4 h5 h6 h7 h8 h9 =>
    rw [hl] at h1; cases h1
    obtain ⟨sc, e, hR⟩ := hload _ (loadMainW_iff.mp ⟨_, h2⟩)
    cases e
    refine ⟨?_, _, hR, .inr (.inr ⟨_, rfl, _, _, _, _, _, _, h4, h5, h6, h7, h8, h9, rfl⟩)⟩
    intro x hx
    rcases List.mem_append.mp hx with hx | hx
    · exact hk h2 x hx
    · split at hx
      · rw [List.mem_singleton] at hx; exact .inl (by rw [hx])
      · cases hx

theorem compile_loaded_ok (hs : Fresh fs mp src) (hp : parse src = .ok m) {sc : Scope}
    (hload : LoadMain (fetchOf parse version useCache fs) mp (mainMod m) (.ok sc)) {s : Sheet}
    (h : EvalSheet sc kv m.sheet (.ok s)) : ∃ w, Compile parse version useCache kv fs mp (.ok s) w := by
  have hl := load_fresh (parse := parse) (version := version) hs
  rw [hp] at hl
  simp only at hl
  obtain ⟨s₁, sheet, own, e, own', o', h4, h5, h6, h7, h8, h9, ho⟩ := h
  obtain ⟨w, hw⟩ := loadMainW_iff.mpr hload
  cases o' with
  | ok rows => cases ho; exact ⟨_, .eval hl hw rfl h4 h5 h6 h7 h8 h9⟩
  | err => cases ho
  | panic => cases ho

end

section
variable {E : Env} {version : Nat} {ts : List Text} {partials : Text → List Text} {cuts : List Nat} {a : Args} {fs : FS Text} {files : Files Text}
  {mp : MPath} {p : Path} {kv : Text → Option Ast} {src : Text} {m : Parsed} {R : Scope → Prop}

/-- What a run can end with. -/
theorem main_loaded (hs : Setup E a mp p kv) (hb : CanBackup ts a files p) (hf : Fresh fs mp src) (hp : parseModule E src = .ok m)
    (hload : ∀ lo, LoadMain (fetchOf (parseModule E) version (!a.noCache) fs) mp (mainMod m) lo → ∃ sc, lo = .ok sc ∧ R sc)
    {e : Option Exit} {states : List (Files Text)} {w : List (MPath × Module Text)}
    (h : Main E version ts partials cuts a fs files e states w) :
    (∀ x ∈ w, x.1 = mp ∨ Reach (fetchOf (parseModule E) version (!a.noCache) fs) (mainMod m) x.1) ∧ ∃ sc, R sc ∧
    ((∃ s final, EvalSheet sc kv m.sheet (.ok s) ∧ e = some .success ∧ states.getLast? = some final ∧
        Wrote files final p (writeCsv (!a.safe) s (files p))) ∨
      ((e = some .failure ∨ e = some .panic) ∧ states = [files] ∧
        (evalFills m.sheet = none ∨ ∃ pos er, EvalSheet sc kv m.sheet (.err pos er)))) := by
  obtain ⟨c, hc, h1, h2, h3⟩ := hs.configured
  rw [← h3] at hload ⊢
  cases h with
  | badArgs h' => rw [hc] at h'; cases h'
  | noName h' h'' => rw [hs.main] at h''; cases h''
  | failed h' hm hcomp he =>
    rw [hc] at h'; cases h'
    rw [hs.main] at hm; cases hm
    obtain ⟨hw, sc, hR, ⟨_, h⟩ | ⟨_, h⟩ | ⟨s, h, _⟩⟩ := compile_loaded hf hp hload hcomp
    · refine ⟨hw, sc, hR, .inr ⟨?_, rfl, .inl h⟩⟩
      rcases he with rfl | rfl
      · exact .inl rfl
      · exact .inr rfl
    · refine ⟨hw, sc, hR, .inr ⟨?_, rfl, .inr h⟩⟩
      rcases he with rfl | rfl
      · exact .inl rfl
      · exact .inr rfl
    · cases h
  | panics h' hm hcomp =>
    rw [hc] at h'; cases h'
    rw [hs.main] at hm; cases hm
    obtain ⟨hw, sc, hR, ⟨h, _⟩ | ⟨h, _⟩ | ⟨s, h, _⟩⟩ := compile_loaded hf hp hload hcomp <;> cases h
  | hangs h' hm hcomp =>
    rw [hc] at h'; cases h'
    rw [hs.main] at hm; cases hm
    obtain ⟨hw, sc, hR, ⟨h, _⟩ | ⟨h, _⟩ | ⟨s, h, _⟩⟩ := compile_loaded hf hp hload hcomp <;> cases h
  | @compiled _ _ _ _ _ s h' hm hcomp =>
    rw [hc] at h'; cases h'
    rw [hs.main] at hm; cases hm
    obtain ⟨hw, sc, hR, ⟨h, _⟩ | ⟨h, _⟩ | ⟨_, h, hev⟩⟩ := compile_loaded hf hp hload hcomp
    · cases h
    · cases h
    · cases h
      obtain ⟨e1, final, e2, e3⟩ := run_wrote (ts := ts) (partials := partials) (backup := c.backup) (ov := c.overwrite) (p := p) (s := s) (cuts := cuts)
        (files := files) (by rw [h1]; exact hb)
      refine ⟨hw, sc, hR, .inl ⟨s, final, hev, by rw [e1], e2, ?_⟩⟩
      rw [h2] at e3; exact e3

/-- There is a run with any result that the evaluation can have. -/
theorem main_loaded_exists (hs : Setup E a mp p kv) (hf : Fresh fs mp src) (hp : parseModule E src = .ok m) {sc : Scope}
    (hload : LoadMain (fetchOf (parseModule E) version (!a.noCache) fs) mp (mainMod m) (.ok sc)) {s : Sheet}
    (h : EvalSheet sc kv m.sheet (.ok s)) : ∃ e states w, Main E version ts partials cuts a fs files e states w := by
  obtain ⟨c, hc, h1, h2, h3⟩ := hs.configured
  rw [← h3] at hload
  obtain ⟨w, hw⟩ := compile_loaded_ok (version := version) (useCache := c.useCache) (kv := kv) hf hp hload h
  exact ⟨_, _, w, .compiled hc hs.main hw⟩

end
end Verif.Cli
