import Verif.Cache.Props
import Verif.Loader.Program
/-
Object files that are up to date (C82, C84, C86).
-/
namespace Verif.Cache
open Verif.Ast Verif.Loader Verif.Sheet

section
variable {C : Type} (parse : C → Except LoadError Parsed) (version : Nat)

/-- The object file of the module `q`, if there is one, is not older than the source file, was written by the same version of the compiler, and has
definitions that evaluating the present source files can give. -/
def UpToDate (fs : FS C) (q : MPath) : Prop :=
  ∀ o t, fs.obj q = some (o, t) → ∃ c tm m, fs.src q = some (c, tm) ∧ tm ≤ t ∧ parse c = .ok m ∧ o.version = version ∧ o.required = m.required ∧
    o.needsEval = true ∧ Result (fetchOf parse version false fs) q o.scope

end

section
variable {C : Type} {parse : C → Except LoadError Parsed} {version : Nat} {fs : FS C} {q : MPath}

/-- How a module with an up-to-date object file is read. -/
theorem UpToDate.load {useCache : Bool} (h : useCache = true → UpToDate parse version fs q) {c : C} {tm : Nat} {m : Parsed} (hs : fs.src q = some (c, tm))
    (hp : parse c = .ok m) : ∃ m', loadDep parse version useCache fs q = .ok m' ∧ m'.version = version ∧ m'.required = m.required ∧ m'.dirty = false ∧
      m'.needsEval = true ∧ (m'.scope = m.scope ∨ Result (fetchOf parse version false fs) q m'.scope) := by
  have hl : loadSource parse version fs q = .ok ⟨version, m.required, m.scope, m.sheet, c, false, true⟩ := by simp only [loadSource, hs, hp]
  cases useCache with
  | false => exact ⟨_, by simp only [loadDep]; exact hl, rfl, rfl, rfl, rfl, .inl rfl⟩
  | true =>
    cases ho : fs.obj q with
    | none => exact ⟨_, by simp only [loadDep, loadCached, ho]; exact hl, rfl, rfl, rfl, rfl, .inl rfl⟩
    | some e =>
      obtain ⟨o, t⟩ := e
      obtain ⟨c', tm', m', h1, h2, h3, h4, h5, h6, h7⟩ := h rfl o t ho
      rw [hs] at h1; cases h1
      rw [hp] at h3; cases h3
      refine ⟨{ o with dirty := false }, ?_, h4, h5, rfl, h6, .inr h7⟩
      have hv : decide (version < o.version) = false := by rw [h4]; simp
      have hn : ¬ tm > t := by omega
      simp only [loadDep, loadCached, ho, checkDirty, hs, hn, hv, if_true, if_false]

theorem fetchOf_source {c : C} {tm : Nat} {m : Parsed} (hs : fs.src q = some (c, tm)) (hp : parse c = .ok m) :
    fetchOf parse version false fs q = .ok ⟨m.required, m.scope, false, true⟩ := by
  simp [fetchOf, loadDep, loadSource, hs, hp, Except.map, Module.toMod]

theorem UpToDate.reads {useCache : Bool} (h : useCache = true → UpToDate parse version fs q) {c : C} {tm : Nat} {m : Parsed} (hs : fs.src q = some (c, tm))
    (hp : parse c = .ok m) : Reads (fetchOf parse version false fs) (fetchOf parse version useCache fs) q ⟨m.required, m.scope, false, true⟩ := by
  obtain ⟨m', h1, -, h2⟩ := UpToDate.load h hs hp
  exact ⟨m'.toMod, by simp only [fetchOf, h1]; rfl, h2⟩

end
end Verif.Cache
