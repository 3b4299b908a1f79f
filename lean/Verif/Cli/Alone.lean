import Verif.Cli.Model
import Verif.Cache.History
/-
Compiling a main module that uses no other modules and has no current object file.
-/
namespace Verif.Cli
open Verif.Ast Verif.Loader Verif.Sheet Verif.Cache
open Verif.Target hiding MPath

theorem load_alone {fetch : MPath → Except LoadError Mod} {mainPath : MPath} {main : Mod} (hr : main.required = []) :
    LoadMainW fetch mainPath main [] (.ok main.scope) := by
  have hinit : init main = ⟨[], [], [], [], []⟩ := by simp [init, hr, reserve]
  have hg : dependencyGraph mainPath main.required [] = ⟨[mainPath], []⟩ := by rw [hr]; rfl
  refine .eval (n := 0) (s := ⟨[], [], [], [], []⟩) (it := []) (order := [0]) (d := .ok []) (by rw [hinit]; exact .refl) (by simp [Finished]) (by simp) ?_ ?_ ?_
    (.ok rfl (by rw [hr]; rfl))
  · rintro p ⟨_, q, m, _, _, _, h, _⟩; cases h
  · rw [hg]; exact ⟨by simp, by simp⟩
  · rw [hg]; exact .skip rfl .nil

section
variable {parse : Text → Except LoadError Parsed} {version : Nat} {useCache : Bool} {kv : Text → Option Ast} {fs : FS Text} {mp : MPath}
  {src : Text} {tm : Nat} {m : Parsed}

/-- The file has the contents `src`, and the object file, if there is one, is older. -/
def Fresh (fs : FS Text) (mp : MPath) (src : Text) : Prop :=
  ∃ tm, fs.src mp = some (src, tm) ∧ ∀ o t, fs.obj mp = some (o, t) → t < tm

theorem load_fresh (hs : Fresh fs mp src) :
    loadMainModule parse version fs mp =
      match parse src with
      | .error e => .error e
      | .ok m => .ok ⟨version, m.required, m.scope, m.sheet, src, false, true⟩ := by
  obtain ⟨tm, h1, h2⟩ := hs
  rw [loadMainModule]
  cases ho : fs.obj mp with
  | none => simp only [loadSource, h1]; rfl
  | some x =>
    obtain ⟨o, t⟩ := x
    have : checkDirty version fs mp o t = .ok { o with dirty := true, needsEval := true } := by
      rw [checkDirty, h1]
      simp only
      rw [if_pos (h2 o t ho)]
    simp only [this, loadSource, h1, if_true]; rfl

/-- What compiling such a file can end with. -/
theorem compile_alone (hs : Fresh fs mp src) (hp : parse src = .ok m) (hr : m.required = []) {co : COut} {w : List (MPath × Module Text)}
    (h : Compile parse version useCache kv fs mp co w) :
    (∀ e ∈ w, e.1 = mp) ∧ ((co = .error ∧ evalFills m.sheet = none) ∨ (co = .error ∧ ∃ pos e, EvalSheet m.scope kv m.sheet (.err pos e)) ∨
      ∃ s, co = .ok s ∧ EvalSheet m.scope kv m.sheet (.ok s)) := by
  have hl := load_fresh (parse := parse) (version := version) hs
  rw [hp] at hl
  simp only at hl
  cases h with
  | main h1 => rw [hl] at h1; cases h1
  | deps h1 h2 h3 =>
    rw [hl] at h1; cases h1
    obtain ⟨_, rfl⟩ := load_nothing hr h2
    cases h3
  | cached h1 h2 h3 => rw [hl] at h1; cases h1; cases h3
  | fills h1 h2 h3 h4 =>
    rw [hl] at h1; cases h1
    obtain ⟨rfl, _⟩ := load_nothing hr h2
    exact ⟨by simp, .inl ⟨rfl, h4⟩⟩
  | cell h1 h2 h3 h4 =>
    rw [hl] at h1; cases h1
    obtain ⟨rfl, h⟩ := load_nothing hr h2
    cases h
    exact ⟨by simp, .inr (.inl ⟨rfl, _, _, h4⟩)⟩
  | eval h1 h2 h3 h4 h5 h6 h7 h8 h9 =>
    rw [hl] at h1; cases h1
    obtain ⟨rfl, h⟩ := load_nothing hr h2
    cases h
    refine ⟨?_, .inr (.inr ⟨_, rfl, _, _, _, _, _, _, h4, h5, h6, h7, h8, h9, rfl⟩)⟩
    intro e he
    simp only [List.flatMap_nil, List.nil_append] at he
    split at he
    · rw [List.mem_singleton] at he; rw [he]
    · cases he

theorem compile_alone_ok (hs : Fresh fs mp src) (hp : parse src = .ok m) (hr : m.required = []) {s : Sheet}
    (h : EvalSheet m.scope kv m.sheet (.ok s)) : ∃ w, Compile parse version useCache kv fs mp (.ok s) w := by
  have hl := load_fresh (parse := parse) (version := version) hs
  rw [hp] at hl
  simp only at hl
  obtain ⟨s₁, sheet, own, e, own', o', h4, h5, h6, h7, h8, h9, ho⟩ := h
  cases o' with
  | ok rows => cases ho; exact ⟨_, .eval hl (load_alone hr) rfl h4 h5 h6 h7 h8 h9⟩
  | err => cases ho
  | panic => cases ho

theorem compile_alone_error (hs : Fresh fs mp src) {e : LoadError} (hp : parse src = .error e) {co : COut} {w : List (MPath × Module Text)} :
    Compile parse version useCache kv fs mp co w ↔ co = .error ∧ w = [] := by
  have hl := load_fresh (parse := parse) (version := version) hs
  rw [hp] at hl
  simp only at hl
  constructor
  · intro h
    cases h with
    | main => exact ⟨rfl, rfl⟩
    | deps h1 => rw [hl] at h1; cases h1
    | cached h1 => rw [hl] at h1; cases h1
    | fills h1 => rw [hl] at h1; cases h1
    | cell h1 => rw [hl] at h1; cases h1
    | eval h1 => rw [hl] at h1; cases h1
  · rintro ⟨rfl, rfl⟩; exact .main hl

end
end Verif.Cli
