import Verif.Cache.Props
/-
C123: files that are not needed.
-/
namespace Verif.Cache
open Verif.Ast Verif.Loader Verif.Sheet

/-! ## Specification -/

section
variable {C : Type} (parse : C → Except LoadError Parsed) (version : Nat) (useCache : Bool) (fs : FS C) (mainPath : MPath)

/-- The modules that a compilation needs: those that the main module uses, those that they use, and so on. -/
inductive Needed : MPath → Prop
  | main {m q} : loadMainModule parse version fs mainPath = .ok m → q ∈ m.required → Needed q
  | more {p m q} : Needed p → loadDep parse version useCache fs p = .ok m → q ∈ m.required → Needed q
end

/-- The source and the object file of `p` are the same in `fs` and `fs'`. -/
def SameFiles {C : Type} (fs fs' : FS C) (p : MPath) : Prop := fs'.src p = fs.src p ∧ fs'.obj p = fs.obj p

/-! ## Proofs -/

section
variable {fetch fetch' : MPath → Except LoadError Mod} {main : Mod} {mainPath : MPath}

theorem step_agree {s t : St} (hI : Inv fetch main s) (h : ∀ q, Reach fetch main q → fetch' q = fetch q) (hs : Step fetch s t) : Step fetch' s t := by
  cases hs with
  | @read i p hi =>
    rw [← h p (hI.reach p ((hI.attempted p).mpr (List.mem_map.mpr ⟨_, List.mem_of_getElem? hi, rfl⟩)))]
    exact .read hi
  | fail hi => exact .fail hi
  | spawn hi => exact .spawn hi
  | insert hi hj => exact .insert hi hj

theorem steps_agree {n : Nat} {s : St} (h : ∀ q, Reach fetch main q → fetch' q = fetch q) (hs : Steps fetch (init main) n s) : Steps fetch' (init main) n s := by
  induction hs with
  | refl => exact .refl
  | tail h1 h2 ih => exact .tail ih (step_agree (inv_steps inv_init h1) h h2)

theorem loadMain_agree {w : List (MPath × Scope)} {o : LOut} (h : ∀ q, Reach fetch main q → fetch' q = fetch q) (hl : LoadMainW fetch mainPath main w o) :
    LoadMainW fetch' mainPath main w o := by
  cases hl with
  | stuck h1 h2 h3 h4 => exact .stuck (steps_agree h h1) h2 h3 h4
  | eval h1 h2 h3 h4 h5 h6 h7 => exact .eval (steps_agree h h1) h2 h3 h4 h5 h6 h7

theorem evalDeps_written {order : List MPath} {loaded : List (MPath × Mod)} {scopes w : List (MPath × Scope)} {o : DepsOut} (h : EvalDepsW order loaded scopes w o) :
    ∀ e ∈ w, ∃ m, loaded.lookup e.1 = some m := by
  induction h with
  | nil => intro e he; cases he
  | skip _ _ ih => exact ih
  | evaled _ _ _ ih => exact ih
  | missing => intro e he; cases he
  | err => intro e he; cases he
  | panic => intro e he; cases he
  | eval h1 _ _ _ _ ih =>
    intro e he
    rcases List.mem_cons.mp he with rfl | he
    · exact ⟨_, h1⟩
    · obtain ⟨m, hm⟩ := ih e he
      rw [lookup_setScope] at hm
      obtain ⟨m', hm', -⟩ := Option.map_eq_some_iff.mp hm
      exact ⟨m', hm'⟩

/-- The modules that are written are among those that can be reached. -/
theorem loadMain_written {w : List (MPath × Scope)} {o : LOut} (hl : LoadMainW fetch mainPath main w o) : ∀ e ∈ w, Reach fetch main e.1 := by
  intro e he
  cases hl with
  | stuck => cases he
  | eval h1 h2 h3 h4 h5 h6 h7 =>
    obtain ⟨m, hm⟩ := evalDeps_written h6 e he
    exact ((loaded_lookup h1 h2 h3 _ _).mp hm).1
end

section
variable {C : Type} {parse : C → Except LoadError Parsed} {version : Nat} {useCache : Bool} {fs fs' : FS C} {mainPath : MPath}

theorem SameFiles.symm {p : MPath} (h : SameFiles fs fs' p) : SameFiles fs' fs p := ⟨h.1.symm, h.2.symm⟩

theorem SameFiles.loadMain {p : MPath} (h : SameFiles fs fs' p) : loadMainModule parse version fs' p = loadMainModule parse version fs p := by
  simp only [loadMainModule, loadSource, checkDirty, h.1, h.2]

theorem SameFiles.loadDep {p : MPath} (h : SameFiles fs fs' p) : loadDep parse version useCache fs' p = loadDep parse version useCache fs p := by
  simp only [Cache.loadDep, loadCached, loadSource, checkDirty, h.1, h.2]

theorem reach_needed {m : Module C} (hm : loadMainModule parse version fs mainPath = .ok m) {q : MPath} (h : Reach (fetchOf parse version useCache fs) m.toMod q) :
    Needed parse version useCache fs mainPath q := by
  induction h with
  | direct h => exact .main hm h
  | @indirect p q m' _ h1 h2 ih =>
    simp only [fetchOf] at h1
    cases hd : loadDep parse version useCache fs q with
    | error e => rw [hd] at h1; cases h1
    | ok x => rw [hd] at h1; cases h1; exact .more ih hd h2

theorem needed_agree (hmain : SameFiles fs fs' mainPath) (h : ∀ q, Needed parse version useCache fs mainPath q → SameFiles fs fs' q) {q : MPath}
    (hq : Needed parse version useCache fs' mainPath q) : Needed parse version useCache fs mainPath q := by
  induction hq with
  | main h1 h2 => rw [hmain.loadMain] at h1; exact .main h1 h2
  | more _ h1 h2 ih => rw [(h _ ih).loadDep] at h1; exact .more ih h1 h2

theorem compile_agree {kv : Text → Option Ast} {o : COut} {w : List (MPath × Module C)} (hmain : SameFiles fs fs' mainPath)
    (h : ∀ q, Needed parse version useCache fs mainPath q → SameFiles fs fs' q) (hc : Compile parse version useCache kv fs mainPath o w) :
    Compile parse version useCache kv fs' mainPath o w := by
  have hl : ∀ {m : Module C} {w : List (MPath × Scope)} {lo : LOut}, loadMainModule parse version fs mainPath = .ok m →
      LoadMainW (fetchOf parse version useCache fs) mainPath m.toMod w lo →
      loadMainModule parse version fs' mainPath = .ok m ∧ LoadMainW (fetchOf parse version useCache fs') mainPath m.toMod w lo ∧
        w.flatMap (written parse version useCache fs) = w.flatMap (written parse version useCache fs') := by
    intro m w lo h1 h2
    have hsame := fun q (hq : Reach (fetchOf parse version useCache fs) m.toMod q) => h q (reach_needed h1 hq)
    refine ⟨by rw [hmain.loadMain]; exact h1, loadMain_agree (fun q hq => by simp only [fetchOf, (hsame q hq).loadDep]) h2, ?_⟩
    have hw := loadMain_written h2
    clear h2
    induction w with
    | nil => rfl
    | cons e w ih =>
      rw [List.flatMap_cons, List.flatMap_cons, ih fun e he => hw e (List.mem_cons_of_mem _ he)]
      congr 1
      simp only [written, (hsame e.1 (hw e List.mem_cons_self)).loadDep]
  cases hc with
  | main h1 => exact .main (by rw [hmain.loadMain]; exact h1)
  | deps h1 h2 h3 => obtain ⟨k1, k2, k3⟩ := hl h1 h2; rw [k3]; exact .deps k1 k2 h3
  | cached h1 h2 h3 => obtain ⟨k1, k2, k3⟩ := hl h1 h2; rw [k3]; exact .cached k1 k2 h3
  | fills h1 h2 h3 h4 => obtain ⟨k1, k2, k3⟩ := hl h1 h2; rw [k3]; exact .fills k1 k2 h3 h4
  | cell h1 h2 h3 h4 => obtain ⟨k1, k2, k3⟩ := hl h1 h2; rw [k3]; exact .cell k1 k2 h3 h4
  | eval h1 h2 h3 h4 h5 h6 h7 h8 h9 => obtain ⟨k1, k2, k3⟩ := hl h1 h2; rw [k3]; exact .eval k1 k2 h3 h4 h5 h6 h7 h8 h9

/-- C123: if the source and the object file of the main module and of all modules that a compilation needs are the same, then the compilation has the same results and writes
the same object files, whatever the other files are. -/
theorem C123_compile (kv : Text → Option Ast) (hmain : SameFiles fs fs' mainPath) (h : ∀ q, Needed parse version useCache fs mainPath q → SameFiles fs fs' q) (o : COut)
    (w : List (MPath × Module C)) : Compile parse version useCache kv fs' mainPath o w ↔ Compile parse version useCache kv fs mainPath o w :=
  ⟨compile_agree hmain.symm fun q hq => (h q (needed_agree hmain h hq)).symm, compile_agree hmain h⟩
end

end Verif.Cache
