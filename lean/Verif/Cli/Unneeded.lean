import Verif.Cache.Unneeded
import Verif.Cli.ModulesExample
/-
C123: files that a program does not use, at the level of the program.
-/
namespace Verif.Cli
open Verif.Ast Verif.Loader Verif.Sheet Verif.Cache Verif.Csvp.Spec
open Verif.Cell hiding Target
open Verif.Target hiding MPath
open Verif.Parser (Stmt Line stmts)

section
variable {E : Env} {version : Nat} {fs fs' : FS Text} {a : Args} {mp : MPath}

theorem configured_cache {kv : Text → Option Ast} {c : Config} {o : Output} (h : configured E a = some (kv, c, o)) : c.useCache = !a.noCache := by
  simp only [configured] at h
  split at h
  · cases h
  · split at h
    · cases h
    · rename_i c' hc
      obtain ⟨o', -, h⟩ := Option.map_eq_some_iff.mp h
      cases h
      simp only [configOf] at hc
      split at hc
      · cases hc; rfl
      · cases hc

/-- C123, the program with any target that is a file: what a run can do does not depend on the source and object files of modules that the main file does not need. -/
theorem C123_program {C : Type} {timestamps : List Text} {partials : C → List C} {out : Path → Output} {write : Config → Sheet → Option C → WriteOut C} {files : Files C}
    (hm : mainModulePath a.inputFilename = some mp) (hmain : SameFiles fs fs' mp)
    (h : ∀ q, Needed (parseModule E) version (!a.noCache) fs mp q → SameFiles fs fs' q) (e : Option Exit) (states : List (Files C)) (w : List (MPath × Module Text)) :
    MainFile E version timestamps partials out write a fs' files e states w ↔ MainFile E version timestamps partials out write a fs files e states w := by
  have key : ∀ {kv c o co w}, configured E a = some (kv, c, o) →
      (Compile (parseModule E) version c.useCache kv fs' mp co w ↔ Compile (parseModule E) version c.useCache kv fs mp co w) := by
    intro kv c o co w hc
    rw [configured_cache hc]
    exact C123_compile kv hmain h co w
  constructor
  · intro hr
    cases hr with
    | badArgs h1 => exact .badArgs h1
    | noName h1 h2 => exact .noName h1 h2
    | failed h1 h2 h3 h4 => rw [hm] at h2; cases h2; exact .failed h1 hm ((key h1).mp h3) h4
    | panics h1 h2 h3 => rw [hm] at h2; cases h2; exact .panics h1 hm ((key h1).mp h3)
    | hangs h1 h2 h3 => rw [hm] at h2; cases h2; exact .hangs h1 hm ((key h1).mp h3)
    | compiled h1 h2 h3 => rw [hm] at h2; cases h2; exact .compiled h1 hm ((key h1).mp h3)
  · intro hr
    cases hr with
    | badArgs h1 => exact .badArgs h1
    | noName h1 h2 => exact .noName h1 h2
    | failed h1 h2 h3 h4 => rw [hm] at h2; cases h2; exact .failed h1 hm ((key h1).mpr h3) h4
    | panics h1 h2 h3 => rw [hm] at h2; cases h2; exact .panics h1 hm ((key h1).mpr h3)
    | hangs h1 h2 h3 => rw [hm] at h2; cases h2; exact .hangs h1 hm ((key h1).mpr h3)
    | compiled h1 h2 h3 => rw [hm] at h2; cases h2; exact .compiled h1 hm ((key h1).mpr h3)

/-- Only the modules that are named in `use` lines, of the main file, of modules named there, and so on, are needed. -/
theorem C123_uses {noCache : Bool} {ls : List Line} {csv src : Text} {rs : List RowSrc} {lib : List (MPath × List Stmt)} (hsrc : ModuleFile E ls csv src) (hc : CellsSection E csv rs)
    (hf : Fresh fs mp src) (hlib : Program E version fs noCache mp (stmts ls) lib) (q : MPath) (hq : Needed (parseModule E) version (!noCache) fs mp q) : ∃ ss, (q, ss) ∈ lib := by
  obtain ⟨sc, rows, hp, -⟩ := hsrc.parse hc
  have hl := load_fresh (parse := parseModule E) (version := version) hf
  rw [hp] at hl
  induction hq with
  | main h1 h2 =>
    rw [hl] at h1; cases h1
    exact hlib.closed _ (.inl h2)
  | @more p m q' _ h1 h2 ih =>
    obtain ⟨ss, hss⟩ := ih
    obtain ⟨m', -, e2, -, -, -, m'', e6, e7, -⟩ := hlib.fetch _ hss
    simp only [fetchOf, h1] at e6
    cases e6
    refine hlib.closed _ (.inr ⟨_, hss, ?_⟩)
    rw [← e2.required, ← e7]
    exact h2

/-- C123, in terms of `use` lines: if `lib` are all modules that the main file uses, directly or not, then what a run can do does not depend on other modules. -/
theorem C123_sources {C : Type} {timestamps : List Text} {partials : C → List C} {out : Path → Output} {write : Config → Sheet → Option C → WriteOut C} {files : Files C}
    {ls : List Line} {csv src : Text} {rs : List RowSrc} {lib : List (MPath × List Stmt)} (hm : mainModulePath a.inputFilename = some mp) (hsrc : ModuleFile E ls csv src)
    (hc : CellsSection E csv rs) (hf : Fresh fs mp src) (hlib : Program E version fs a.noCache mp (stmts ls) lib) (hmain : SameFiles fs fs' mp)
    (h : ∀ e ∈ lib, SameFiles fs fs' e.1) (e : Option Exit) (states : List (Files C)) (w : List (MPath × Module Text)) :
    MainFile E version timestamps partials out write a fs' files e states w ↔ MainFile E version timestamps partials out write a fs files e states w :=
  C123_program hm hmain (fun q hq => by
    obtain ⟨ss, hss⟩ := C123_uses hsrc hc hf hlib q hq
    exact h _ hss) e states w
end

/-! ## An example -/

namespace Lib

/-- There is also a file `other.csvpp`, with any text. -/
def withOther (t : Text) : FS Text := ⟨fun m => if m = ["other".toList] then some (t, 8) else files.src m, files.obj⟩

/-- A file that is not used, whatever is in it, does not matter. -/
example (E : Env) (version : Nat) (t : Text) (e : Option Exit) (states : List (Files Text)) (w : List (MPath × Module Text)) :
    Main E version [] (fun _ => []) [] (exampleArgs false []) (withOther t) exampleFiles e states w ↔
      Main E version [] (fun _ => []) [] (exampleArgs false []) files exampleFiles e states w := by
  refine C123_sources (fs := files) (fs' := withOther t) (mp := ["sheet".toList]) (exampleSetup E false [] [] rfl).main (main_file E) (main_cells E) ⟨7, rfl, by intro o t h; cases h⟩ (program E)
    ⟨if_neg (t := some (t, 8)) (show ¬ (["sheet".toList] : MPath) = ["other".toList] by decide), rfl⟩ (fun e he => ?_) e states w
  obtain rfl := List.mem_singleton.mp he
  exact ⟨if_neg (t := some (t, 8)) (show ¬ (["lib".toList] : MPath) = ["other".toList] by decide), rfl⟩

end Lib
end Verif.Cli
