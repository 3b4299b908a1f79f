import Verif.Cli.Incremental
import Verif.Cli.ModulesExample
/-
C86 on the example of C82.
-/
namespace Verif.Cli
namespace Lib
open Verif.Ast Verif.Loader Verif.Sheet Verif.Cache Verif.Csvp.Spec
open Verif.Cell hiding Target
open Verif.Target hiding MPath
open Verif.Parser (Stmt Line codeText stmts)

theorem lib_parse (E : Env) : ∃ m, parseModule E libText = .ok m ∧ m.required = [] := by
  obtain ⟨sc, rows, e1, -⟩ := (lib_file E).parse (lib_cells E)
  exact ⟨_, e1, rfl⟩

theorem main_parse (E : Env) : ∃ m, parseModule E mainText = .ok m ∧ m.required = [["lib".toList]] := by
  obtain ⟨sc, rows, e1, -⟩ := (main_file E).parse (main_cells E)
  exact ⟨_, e1, rfl⟩

theorem main_uses (E : Env) : UsesOnce (parseModule E) [["lib".toList]] mainText := by
  intro m hm
  obtain ⟨m', e1, e2⟩ := main_parse E
  rw [hm] at e1; cases e1
  rw [e2]
  exact ⟨by simp, fun r hr => hr⟩

/-- The directory before the first compilation. -/
theorem session_start (E : Env) (version : Nat) : Session (parseModule E) version [["lib".toList]] files 7 := by
  obtain ⟨m, e1, e2⟩ := lib_parse E
  refine .start (fun _ => rfl) ?_ ⟨?_, fun _ => 0, ?_⟩ ?_
  · intro p c t h
    simp only [files] at h
    split at h
    · cases h; omega
    · split at h
      · cases h; omega
      · cases h
  · intro q hq
    obtain rfl := List.mem_singleton.mp hq
    exact ⟨libText, 5, m, rfl, e1, by rw [e2]; simp⟩
  · intro q hq c tm m' h1 h2 r hr
    obtain rfl := List.mem_singleton.mp hq
    cases h1
    rw [e1] at h2; cases h2
    rw [e2] at hr; cases hr
  · intro p c t hp h
    simp only [files] at h
    split at h
    · cases h; exact main_uses E
    · split at h
      · rename_i hl; subst hl; exact absurd (List.mem_singleton.mpr rfl) hp
      · cases h

/-- The directory after the first compilation, which wrote an object file for the library, and its sheet. -/
theorem session_compiled (E : Env) (version : Nat) : ∃ fs, Session (parseModule E) version [["lib".toList]] fs 8 ∧ fs.src = files.src ∧
    (fs.obj ["lib".toList]).isSome := by
  obtain ⟨fetch, main, rows, d1, d2, d3, hmain⟩ := C84_compile_partial (E := E) (kv := collect []) (noCache := false) version ⟨[], [], rfl, rfl⟩ (main_file E) (fs := files)
    ⟨7, rfl, by intro o t h; cases h⟩ (main_cells E) (program E)
  obtain ⟨r, c, s₁, order, isParam, rfl, hcells, a0', hcop, hs₁, hu, hT, hclear, hseen, hall⟩ := met d1 d2 d3
  obtain ⟨⟨s, w, hw⟩, -⟩ := hmain s₁ K _ _ hs₁ hu hT hclear hseen
  obtain ⟨m, e1, e2⟩ := main_parse E
  obtain ⟨lm, l1, l2⟩ := lib_parse E
  refine ⟨files.writeAll 8 w, ?_, writeAll_src _ _ _, ?_⟩
  · have := (session_start E version).compile (t := 8) w.length (by omega) (mp := ["sheet".toList]) (by decide) hw
    rwa [List.take_length] at this
  · have hl : loadMainModule (parseModule E) version files ["sheet".toList] = .ok ⟨version, m.required, m.scope, m.sheet, mainText, false, true⟩ := by
      have := load_fresh (parse := parseModule E) (version := version) (fs := files) (mp := ["sheet".toList]) (src := mainText) ⟨7, rfl, by intro o t h; cases h⟩
      rw [this, e1]
    refine compile_objects hw hl (by simp [e2]) (by simp only [e2]; decide) (q := ["lib".toList]) (by simp [e2]) ?_ 8
    intro m' hm'
    have : loadDep (parseModule E) version true files ["lib".toList] = .ok ⟨version, lm.required, lm.scope, lm.sheet, libText, false, true⟩ := by
      have hsrc : files.src ["lib".toList] = some (libText, 5) := rfl
      have hobj : files.obj ["lib".toList] = none := rfl
      simp only [loadDep, if_true, loadCached, hobj, loadSource, hsrc, l1]
    rw [this] at hm'; cases hm'; rfl

/-- C86 on the example: with the object file of the library, the file that uses it, saved again, compiles to the sheet that it compiles to without. -/
example (E : Env) (version : Nat) : ∃ (fs : FS Text) (s : Sheet), (fs.obj ["lib".toList]).isSome ∧
    (∃ w, Compile (parseModule E) version true (collect []) (fs.edit 9 ["sheet".toList] mainText) ["sheet".toList] (.ok s) w) ∧
    (∀ o w, Compile (parseModule E) version true (collect []) (fs.edit 9 ["sheet".toList] mainText) ["sheet".toList] o w → o = .ok s) ∧
    ∀ o w, Compile (parseModule E) version true (collect []) (clean (fs.edit 9 ["sheet".toList] mainText)) ["sheet".toList] o w → o = .ok s := by
  obtain ⟨fs, hses, hsrc, hobj⟩ := session_compiled E version
  obtain ⟨fetch, main, rows, d1, d2, d3, hmain⟩ := C86_incremental_partial (E := E) (kv := collect []) (lib := [(["lib".toList], stmts libLines)]) (mp := ["sheet".toList])
    ⟨[], [], rfl, rfl⟩ hses (by
      intro e he
      obtain rfl := List.mem_singleton.mp he
      exact ⟨libLines, [], libText, 5, [], lib_file E, rfl, lib_cells E, by rw [hsrc]; rfl⟩) (by decide) (t := 9) (by omega) (main_file E) (main_cells E) (by decide)
    (fun q hq => hq)
  obtain ⟨r, c, s₁, order, isParam, rfl, hcells, a0', hcop, hs₁, hu, hT, hclear, hseen, hall⟩ := met d1 d2 d3
  obtain ⟨s, -, h⟩ := hmain s₁ K _ _ hs₁ hu hT hclear hseen
  exact ⟨fs, s, hobj, h false⟩

end Lib
end Verif.Cli
