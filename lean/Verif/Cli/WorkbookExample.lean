import Verif.Cli.Workbook
import Verif.Cli.ModulesExample
/-
A concrete case of C84: a main module and a library, written to a workbook that is there already.
-/
namespace Verif.Cli
open Verif.Ast Verif.Loader Verif.Sheet Verif.Cache Verif.Csvp.Spec
open Verif.Cell hiding Target
open Verif.Target hiding MPath
open Verif.Parser (Stmt Line codeText stmts)

namespace Lib

/-- `csv++ -o out.xlsx -n Main sheet.csvpp`. -/
def bookArgs : Args :=
  ⟨⟨false, none, false, some (Path.ofText "out.xlsx".toList), false, some "Main".toList, 0, 0, 0, Path.ofText (inDir none "sheet.csvpp".toList)⟩, []⟩

theorem bookSetup (E : Env) : SetupFor E bookArgs ["sheet".toList] (.excel (Path.ofText "out.xlsx".toList)) (collect []) := by
  refine ⟨⟨none, "sheet.csvpp".toList, "sheet".toList, rfl, by unfold FileName; decide, .inl ⟨"csvpp".toList, by unfold HasExt; decide⟩⟩, ?_, ?_, ⟨[], rfl, rfl⟩, by show (0 : Nat) ≤ 4; decide⟩
  · show mainModulePath (Path.ofText (inDir none "sheet.csvpp".toList)) = _
    decide
  · show outputOf E.alnum none (some _) = _
    simp only [outputOf]
    decide

/-- A workbook with a worksheet of another name. -/
def bookFiles (other : Worksheet) : Files (Option Workbook) := fun q => if q = Path.ofText "out.xlsx".toList then some (some [("Other".toList, other)]) else none

/-- C84 on the example: `A1` of the worksheet `Main` has the formula `((7 * 2) + 2)`, and the worksheet `Other` stays. -/
example (version : Nat) (other : Worksheet) (e : Option Exit) (states : List (Files (Option Workbook))) (w : List (MPath × Module Text))
    (h : MainExcel Date.calendarDemo version [] (fun _ => []) [] Date.denotes bookArgs files (bookFiles other) e states w) :
    e = some .success ∧ ∃ final wb, states.getLast? = some final ∧ Wrote (bookFiles other) final (Path.ofText "out.xlsx".toList) (some wb) ∧
      ((worksheetOf (some (some wb)) "Main".toList).at 0 0).bind (·.value) = some (.formula "((7 * 2) + 2)".toList) ∧
      sheetNamed wb "Other".toList = some other := by
  obtain ⟨fetch, main, rows, d1, d2, d3, hmain⟩ := C84_workbook_partial version [] (fun _ => []) [] Date.calendarDemo_calendar (bookSetup Date.calendarDemo)
    (by intro h; cases h) (by simp [bookFiles]) (main_file Date.calendarDemo) (fs := files) ⟨7, rfl, by intro o t h; cases h⟩ (main_cells Date.calendarDemo)
    (program Date.calendarDemo) (files := bookFiles other)
  obtain ⟨r, c, s₁, order, isParam, rfl, hcells, a0', hcop, hs₁, hu, hT, hclear, hseen, hall⟩ := met d1 d2 d3
  obtain ⟨h2, -, final, wb, name, h3, h4, h5, h6, -, h7⟩ := (hmain s₁ K _ _ hs₁ hu hT hclear hseen).2 e states w h
  have hname : name = "Main".toList := by
    rcases h5 with h5 | ⟨h5, -⟩
    · simp only [bookArgs, Option.some.injEq] at h5; exact h5.symm
    · simp [bookArgs] at h5
  subst hname
  refine ⟨h2, final, wb, h3, h4, ?_, by rw [h7 _ (by decide)]; simp [bookFiles, sheetNamed]⟩
  have htot : total [r] [] = 0 := rfl
  have hw := h6.cells [] r [] rfl 0 (by rw [hcop]; decide) 0 c (by rw [hcells]; rfl) (.inl rfl)
  obtain ⟨b, v, b1, b2, b3, b4⟩ := hw.formula _ a0'
  rw [← b2 _ (hall.means _)] at b3
  rw [h4.target, htot] at b4
  rw [b4]
  cases b3
  decide +kernel

end Lib
end Verif.Cli
