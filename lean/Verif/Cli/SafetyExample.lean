import Verif.Cli.Safety
import Verif.Cli.WorkbookExample
/-
Concrete cases of C85.
-/
namespace Verif.Cli
open Verif.Ast Verif.Loader Verif.Sheet Verif.Cache
open Verif.Cell hiding Target
open Verif.Target hiding MPath

namespace Lib

/-- `csv++ --backup -o out.xlsx -n Main sheet.csvpp`. -/
def backupArgs : Args := { bookArgs with backup := true }

theorem backupSetup (E : Env) : SetupFor E backupArgs ["sheet".toList] (.excel (Path.ofText "out.xlsx".toList)) (collect []) := by
  have h := bookSetup E
  exact ⟨h.input, h.main, h.target, h.values, h.verbose⟩

/-- C85 on the example of C84, with `--backup`: there is a run that succeeds, the old workbook is kept in a file that was not there before, and at no point was it
lost. -/
example (version : Nat) (other : Worksheet) : ∃ e states w,
    MainExcel Date.calendarDemo version ["1".toList] (fun _ => [none]) [none] Date.denotes backupArgs files (bookFiles other) e states w ∧ e = some .success ∧
    (∃ final, states.getLast? = some final ∧ Saved (bookFiles other) final (Path.ofText "out.xlsx".toList) (some [("Other".toList, other)])) ∧
    ∀ s ∈ states, s (Path.ofText "out.xlsx".toList) = some (some [("Other".toList, other)]) ∨
      Saved (bookFiles other) s (Path.ofText "out.xlsx".toList) (some [("Other".toList, other)]) := by
  have hold : bookFiles other (Path.ofText "out.xlsx".toList) = some (some [("Other".toList, other)]) := if_pos rfl
  have hb : CanBackup ["1".toList] backupArgs (bookFiles other) (Path.ofText "out.xlsx".toList) := by
    intro _
    have h1 : (Path.ofText "out.xlsx".toList).fileStem = some "out".toList := by decide
    have h2 : (Path.ofText "out.xlsx".toList).extension = some "xlsx".toList := by decide
    obtain ⟨q, h3⟩ : ∃ q, (Path.ofText "out.xlsx".toList).parent = some q := Option.isSome_iff_exists.mp (by decide)
    have h4 : ∀ q, (Path.ofText "out.xlsx".toList).parent = some q → backupName q "out".toList "xlsx".toList "1".toList ≠ Path.ofText "out.xlsx".toList := by decide
    have h5 : bookFiles other (backupName q "out".toList "xlsx".toList "1".toList) = none := if_neg (h4 q h3)
    simp only [backupFile, h1, h2, h3, backupLoop, h5, hold, Option.isSome_none, Bool.false_eq_true, if_false, Option.isSome_some]
  obtain ⟨fetch, main, rows, d1, d2, d3, hmain⟩ := C84_workbook_partial version ["1".toList] (fun _ => [none]) [none] Date.calendarDemo_calendar
    (backupSetup Date.calendarDemo) hb (by rw [hold]; simp) (main_file Date.calendarDemo) (fs := files) ⟨7, rfl, by intro o t h; cases h⟩ (main_cells Date.calendarDemo)
    (program Date.calendarDemo) (files := bookFiles other)
  obtain ⟨r, c, s₁, order, isParam, rfl, hcells, a0', hcop, hs₁, hu, hT, hclear, hseen, hall⟩ := met d1 d2 d3
  obtain ⟨⟨e, states, w, h⟩, hruns⟩ := hmain s₁ K _ _ hs₁ hu hT hclear hseen
  obtain ⟨he, -⟩ := hruns e states w h
  refine ⟨e, states, w, h, he, ?_, fun s hs => C85_crash_safe h rfl hs hold⟩
  obtain ⟨p, c, final, n1, n2, n3, n4⟩ := C85_backup h rfl he
  have : Output.excel p = .excel (Path.ofText "out.xlsx".toList) := by
    rw [Names, (backupSetup Date.calendarDemo).target] at n1; exact (Option.some.inj n1).symm
  cases this
  rw [hold] at n2; cases n2
  exact ⟨final, n3, n4⟩

end Lib
end Verif.Cli
