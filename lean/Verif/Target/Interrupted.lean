import Verif.Target.TogetherMore
import Verif.Target.CsvProps
/-
C118: running again after a run with a CSV target that was interrupted.
-/
namespace Verif.Target
open Verif.Cell Verif.Sheet

variable {ts ts' : List Text} {partials partials' : Text → List Text} {backup backup' : Bool} {target : Path} {sh : Sheet} {cuts cuts' : List Nat} {fs s : Files Text}

/-- What is in the target after a successful run. -/
theorem run_target {ov : Bool} (h : (run ts partials backup target (some sh) (csvTarget ov cuts) fs).1 = .success) :
    ∃ final, (run ts partials backup target (some sh) (csvTarget ov cuts) fs).2.getLast? = some final ∧ final target = some (writeCsv ov sh (fs target)) := by
  cases backup with
  | false =>
    refine ⟨fs.set target (writeCsv ov sh (fs target)), ?_, set_eq⟩
    simp only [run, csvTarget, Bool.false_eq_true, if_false]
    rw [← List.cons_append, List.getLast?_append]
    simp
  | true =>
    cases hb : backupFile ts fs target with
    | none => simp [run, hb] at h
    | some x =>
      obtain ⟨fs', new⟩ := x
      obtain ⟨hn, ⟨c, h1, h2⟩, h3⟩ := C43_backup hb
      have hne : target ≠ new := by rintro rfl; rw [hn] at h1; cases h1
      have ht : fs' target = fs target := h3 target hne
      refine ⟨fs'.set target (writeCsv ov sh (fs target)), ?_, set_eq⟩
      simp only [run, csvTarget, hb, if_true, ht]
      rw [List.getLast?_append]
      simp [List.getLast?_cons, List.getLast?_append]

/-- C118, the part that holds without `--safe` (all rows have the same number of cells): wherever the run was interrupted, running again leaves in the target what the run
would have left.  Missing: rows that are shorter than others (`C118_violated_short`) and `--safe` (`C118_safe_iff`). -/
theorem C118_again_partial (hr : ∀ r ∈ sh.rows, ∀ r' ∈ sh.rows, r.cells.length = r'.cells.length)
    (_ : s ∈ (run ts partials backup target (some sh) (csvTarget true cuts) fs).2)
    (h : (run ts' partials' backup' target (some sh) (csvTarget true cuts') s).1 = .success) :
    ∃ final, (run ts' partials' backup' target (some sh) (csvTarget true cuts') s).2.getLast? = some final ∧ final target = some (writeCsv true sh (fs target)) := by
  obtain ⟨final, h1, h2⟩ := run_target h
  exact ⟨final, h1, by rw [h2, write_full hr (s target) (fs target)]⟩

/-- C118 with `--safe`, for a target that did not exist: what running again leaves after an interruption that left the text `t`.  It shows what the run would have left
exactly if every cell that can be read in `t`, within the sheet, is whole (or empty). -/
theorem C118_safe_iff {t : Text} (hb : NoBom false sh none) (hb' : NoBom false sh (some t)) :
    (∀ i j, cellAt (csvRead (writeCsv false sh (some t))) i j = cellAt (csvRead (writeCsv false sh none)) i j) ↔
      ∀ i j, InSheet sh i j → cellAt (csvRead t) i j ≠ [] → cellAt (csvRead t) i j = cellAt (csvRead (writeCsv false sh none)) i j := by
  constructor
  · intro h i j hin hne
    rw [← h i j]
    exact (C40_csv_safe (file := some t) hb' hin hne).symm
  · intro h i j
    by_cases hin : InSheet sh i j
    · by_cases hne : cellAt (csvRead t) i j = []
      · cases hc : sheetCell sh i j with
        | none => rw [C41_kept_partial hb' hin hc, C41_kept_partial hb hin hc]; exact hne.trans (by cases i <;> rfl)
        | some c => rw [C40_csv_fills hb' hc hne, C40_csv_fills hb hc (by cases i <;> rfl)]
      · rw [C40_csv_safe (file := some t) hb' hin hne]
        exact h i j hin hne
    · rw [C41_violated hb' hin, C41_violated hb hin]

/-- C118, violated with `--safe`: if the run is interrupted in a cell, the beginning of its text is taken for what the user has there, and stays, however often the program
is run again. -/
theorem C118_violated_safe {k i j : Nat} (h0 : fs target = none) (hb : NoBom false sh (some ((writeCsv false sh none).take k))) (hin : InSheet sh i j)
    (hne : cellAt (csvRead ((writeCsv false sh none).take k)) i j ≠ [])
    (hcut : cellAt (csvRead ((writeCsv false sh none).take k)) i j ≠ cellAt (csvRead (writeCsv false sh none)) i j) :
    ∃ u : Nat → Files Text, u 0 ∈ (run ts partials false target (some sh) (csvTarget false [k]) fs).2 ∧
      (∀ m, (run ts' partials' false target (some sh) (csvTarget false cuts') (u m)).1 = .success ∧
        (run ts' partials' false target (some sh) (csvTarget false cuts') (u m)).2.getLast? = some (u (m + 1))) ∧
      ∀ m, ∃ out, u m target = some out ∧ cellAt (csvRead out) i j = cellAt (csvRead ((writeCsv false sh none).take k)) i j ∧
        cellAt (csvRead out) i j ≠ cellAt (csvRead (writeCsv false sh none)) i j := by
  have hlast : ∀ u : Files Text, (run ts' partials' false target (some sh) (csvTarget false cuts') u).2.getLast? = some (u.set target (writeCsv false sh (u target))) := by
    intro u
    simp only [run, csvTarget, Bool.false_eq_true, if_false]
    rw [← List.cons_append, List.getLast?_append]
    simp
  have hkeep := C40_csv_safe (file := some ((writeCsv false sh none).take k)) hb hin hne
  refine ⟨fun m => fs.set target (match m with | 0 => (writeCsv false sh none).take k | _ + 1 => writeCsv false sh (some ((writeCsv false sh none).take k))),
    by simp [run, csvTarget, h0], fun m => ⟨rfl, ?_⟩, fun m => ⟨_, set_eq, ?_⟩⟩
  · rw [hlast]
    dsimp only
    rw [set_eq, set_set]
    cases m with
    | zero => rfl
    | succ m => rw [C58_idempotent hb]
  · cases m with
    | zero => exact ⟨rfl, hcut⟩
    | succ m => exact ⟨hkeep, by rw [hkeep]; exact hcut⟩

/-- C118, violated without `--safe`: a cell to the right of a short row, which the run would have kept, is lost if it is interrupted after opening the target; running again
does not bring it back. -/
theorem C118_violated_short {c : Text} {i j : Nat} (hc : fs target = some c) (hb : NoBom true sh (some c)) (hb' : NoBom true sh (some [])) (hin : InSheet sh i j) (hn : sheetCell sh i j = none)
    (hold : cellAt (csvRead c) i j ≠ []) :
    cellAt (csvRead (writeCsv true sh (fs target))) i j = cellAt (csvRead c) i j ∧
    ∃ s ∈ (run ts partials false target (some sh) (csvTarget true cuts) fs).2,
      (run ts' partials' false target (some sh) (csvTarget true cuts') s).1 = .success ∧
      ∃ final out, (run ts' partials' false target (some sh) (csvTarget true cuts') s).2.getLast? = some final ∧ final target = some out ∧
        cellAt (csvRead out) i j = [] ∧ cellAt (csvRead out) i j ≠ cellAt (csvRead c) i j := by
  refine ⟨by rw [hc]; exact C41_kept_partial hb hin hn, fs.set target [], by simp [run, csvTarget], rfl, ?_⟩
  obtain ⟨final, h1, h2⟩ := run_target (ts := ts') (partials := partials') (backup := false) (target := target) (sh := sh) (cuts := cuts') (fs := fs.set target [])
    (ov := true) rfl
  rw [set_eq] at h2
  have e : cellAt (csvRead (writeCsv true sh (some []))) i j = [] := (C41_kept_partial hb' hin hn).trans (by cases i <;> rfl)
  exact ⟨final, _, h1, h2, e, by rw [e]; exact Ne.symm hold⟩

/-! ### Cases -/

/-- A cell with a text. -/
def textCell (t : Text) : Cell := ⟨none, ⟨⟨0, 0⟩, t, []⟩, t, {}⟩

/-- One row with the cells foo and bar. -/
def fooBar : Sheet := ⟨[⟨{}, none, [textCell "foo".toList, textCell "bar".toList]⟩], false⟩

/-- The run is interrupted after two characters; the cell then is fo for ever. -/
example (fs : Files Text) (target : Path) (h : fs target = none) : ∃ u : Nat → Files Text,
    u 0 ∈ (run [] (fun _ => []) false target (some fooBar) (csvTarget false [2]) fs).2 ∧
    (∀ m, (run [] (fun _ => []) false target (some fooBar) (csvTarget false []) (u m)).1 = .success ∧
      (run [] (fun _ => []) false target (some fooBar) (csvTarget false []) (u m)).2.getLast? = some (u (m + 1))) ∧
    ∀ m, ∃ out, u m target = some out ∧ cellAt (csvRead out) 0 0 = "fo".toList := by
  have e : (writeCsv false fooBar none).take 2 = "fo".toList := by decide +kernel
  obtain ⟨u, h1, h2, h3⟩ := C118_violated_safe (ts := []) (ts' := []) (partials := fun _ => []) (partials' := fun _ => []) (sh := fooBar) (k := 2) (i := 0) (j := 0) (cuts' := [])
    h (by rw [e]; unfold NoBom; decide +kernel) ⟨by decide, _, List.mem_cons_self, by decide⟩ (by rw [e]; decide +kernel) (by rw [e]; decide +kernel)
  refine ⟨u, h1, h2, fun m => ?_⟩
  obtain ⟨out, e1, e2, -⟩ := h3 m
  exact ⟨out, e1, by rw [e2, e]; decide +kernel⟩

/-- Without --safe, running again gives the whole file. -/
example (fs s : Files Text) (target : Path) (h : s ∈ (run [] (fun _ => []) false target (some fooBar) (csvTarget true [2]) fs).2) :
    ∃ final, (run [] (fun _ => []) false target (some fooBar) (csvTarget true []) s).2.getLast? = some final ∧ final target = some "foo,bar\n".toList := by
  obtain ⟨final, h1, h2⟩ := C118_again_partial (ts' := []) (partials' := fun _ => []) (backup' := false) (cuts' := []) (by simp [fooBar]) h rfl
  exact ⟨final, h1, by rw [h2, write_full (sh := fooBar) (by simp [fooBar]) (fs target) none]; decide +kernel⟩

end Verif.Target
