import Verif.Cli.Apart
import Verif.Cli.Examples
/-
An example for C121 and C122.
-/
namespace Verif.Cli
open Verif.Ast Verif.Loader Verif.Sheet Verif.Cache Verif.Csvp.Spec
open Verif.Cell hiding Target
open Verif.Target hiding MPath

/-- `csv++ -o out.csv -s -vvv -n Tab -x 5 sheet.csvpp`, without and with `--backup`. -/
def apartArgs (backup : Bool) : Args :=
  ⟨⟨backup, none, false, some (Path.ofText "out.csv".toList), true, some "Tab".toList, 3, 5, 0, Path.ofText (inDir none "sheet.csvpp".toList)⟩, []⟩

/-- The run ends as the one without the options, with `old` still there in `A1` and `c` in `C1`; and the one with `--backup` leaves the same, and a copy of the old file. -/
example (E : Env) (version : Nat) :
    (∃ e states w, Main E version [['1']] (fun _ => []) [] (apartArgs false) (exampleFs plainText) exampleFiles e states w) ∧
    ∀ e states w, Main E version [['1']] (fun _ => []) [] (apartArgs false) (exampleFs plainText) exampleFiles e states w →
      e = some .success ∧ ∃ final out, states.getLast? = some final ∧ Wrote exampleFiles final (Path.ofText "out.csv".toList) out ∧
        cellAt (csvRead out) 0 0 = "old".toList ∧ cellAt (csvRead out) 0 2 = "c".toList ∧
      ∃ states' final', Main E version [['1']] (fun _ => []) [] (apartArgs true) (exampleFs plainText) exampleFiles (some .success) states' w ∧
        states'.getLast? = some final' ∧ final' (Path.ofText "out.csv".toList) = some out ∧
        ∃ new, exampleFiles new = none ∧ final' new = some "old,\n".toList := by
  have h0 : cellAt (rowsOf (exampleFiles (Path.ofText "out.csv".toList))) 0 0 = "old".toList := by decide
  obtain ⟨hex, h1⟩ := C79_plain version [['1']] (fun _ => []) [] (exampleSetup E true [] [] rfl) (by intro h; cases h) (exampleFresh plainText) plainText_plain
    (files := exampleFiles) (by rw [h0]; unfold NoMark; decide)
  let b : Args := { exampleArgs true [] with verbose := 3 }
  let c : Args := { b with sheetName := some "Tab".toList }
  have hv : SameButVerbose (exampleArgs true []) b := ⟨3, by decide, by decide, rfl⟩
  have hn : SameButSheetName b c := ⟨.inr (by decide), .inl (by intro h; cases h), _, rfl⟩
  have ho : SameButOffsets c (apartArgs false) := ⟨5, 0, rfl⟩
  have hall : ∀ {e states w}, Main E version [['1']] (fun _ => []) [] (exampleArgs true []) (exampleFs plainText) exampleFiles e states w ↔
      Main E version [['1']] (fun _ => []) [] (apartArgs false) (exampleFs plainText) exampleFiles e states w :=
    (C121_verbose_csv hv).trans ((C121_sheet_name_csv hn).trans (C122_csv_violated ho))
  refine ⟨?_, fun e states w h => ?_⟩
  · obtain ⟨e, states, w, h⟩ := hex
    exact ⟨e, states, w, hall.mp h⟩
  · obtain ⟨h2, -, final, out, h3, h4, -, h5, -⟩ := h1 e states w (hall.mpr h)
    subst h2
    refine ⟨rfl, final, out, h3, h4, ?_, ?_, ?_⟩
    · rw [h5 0 0 _ _ (by rfl) (by rfl), if_pos ⟨rfl, by rw [h0]; decide⟩, h0]
    · rw [h5 0 2 _ _ (by rfl) (by rfl), if_neg (by decide)]; decide
    · rcases C121_backup_csv (a' := apartArgs true) ⟨rfl, rfl⟩ h with ⟨hne, -⟩ | ⟨x, target, k1, k2, k3⟩
      · exact absurd rfl hne
      · have ht : target = Path.ofText "out.csv".toList := by
          have : (configured E (apartArgs false)).map (·.2.2) = some (.csv (Path.ofText "out.csv".toList)) := by
            rw [configured_eq]
            have h1 : outputOf E.alnum none (some (Path.ofText "out.csv".toList)) = some (.csv (Path.ofText "out.csv".toList)) := by
              simp only [outputOf]
              decide
            show ((outputOf E.alnum none (some (Path.ofText "out.csv".toList))).map _).map _ = _
            rw [h1]
            rfl
          rw [k1, Option.map_some, k2] at this
          simpa using this
        subst ht
        rcases k3 with ⟨hb, -⟩ | ⟨states', s, s', m1, m2, m3, new, c, m4, m5, m6, m7⟩
        · exact absurd hb (by decide)
        · rw [h3] at m2; cases m2
          have e1 : exampleFiles (Path.ofText "out.csv".toList) = some "old,\n".toList := by decide
          rw [e1] at m4; cases m4
          refine ⟨states', s', m1, m3, ?_, new, m5, m6⟩
          rw [m7 _ (by rintro rfl; rw [e1] at m5; cases m5)]
          exact h4.target

end Verif.Cli
