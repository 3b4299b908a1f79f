import Verif.Target.GoogleExact
import Verif.Target.GoogleRunProps
/-
C94: what a call can put into a cell, for sheets of every size and all offsets.
-/
namespace Verif.Target
open Verif.Ast Verif.Parser Verif.Cell Verif.Sheet

/-- C94, where what is written comes from, for every size and all offsets, whatever others do meanwhile.  After each call of the run each cell of each tab is as before, or it is a
cell of the compiled sheet, or it is a cell that an earlier call of the run has read, and that the compiled sheet does not have or `--safe` is given; both from the row, of some
thousand, and the column that the offsets say. -/
theorem C94_cells {e : CredEnv} {cfg : Config} {id : Text} {s : Sheet} {h : List (World × Call × World)} {p : Prog} {w w' : World} {c : Call}
    (hh : Hist (googleRun e cfg id (some s)) h p) (hm : (w, c, w') ∈ h) {d : Doc} (hd : w id = some d) {k : Nat} {t : Tab} (ht : d[k]? = some t) (i j : Nat) :
    ∃ (d' : Doc) (t' : Tab), w' id = some d' ∧ d'[k]? = some t' ∧
      (t'.grid i j = t.grid i j ∨ ∃ r, cfg.offset.1 ≤ i ∧ cfg.offset.2 ≤ j ∧ r < s.rows.length ∧ r % 1000 = i - cfg.offset.1 ∧
        ((∃ c, sheetCell s r (j - cfg.offset.2) = some c ∧ t'.grid i j = gNew c) ∨
          (cfg.overwrite = true → sheetCell s r (j - cfg.offset.2) = none) ∧
            ∃ w₀ g, (w₀, Call.get id, w₀) ∈ h ∧ w₀.FirstTab id g ∧ t'.grid i j = g r (j - cfg.offset.2))) := by
  cases hist_all hh _ _ _ hm with
  | none => exact ⟨d, t, hd, ht, .inl rfl⟩
  | copy hb hd' hn => exact ⟨d, t, by rw [World.set_ne _ _ (by rintro rfl; rw [hn] at hd; cases hd), hd], ht, .inl rfl⟩
  | @update d' rows rs hc' hd' hr hq =>
    rw [hd] at hd'
    cases hd'
    refine ⟨_, _, World.set_self _ _ _, by rw [Doc.update, List.getElem?_map, ht]; rfl, ?_⟩
    dsimp only
    split
    · have hf := fold_chunks cfg.overwrite cfg.offset.1 cfg.offset.2 s rows t.grid ((s.rows.length + (1000 - 1)) / 1000) i j
      show applyAll rs t.grid i j = _ ∨ _
      have hrs := requests_eq (x := cfg.offset.1) (y := cfg.offset.2) hq
      rw [chunks, rowData_length] at hrs
      rw [← hrs] at hf
      rcases hf with ⟨m, v, _, ⟨k1, k2, k3, k4⟩, -, k5⟩ | ⟨-, k⟩
      · refine .inr ⟨1000 * m + (i - cfg.offset.1), k1, k3, ?_, by omega, ?_⟩
        · by_contra hc
          rw [sent_length (by omega)] at k4
          cases k4
        · change applyAll rs t.grid i j = v at k5
          show (∃ c, _ ∧ applyAll rs t.grid i j = _) ∨ _ ∧ ∃ w₀ g, _ ∧ _ ∧ applyAll rs t.grid i j = _
          rw [k5]
          have read : ∀ u, given rows (1000 * m + (i - cfg.offset.1)) (j - cfg.offset.2) = some u →
              ∃ w₀ g, (w₀, Call.get id, w₀) ∈ h ∧ w₀.FirstTab id g ∧ u = g (1000 * m + (i - cfg.offset.1)) (j - cfg.offset.2) := by
            intro u hu
            obtain ⟨w₀, hm₀, hr⟩ := hr
            rcases hr with ⟨t₀, ts₀, hd₀, hg₀⟩ | ⟨_, rfl⟩
            · refine ⟨w₀, _, hm₀, ⟨t₀, ts₀, hd₀, rfl⟩, ?_⟩
              rw [← hg₀]
              show u = (given rows _ _).getD _
              rw [hu]
              rfl
            · cases hu
          rw [sent] at k4
          cases hc : sheetCell s (1000 * m + (i - cfg.offset.1)) (j - cfg.offset.2) with
          | some c =>
            cases hg : given rows (1000 * m + (i - cfg.offset.1)) (j - cfg.offset.2) with
            | none => rw [hc, hg] at k4; cases k4; exact .inl ⟨c, rfl, rfl⟩
            | some u =>
              rw [hc, hg] at k4
              cases ho : cfg.overwrite with
              | true => rw [ho] at k4; cases k4; exact .inl ⟨c, rfl, rfl⟩
              | false => rw [ho] at k4; cases k4; exact .inr ⟨fun h => (by cases h), read _ hg⟩
          | none =>
            cases hg : given rows (1000 * m + (i - cfg.offset.1)) (j - cfg.offset.2) with
            | none => rw [hc, hg] at k4; cases k4
            | some u =>
              rw [hc, hg] at k4
              simp only at k4
              split at k4
              · cases k4; exact .inr ⟨fun _ => rfl, read _ hg⟩
              · cases k4
      · exact .inl k
    · exact .inl rfl

/-- Another user changes the second cell from 2 to 3 between the reading and the writing.  The sheet has only the first cell, so the second one is 3 afterwards or what was read. -/
example : ∃ (w' : World) (d' : Doc) (t' : Tab), w' "s1".toList = some d' ∧ d'[0]? = some t' ∧
    (t'.grid 0 1 = { value := some (.int 3) } ∨ ∃ (w₀ : World) (g : GSheet), w₀.FirstTab "s1".toList g ∧ t'.grid 0 1 = g 0 1) := by
  obtain ⟨rs, w', hh, -⟩ := C94_violated_lost_update (cfg := { exBackup with backup := false }) (s := exOne) (t₀ := ⟨0, "a".toList, gridOf exRows⟩) (ts₀ := [⟨7, "b".toList, fun _ _ => {}⟩])
    (w₀ := exWorld) (w := exWorld.set "s1".toList [⟨0, "a".toList, gridOf [[{ value := some (.int 1) }, { value := some (.int 3) }]]⟩]) (rows := exRows) (i := 0) (j := 1)
    (id := "s1".toList) (ts := []) (t := ⟨0, "a".toList, gridOf [[{ value := some (.int 1) }, { value := some (.int 3) }]]⟩)
    exCred_ok rfl rfl (by decide) (by decide) rfl rfl rfl (by decide) (World.set_self _ _ _) rfl exRows_known exOne_known
  obtain ⟨d', t', h1, h2, h3⟩ := C94_cells hh (List.mem_cons_of_mem _ (List.mem_cons_of_mem _ List.mem_cons_self)) (World.set_self _ _ _) (k := 0) rfl 0 1
  refine ⟨w', d', t', h1, h2, ?_⟩
  rcases h3 with h3 | ⟨r, -, -, k1, k2, k3⟩
  · exact .inl h3
  · obtain rfl : r = 0 := by have : r < 1 := k1; omega
    rcases k3 with ⟨c, k3, -⟩ | ⟨-, w₀, g, -, k4, k5⟩
    · cases k3
    · exact .inr ⟨w₀, g, k4, k5⟩

end Verif.Target
