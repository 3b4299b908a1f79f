import Verif.Target.GoogleProps
/-
C44 (and C40, C41): what a sheet of the service shows after a run, for every size and every pair of offsets.
-/
namespace Verif.Target
open Verif.Ast Verif.Parser Verif.Cell Verif.Sheet

/-- What is sent to row `i` and column `j` of the service's sheet by the `m`th thousand rows, with the offsets `x` and `y`. -/
def Sends (ov : Bool) (x y : Nat) (s : Sheet) (rows : List (List GData)) (i j m : Nat) (d : GData) : Prop :=
  x ≤ i ∧ i < x + 1000 ∧ y ≤ j ∧ sent ov s rows (1000 * m + (i - x)) (j - y) = some d

section
variable {ov : Bool} {x y : Nat} {s : Sheet} {rows : List (List GData)} {g : GSheet}

/-- The first `n` requests. -/
theorem fold_chunks (ov : Bool) (x y : Nat) (s : Sheet) (rows : List (List GData)) (g : GSheet) (n i j : Nat) :
    let g' := (((List.range n).map fun k => ((rowData ov (readGoogle rows) 0 s.rows).drop (k * 1000)).take 1000).map
      fun r => (⟨x, y, r⟩ : Request)).foldl (fun g r => r.apply g) g
    (∃ m d, m < n ∧ Sends ov x y s rows i j m d ∧ (∀ m' d', m < m' → m' < n → ¬ Sends ov x y s rows i j m' d') ∧ g' i j = d) ∨
    (∀ m d, m < n → ¬ Sends ov x y s rows i j m d) ∧ g' i j = g i j := by
  induction n with
  | zero => exact .inr ⟨fun m d hm => by omega, rfl⟩
  | succ n ih =>
    dsimp only at ih ⊢
    rw [List.range_succ, List.map_append, List.map_append, List.foldl_append]
    generalize (((List.range n).map fun k => ((rowData ov (readGoogle rows) 0 s.rows).drop (k * 1000)).take 1000).map
      fun r => (⟨x, y, r⟩ : Request)).foldl (fun g r => r.apply g) g = g₁ at ih ⊢
    show (∃ m d, _ ∧ _ ∧ _ ∧ (Request.mk x y _).apply g₁ i j = d) ∨ _ ∧ (Request.mk x y _).apply g₁ i j = _
    have key : (∃ d, Sends ov x y s rows i j n d ∧
          (Request.mk x y (((rowData ov (readGoogle rows) 0 s.rows).drop (n * 1000)).take 1000)).apply g₁ i j = d) ∨
        (∀ d, ¬ Sends ov x y s rows i j n d) ∧
          (Request.mk x y (((rowData ov (readGoogle rows) 0 s.rows).drop (n * 1000)).take 1000)).apply g₁ i j = g₁ i j := by
      by_cases hin : x ≤ i ∧ y ≤ j
      · rw [Request.apply, if_pos hin]
        dsimp only
        rw [chunk_at]
        by_cases hi : i - x < 1000
        · rw [if_pos hi, rowData_sent, Nat.mul_comm]
          cases hs : sent ov s rows (1000 * n + (i - x)) (j - y) with
          | some d => exact .inl ⟨d, ⟨hin.1, by omega, hin.2, hs⟩, rfl⟩
          | none => exact .inr ⟨fun d hd => (by have := hd.2.2.2; rw [hs] at this; cases this), rfl⟩
        · rw [if_neg hi]
          exact .inr ⟨fun d hd => by have := hd.2.1; omega, rfl⟩
      · rw [Request.apply, if_neg hin]
        exact .inr ⟨fun d hd => hin ⟨hd.1, hd.2.2.1⟩, rfl⟩
    rcases key with ⟨d, hd, he⟩ | ⟨hn, he⟩
    · exact .inl ⟨n, d, by omega, hd, fun m' d' h1 h2 => by omega, he⟩
    · rw [he]
      rcases ih with ⟨m, d, hm, hs, hl, he⟩ | ⟨hl, he⟩
      · refine .inl ⟨m, d, by omega, hs, fun m' d' h1 h2 => ?_, he⟩
        by_cases hq : m' = n
        · subst hq; exact hn d'
        · exact hl m' d' h1 (by omega)
      · refine .inr ⟨fun m d hm => ?_, he⟩
        by_cases hq : m = n
        · subst hq; exact hn d
        · exact hl m d (by omega)

theorem sends_lt {i j m : Nat} {d : GData} (h : Sends ov x y s rows i j m d) : m < (s.rows.length + (1000 - 1)) / 1000 := by
  obtain ⟨h1, h2, h3, h4⟩ := h
  have : 1000 * m + (i - x) < s.rows.length := by
    by_contra hc
    rw [sent_length (by omega)] at h4
    cases h4
  omega

/-- C44, exactly, for every size and all offsets: a cell shows what the last thousand rows that send something there have sent; if none does, it is
what it was.  (`sent` is the compiled cell, or the cell that the service has in the same row and column of its sheet, whatever the offsets are.) -/
theorem C44_exact (h : writeGoogle ov (x, y) s rows = some g) (i j : Nat) :
    (∃ m d, Sends ov x y s rows i j m d ∧ (∀ m' d', m < m' → ¬ Sends ov x y s rows i j m' d') ∧ g i j = d) ∨
    (∀ m d, ¬ Sends ov x y s rows i j m d) ∧ g i j = gridOf rows i j := by
  rw [write_eq h, chunks, rowData_length]
  rcases fold_chunks ov x y s rows (gridOf rows) ((s.rows.length + (1000 - 1)) / 1000) i j with ⟨m, d, _, hs, hl, he⟩ | ⟨hl, he⟩
  · exact .inl ⟨m, d, hs, fun m' d' h1 h2 => hl m' d' h1 (sends_lt h2) h2, he⟩
  · exact .inr ⟨fun m d hd => hl m d (sends_lt hd) hd, he⟩

/-- C40 and C41, exactly: a cell of the service's sheet is kept if and only if what is sent to it last, if anything is, happens to be the same. -/
theorem C40_google_iff {d : GData} {i j : Nat} (h : writeGoogle ov (x, y) s rows = some g) (hd : gridOf rows i j = d) :
    g i j = d ↔ ∀ m e, Sends ov x y s rows i j m e → (∀ m' e', m < m' → ¬ Sends ov x y s rows i j m' e') → e = d := by
  rcases C44_exact h i j with ⟨m, e, hs, hl, he⟩ | ⟨hn, he⟩
  · constructor
    · intro hg m' e' hs' hl'
      have : m' = m := by
        rcases Nat.lt_trichotomy m m' with h | h | h
        · exact absurd hs' (hl _ _ h)
        · exact h.symm
        · exact absurd hs (hl' _ _ h)
      subst this
      have e1 := hs.2.2.2
      rw [hs'.2.2.2] at e1
      rw [Option.some.injEq] at e1
      rw [e1, ← he, hg]
    · intro hall
      rw [he]
      exact hall m e hs hl
  · constructor
    · intro _ m e hs
      exact absurd hs (hn m e)
    · intro _
      rw [he, hd]

/-- C40, for sheets of every size: with `--safe` and no offsets, the cells that the service returned are kept in all rows for which no row of a later
thousand has something in that column, and in all rows from the 1001st on. -/
theorem C40_google_rows_partial {d : GData} {i j : Nat} (h : writeGoogle false (0, 0) s rows = some g) (hd : given rows i j = some d)
    (hl : i < 1000 → ∀ m, 1 ≤ m → sent false s rows (1000 * m + i) j = none) : g i j = d := by
  have hgrid : gridOf rows i j = d := by show (given rows i j).getD _ = _; rw [hd]; rfl
  refine (C40_google_iff h hgrid).mpr fun m e hs _ => ?_
  obtain ⟨_, hi, _, h4⟩ := hs
  rw [Nat.sub_zero, Nat.sub_zero] at h4
  cases m with
  | succ m => rw [hl (by omega) (m + 1) (by omega)] at h4; cases h4
  | zero =>
    rw [Nat.mul_zero, Nat.zero_add, sent, hd] at h4
    cases hc : sheetCell s i j with
    | some c => rw [hc] at h4; simpa using h4.symm
    | none =>
      rw [hc] at h4
      simp only at h4
      split at h4
      · simpa using h4.symm
      · cases h4

/-- C58 (Google Sheets), for sheets of every size: without offsets, writing the same sheet again changes nothing, even where it shows the wrong cells (if the
service returns again the cells that it returned before, and in the rows from the 1001st on no others). -/
theorem C58_google_rows_partial {rows' : List (List GData)} {g' : GSheet} (h : writeGoogle ov (0, 0) s rows = some g) (hr : gridOf rows' = g)
    (hn : ∀ i j, given rows i j ≠ none → given rows' i j ≠ none) (hk : ∀ i j, 1000 ≤ i → given rows i j = none → given rows' i j = none)
    (h' : writeGoogle ov (0, 0) s rows' = some g') : g' = g := by
  funext i j
  have hgiven : ∀ i j d, given rows' i j = some d → d = g i j := fun i j d hd => by
    rw [← hr]; show d = (given rows' i j).getD _; rw [hd]; rfl
  have hlate : ∀ i j, 1000 ≤ i → given rows' i j = given rows i j := fun i j hi => by
    cases hd : given rows i j with
    | none => exact hk i j hi hd
    | some d =>
      cases hd' : given rows' i j with
      | none => exact absurd hd' (hn i j (by rw [hd]; simp))
      | some d' =>
        have e := hgiven i j d' hd'
        have := C44_violated_chunks h (i := i) (j := j) hi
        rw [Nat.zero_add] at this
        rw [e, this]
        show some ((given rows i j).getD {}) = _
        rw [hd]; rfl
  have hsame : ∀ m d, 1 ≤ m → (Sends ov 0 0 s rows' i j m d ↔ Sends ov 0 0 s rows i j m d) := fun m d hm => by
    unfold Sends sent
    rw [hlate _ _ (by omega)]
  rcases C44_exact h i j with ⟨m, d, hs, hl, he⟩ | ⟨hno, he⟩
  · rcases Nat.eq_zero_or_pos m with rfl | hm
    · rcases C44_exact h' i j with ⟨m', d', hs', hl', he'⟩ | ⟨hno', he'⟩
      · rcases Nat.eq_zero_or_pos m' with rfl | hm'
        · rw [he']
          have e1 := hs.2.2.2
          have e2 := hs'.2.2.2
          rw [Nat.mul_zero, Nat.zero_add, Nat.sub_zero, Nat.sub_zero, sent] at e1 e2
          cases hc : sheetCell s i j with
          | none =>
            rw [hc] at e2
            cases hd : given rows' i j with
            | none => rw [hd] at e2; cases e2
            | some d₂ =>
              rw [hd] at e2
              simp only at e2
              split at e2
              · cases e2; exact hgiven i j _ hd
              · cases e2
          | some c =>
            rw [hc] at e1 e2
            cases hd : given rows' i j with
            | none =>
              cases hd₀ : given rows i j with
              | none =>
                rw [hd] at e2; rw [hd₀] at e1
                rw [he, ← Option.some.inj e1, ← Option.some.inj e2]
              | some d₀ => exact absurd hd (hn i j (by simp [hd₀]))
            | some d₂ =>
              rw [hd] at e2
              cases ov with
              | false => cases e2; exact hgiven i j _ hd
              | true =>
                rw [he]
                cases hd₀ : given rows i j <;> rw [hd₀] at e1 <;> rw [← Option.some.inj e1, ← Option.some.inj e2] <;> simp
        · exact absurd ((hsame m' d' hm').mp hs') (hl m' d' hm')
      · rw [he', hr]
    · rcases C44_exact h' i j with ⟨m', d', hs', hl', he'⟩ | ⟨hno', he'⟩
      · have hm' : m' = m := by
          rcases Nat.lt_trichotomy m m' with q | q | q
          · exact absurd ((hsame m' d' (by omega)).mp hs') (hl _ _ q)
          · exact q.symm
          · exact absurd ((hsame m d hm).mpr hs) (hl' _ _ q)
        subst hm'
        have e1 := hs.2.2.2
        rw [((hsame m' d' hm).mp hs').2.2.2] at e1
        rw [he', he, Option.some.inj e1]
      · rw [he', hr]
  · rcases C44_exact h' i j with ⟨m', d', hs', hl', he'⟩ | ⟨hno', he'⟩
    · rcases Nat.eq_zero_or_pos m' with rfl | hm'
      · have e2 := hs'.2.2.2
        rw [Nat.mul_zero, Nat.zero_add, Nat.sub_zero, Nat.sub_zero] at e2
        have hi := hs'.2.1
        have e1 : sent ov s rows i j = none := by
          cases e : sent ov s rows i j with
          | none => rfl
          | some d => exact absurd ⟨Nat.zero_le _, hi, Nat.zero_le _, (by rw [Nat.mul_zero, Nat.zero_add, Nat.sub_zero, Nat.sub_zero]; exact e)⟩ (hno 0 d)
        rw [he']
        rw [sent] at e1 e2
        cases hc : sheetCell s i j with
        | some c => rw [hc] at e1; cases hd₀ : given rows i j <;> rw [hd₀] at e1 <;> cases e1
        | none =>
          rw [hc] at e2
          cases hd : given rows' i j with
          | none => rw [hd] at e2; cases e2
          | some d₂ =>
            rw [hd] at e2
            simp only at e2
            split at e2
            · cases e2; exact hgiven i j _ hd
            · cases e2
      · exact absurd ((hsame m' d' hm').mp hs') (hno m' d')
    · rw [he', hr]

end

/-! ### Examples -/

/-- 1001 rows of one cell each, all but the last with the text `a`. -/
def longSheet (r r' : Row) : Sheet := ⟨List.replicate 1000 r ++ [r'], false⟩

/-- The first row of the service's sheet shows the last of the 1001 rows, the second one its own, even with `--safe`. -/
example (r r' : Row) (c c' : Cell) (hr : r.cells = [c]) (hr' : r'.cells = [c']) (d : GData) :
    ∃ g, writeGoogle false (0, 0) (longSheet r r') [[d]] = some g ∧ g 0 0 = gNew c' ∧ g 1 0 = gNew c ∧ g 0 1 = {} := by
  have hl : (longSheet r r').rows.length = 1001 := by
    rw [show (longSheet r r').rows = List.replicate 1000 r ++ [r'] from rfl, List.length_append, List.length_replicate]
    rfl
  have hq : ∃ g, writeGoogle false (0, 0) (longSheet r r') [[d]] = some g := by
    rw [writeGoogle, requests]
    simp only
    rw [if_neg, if_pos (by decide)]
    · exact ⟨_, rfl⟩
    · intro he
      have := congrArg List.length he
      rw [rowData_length, hl] at this
      cases this
  obtain ⟨g, hg⟩ := hq
  have at0 : ∀ i j, i < 1000 → sheetCell (longSheet r r') i j = [c][j]? := fun i j hi => by
    rw [sheetCell, show (longSheet r r').rows = List.replicate 1000 r ++ [r'] from rfl,
      List.getElem?_append_left (by rw [List.length_replicate]; exact hi), List.getElem?_replicate_of_lt hi, Option.bind_some, hr]
  have at1 : ∀ j, sheetCell (longSheet r r') 1000 j = [c'][j]? := fun j => by
    rw [sheetCell, show (longSheet r r').rows = List.replicate 1000 r ++ [r'] from rfl,
      List.getElem?_append_right (by rw [List.length_replicate]; exact Nat.le_refl _), List.length_replicate]
    show r'.cells[j]? = _
    rw [hr']
  refine ⟨g, hg, ?_, ?_, ?_⟩
  · rcases C44_exact hg 0 0 with ⟨m, e, hs, hm, he⟩ | ⟨hn, he⟩
    · have hm' := sends_lt hs
      rw [hl] at hm'
      have last : Sends false 0 0 (longSheet r r') [[d]] 0 0 1 (gNew c') := ⟨by omega, by omega, by omega, by
        show sent _ _ _ 1000 0 = _
        rw [sent, at1]; rfl⟩
      rcases (show m = 0 ∨ m = 1 by omega) with rfl | rfl
      · exact absurd last (hm 1 _ (by omega))
      · have e1 := hs.2.2.2
        rw [last.2.2.2, Option.some.injEq] at e1
        rw [he, e1]
    · exact absurd (show Sends false 0 0 (longSheet r r') [[d]] 0 0 1 (gNew c') from ⟨by omega, by omega, by omega, by
        show sent _ _ _ 1000 0 = _
        rw [sent, at1]; rfl⟩) (hn _ _)
  · have own : Sends false 0 0 (longSheet r r') [[d]] 1 0 0 (gNew c) := ⟨by omega, by omega, by omega, by
      show sent _ _ _ 1 0 = _
      rw [sent, at0 1 0 (by omega)]; rfl⟩
    rcases C44_exact hg 1 0 with ⟨m, e, hs, hm, he⟩ | ⟨hn, he⟩
    · have : m = 0 := by
        have h4 := hs.2.2.2
        by_contra h0
        rw [sent_length (by rw [hl]; omega)] at h4
        cases h4
      subst this
      have e1 := hs.2.2.2
      rw [own.2.2.2, Option.some.injEq] at e1
      rw [he, e1]
    · exact absurd own (hn _ _)
  · rcases C44_exact hg 0 1 with ⟨m, e, hs, hm, he⟩ | ⟨hn, he⟩
    · have hm' := sends_lt hs
      rw [hl] at hm'
      have h4 := hs.2.2.2
      rcases (show m = 0 ∨ m = 1 by omega) with rfl | rfl
      · rw [show 1000 * 0 + (0 - 0) = 0 from rfl, sent, at0 _ _ (by omega)] at h4
        cases h4
      · rw [show 1000 * 1 + (0 - 0) = 1000 from rfl, sent, at1] at h4
        cases h4
    · rw [he]; rfl

/-- Written again, the sheet with 1001 rows changes nothing: the hypotheses of C58_google_rows_partial are met. -/
example (r r' : Row) (c c' : Cell) (hr : r.cells = [c]) (hr' : r'.cells = [c']) (d : GData) (ov : Bool) :
    ∃ g rows', writeGoogle ov (0, 0) (longSheet r r') [[d]] = some g ∧ gridOf rows' = g ∧ (∀ i j, given [[d]] i j ≠ none → given rows' i j ≠ none) ∧
      (∀ i j, 1000 ≤ i → given [[d]] i j = none → given rows' i j = none) ∧ writeGoogle ov (0, 0) (longSheet r r') rows' = some g := by
  have hl : (longSheet r r').rows.length = 1001 := by
    rw [show (longSheet r r').rows = List.replicate 1000 r ++ [r'] from rfl, List.length_append, List.length_replicate]
    rfl
  have hq : ∀ rows, ∃ g, writeGoogle ov (0, 0) (longSheet r r') rows = some g := fun rows => by
    rw [writeGoogle, requests]
    simp only
    rw [if_neg, if_pos (by decide)]
    · exact ⟨_, rfl⟩
    · intro he
      have := congrArg List.length he
      rw [rowData_length, hl] at this
      cases this
  have hcell : ∀ i j, 1 ≤ j → sheetCell (longSheet r r') i j = none := fun i j hj => by
    rw [sheetCell]
    cases h : (longSheet r r').rows[i]? with
    | none => rfl
    | some q =>
      have hm : q ∈ List.replicate 1000 r ++ [r'] := List.mem_of_getElem? h
      rw [Option.bind_some]
      have : q.cells.length = 1 := by
        rcases List.mem_append.mp hm with hm | hm
        · rw [(List.mem_replicate.mp hm).2, hr]; rfl
        · rw [List.mem_singleton.mp hm, hr']; rfl
      exact List.getElem?_eq_none (by omega)
  have hgiv : ∀ i j, (1 ≤ i ∨ 1 ≤ j) → given [[d]] i j = none := fun i j h => by
    cases i with
    | zero =>
      cases j with
      | zero => omega
      | succ j => rfl
    | succ i => rfl
  obtain ⟨g, hg⟩ := hq [[d]]
  have hout : ∀ i j, (1000 ≤ i ∨ 1 ≤ j) → g i j = {} := fun i j h => by
    have e : gridOf [[d]] i j = {} := by
      show (given [[d]] i j).getD _ = _
      rw [hgiv i j (by omega)]; rfl
    rcases C44_exact hg i j with ⟨m, e', hs, -, -⟩ | ⟨-, he⟩
    · have hj : 1 ≤ j := by have := hs.2.1; omega
      have h4 := hs.2.2.2
      rw [sent, hcell _ _ (by omega), hgiv _ _ (by omega)] at h4
      cases h4
    · rw [he, e]
  have hrow : ∀ i j, given ((List.range 1000).map fun i => [g i 0]) i j = if i < 1000 ∧ j = 0 then some (g i 0) else none := fun i j => by
    rw [given, List.getElem?_map]
    by_cases hi : i < 1000
    · rw [List.getElem?_range hi]
      cases j with
      | zero => simp [hi]
      | succ j => simp
    · rw [List.getElem?_eq_none (by rw [List.length_range]; omega), if_neg (by omega)]
      rfl
  have h1 : gridOf ((List.range 1000).map fun i => [g i 0]) = g := by
    funext i j
    show (given _ i j).getD _ = _
    rw [hrow]
    split
    · rename_i h; rw [h.2]; rfl
    · rw [hout i j (by omega)]; rfl
  have h2 : ∀ i j, given [[d]] i j ≠ none → given ((List.range 1000).map fun i => [g i 0]) i j ≠ none := fun i j h => by
    rw [hrow, if_pos]
    · simp
    · by_contra hc
      exact h (hgiv i j (by omega))
  have h3 : ∀ i j, 1000 ≤ i → given [[d]] i j = none → given ((List.range 1000).map fun i => [g i 0]) i j = none := fun i j hi _ => by
    rw [hrow, if_neg (by omega)]
  obtain ⟨g', hg'⟩ := hq ((List.range 1000).map fun i => [g i 0])
  exact ⟨g, _, hg, h1, h2, h3, by rw [hg', C58_google_rows_partial hg h1 h2 h3 hg']⟩

end Verif.Target
