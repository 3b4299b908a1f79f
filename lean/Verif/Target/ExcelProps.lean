import Verif.Target.Excel
import Mathlib.Data.List.Basic
/-
What writing to a worksheet does (C40, C41, C57, C58, C62, C63, C69).
-/
namespace Verif.Target
open Verif.Ast Verif.Parser Verif.Cell Verif.Sheet

/-! ### Specification -/

/-- The cell of a worksheet in row `i` and column `j` (from 0). -/
def Worksheet.at (ws : Worksheet) (i j : Nat) : Option XCell := ws.cells (j + 1, i + 1)

/-- The compiled cell in row `i` and column `j` is one that is written: it is there, and the worksheet has none or may be overwritten. -/
def Written (overwrite : Bool) (s : Sheet) (ws : Worksheet) (i j : Nat) (c : Cell) : Prop :=
  sheetCell s i j = some c ∧ (overwrite = true ∨ ws.at i j = none)

/-! ### Lemmas -/

/-- What becomes of a cell. -/
def newCell (ov : Bool) (old : Option XCell) (c : Cell) : Option XCell :=
  if ov = true ∨ old = none then some ⟨setValue (old.bind (·.value)) c, styleOf c⟩ else old

theorem placeCell_eq (ov : Bool) (st : Worksheet × Pending) (x y : Nat) (c : Cell) :
    placeCell ov st x y c =
      if ov = true ∨ st.1.cells (x + 1, y + 1) = none then
        (⟨fun p => if p = (x + 1, y + 1) then some ⟨setValue ((st.1.cells (x + 1, y + 1)).bind (·.value)) c, styleOf c⟩ else st.1.cells p,
          st.1.comments ++ c.opts.note.toList.map fun n => ((x, y), n), st.1.validations⟩,
          st.2 ++ c.opts.validation.toList.map fun v => ((x, y), v))
      else st := by
  rw [placeCell, existingCell]
  cases hx : st.1.cells (x + 1, y + 1) with
  | none => simp [mergeCell]
  | some e => cases ov <;> simp [mergeCell]

theorem placeCell_cells (ov : Bool) (st : Worksheet × Pending) (x y : Nat) (c : Cell) (p : Nat × Nat) :
    (placeCell ov st x y c).1.cells p = if p = (x + 1, y + 1) then newCell ov (st.1.cells p) c else st.1.cells p := by
  rw [placeCell_eq, newCell]
  by_cases hp : p = (x + 1, y + 1)
  · subst hp
    split <;> simp
  · split <;> simp [hp]

theorem placeCells_cells (ov : Bool) (y : Nat) (cs : List Cell) (x : Nat) (st : Worksheet × Pending) (a b : Nat) :
    (placeCells ov y x cs st).1.cells (a + 1, b + 1) =
      if b = y ∧ x ≤ a then (match cs[a - x]? with | some c => newCell ov (st.1.cells (a + 1, b + 1)) c | none => st.1.cells (a + 1, b + 1))
      else st.1.cells (a + 1, b + 1) := by
  induction cs generalizing x st with
  | nil => simp [placeCells]
  | cons c cs ih =>
    rw [placeCells, ih, placeCell_cells]
    by_cases hb : b = y
    · subst hb
      by_cases ha : a = x
      · subst ha
        simp only [Nat.sub_self, List.getElem?_cons_zero, true_and]
        rw [if_neg (by omega)]
        simp
      · by_cases hl : x ≤ a
        · have h1 : x + 1 ≤ a := by omega
          have h2 : a - x = (a - (x + 1)) + 1 := by omega
          simp [hl, h1, h2, ha]
        · have h1 : ¬ x + 1 ≤ a := by omega
          simp [hl, h1, ha]
    · simp [hb]

theorem placeCells_zero (ov : Bool) (y : Nat) (cs : List Cell) (x : Nat) (st : Worksheet × Pending) (p : Nat × Nat) (hp : p.1 = 0 ∨ p.2 = 0) :
    (placeCells ov y x cs st).1.cells p = st.1.cells p := by
  induction cs generalizing x st with
  | nil => rfl
  | cons c cs ih =>
    rw [placeCells, ih, placeCell_cells, if_neg]
    rintro rfl
    simp at hp

theorem placeRows_cells (ov : Bool) (rows : List Row) (y : Nat) (st : Worksheet × Pending) (a b : Nat) :
    (placeRows ov y rows st).1.cells (a + 1, b + 1) =
      if y ≤ b then
        (match (rows[b - y]?).bind (·.cells[a]?) with | some c => newCell ov (st.1.cells (a + 1, b + 1)) c | none => st.1.cells (a + 1, b + 1))
      else st.1.cells (a + 1, b + 1) := by
  induction rows generalizing y st with
  | nil => simp [placeRows]
  | cons r rows ih =>
    rw [placeRows, ih, placeCells_cells]
    by_cases hb : b = y
    · subst hb
      rw [if_neg (by omega), if_pos ⟨rfl, by omega⟩, if_pos (by omega)]
      simp
    · by_cases hl : y ≤ b
      · have h1 : y + 1 ≤ b := by omega
        have h2 : b - y = (b - (y + 1)) + 1 := by omega
        simp [hl, h1, h2, hb]
      · have h1 : ¬ y + 1 ≤ b := by omega
        simp [hl, h1, hb]

theorem placeRows_zero (ov : Bool) (rows : List Row) (y : Nat) (st : Worksheet × Pending) (p : Nat × Nat) (hp : p.1 = 0 ∨ p.2 = 0) :
    (placeRows ov y rows st).1.cells p = st.1.cells p := by
  induction rows generalizing y st with
  | nil => rfl
  | cons r rows ih => rw [placeRows, ih, placeCells_zero _ _ _ _ _ _ hp]

/-- The cells with their coordinates, in the order in which they are visited. -/
def visited : Nat → List Row → List ((Nat × Nat) × Cell)
  | _, [] => []
  | y, r :: rs => (r.cells.zipIdx.map fun p => ((p.2, y), p.1)) ++ visited (y + 1) rs

theorem placeCells_append (ov : Bool) (y : Nat) (cs : List Cell) (x : Nat) (ws : Worksheet) (pd : Pending) :
    ∃ l : List ((Nat × Nat) × Cell), l = ((cs.zipIdx x).map fun p => ((p.2, y), p.1)).filter
        (fun p => ov || (ws.cells (p.1.1 + 1, p.1.2 + 1)).isNone) ∧
      (placeCells ov y x cs (ws, pd)).1.comments = ws.comments ++ l.flatMap (fun p => p.2.opts.note.toList.map fun n => (p.1, n)) ∧
      (placeCells ov y x cs (ws, pd)).2 = pd ++ l.flatMap (fun p => p.2.opts.validation.toList.map fun v => (p.1, v)) ∧
      (placeCells ov y x cs (ws, pd)).1.validations = ws.validations := by
  refine ⟨_, rfl, ?_⟩
  induction cs generalizing x ws pd with
  | nil => simp [placeCells]
  | cons c cs ih =>
    rw [placeCells, placeCell_eq]
    have hfil : ∀ f : Nat × Nat → Option XCell, (∀ p, p ≠ (x + 1, y + 1) → f p = ws.cells p) →
        ((cs.zipIdx (x + 1)).map fun p => ((p.2, y), p.1)).filter (fun p => ov || (f (p.1.1 + 1, p.1.2 + 1)).isNone) =
        ((cs.zipIdx (x + 1)).map fun p => ((p.2, y), p.1)).filter (fun p => ov || (ws.cells (p.1.1 + 1, p.1.2 + 1)).isNone) := by
      intro f hf
      apply List.filter_congr
      intro p hp
      obtain ⟨q, hq, rfl⟩ := List.mem_map.mp hp
      have := (List.mem_zipIdx hq).1
      simp only
      rw [hf]
      intro h
      simp at h
      omega
    rw [List.zipIdx_cons, List.map_cons, List.filter_cons]
    split
    · rename_i h
      have hc : (ov || (ws.cells (x + 1, y + 1)).isNone) = true := by
        rcases h with rfl | h
        · rfl
        · simp only at h; simp [h]
      have ⟨h1, h2, h3⟩ := ih (x + 1) ⟨fun p => if p = (x + 1, y + 1) then some ⟨setValue ((ws.cells (x + 1, y + 1)).bind (·.value)) c, styleOf c⟩ else ws.cells p,
          ws.comments ++ c.opts.note.toList.map fun n => ((x, y), n), ws.validations⟩ (pd ++ c.opts.validation.toList.map fun v => ((x, y), v))
      rw [hfil _ (fun p hp => by simp [hp])] at h1 h2
      rw [h1, h2, h3]
      simp [hc]
    · rename_i h
      have hc : (ov || (ws.cells (x + 1, y + 1)).isNone) = false := by
        simp only [not_or] at h
        cases ov
        · simpa [Option.isSome_iff_ne_none] using h.2
        · exact absurd rfl h.1
      have ⟨h1, h2, h3⟩ := ih (x + 1) ws pd
      rw [h1, h2, h3]
      simp [hc]

theorem visited_ge {p : (Nat × Nat) × Cell} {y : Nat} {rows : List Row} (h : p ∈ visited y rows) : y ≤ p.1.2 := by
  induction rows generalizing y with
  | nil => simp [visited] at h
  | cons r rows ih =>
    rw [visited, List.mem_append, List.mem_map] at h
    rcases h with ⟨a, _, rfl⟩ | h
    · exact Nat.le_refl _
    · exact Nat.le_of_succ_le (ih h)

theorem placeRows_append (ov : Bool) (rows : List Row) (y : Nat) (ws : Worksheet) (pd : Pending) :
    ∃ l : List ((Nat × Nat) × Cell), l = (visited y rows).filter (fun p => ov || (ws.cells (p.1.1 + 1, p.1.2 + 1)).isNone) ∧
      (placeRows ov y rows (ws, pd)).1.comments = ws.comments ++ l.flatMap (fun p => p.2.opts.note.toList.map fun n => (p.1, n)) ∧
      (placeRows ov y rows (ws, pd)).2 = pd ++ l.flatMap (fun p => p.2.opts.validation.toList.map fun v => (p.1, v)) ∧
      (placeRows ov y rows (ws, pd)).1.validations = ws.validations := by
  refine ⟨_, rfl, ?_⟩
  induction rows generalizing y ws pd with
  | nil => simp [placeRows, visited]
  | cons r rows ih =>
    rw [placeRows, visited, List.filter_append]
    obtain ⟨l, hl, h1, h2, h3⟩ := placeCells_append ov y r.cells 0 ws pd
    have hfil : ((visited (y + 1) rows).filter fun p => ov || ((placeCells ov y 0 r.cells (ws, pd)).1.cells (p.1.1 + 1, p.1.2 + 1)).isNone) =
        (visited (y + 1) rows).filter fun p => ov || (ws.cells (p.1.1 + 1, p.1.2 + 1)).isNone := by
      apply List.filter_congr
      intro p hp
      rw [placeCells_cells, if_neg]
      have := visited_ge hp
      omega
    have ⟨e1, e2, e3⟩ := ih (y + 1) (placeCells ov y 0 r.cells (ws, pd)).1 (placeCells ov y 0 r.cells (ws, pd)).2
    rw [hfil] at e1 e2
    rw [e1, e2, e3, h1, h2, h3, hl]
    simp [List.flatMap_append]

theorem mem_visited {i j : Nat} {c : Cell} {y : Nat} {rows : List Row} :
    ((j, i), c) ∈ visited y rows ↔ y ≤ i ∧ (rows[i - y]?).bind (·.cells[j]?) = some c := by
  induction rows generalizing y with
  | nil => simp [visited]
  | cons r rows ih =>
    rw [visited, List.mem_append, ih, List.mem_map]
    have : (∃ a : Cell × Nat, a ∈ r.cells.zipIdx ∧ ((a.2, y), a.1) = ((j, i), c)) ↔ y = i ∧ r.cells[j]? = some c := by
      constructor
      · rintro ⟨⟨a, k⟩, ha, he⟩
        simp only [Prod.mk.injEq] at he
        obtain ⟨⟨rfl, rfl⟩, rfl⟩ := he
        exact ⟨rfl, by simpa [List.mem_zipIdx_iff_getElem?] using ha⟩
      · rintro ⟨rfl, h⟩
        exact ⟨(c, j), by simpa [List.mem_zipIdx_iff_getElem?] using h, rfl⟩
    rw [this]
    by_cases h : y = i
    · subst h
      simp
      omega
    · by_cases hl : y ≤ i
      · have h1 : y + 1 ≤ i := by omega
        have h2 : i - y = (i - (y + 1)) + 1 := by omega
        simp [h, hl, h1, h2]
      · have h1 : ¬ y + 1 ≤ i := by omega
        simp [h, hl, h1]

theorem build_cells {den : Text → DateVal} {ov : Bool} {s : Sheet} {ws ws' : Worksheet} (h : buildWorksheet den ov s ws = some ws') :
    ws'.cells = (placeRows ov 0 s.rows (ws, [])).1.cells ∧ ws'.comments = (placeRows ov 0 s.rows (ws, [])).1.comments := by
  simp only [buildWorksheet] at h
  split at h
  · cases h; exact ⟨rfl, rfl⟩
  · obtain ⟨rules, _, rfl⟩ := Option.map_eq_some_iff.mp h
    exact ⟨rfl, rfl⟩

theorem build_at {den : Text → DateVal} {ov : Bool} {s : Sheet} {ws ws' : Worksheet} (h : buildWorksheet den ov s ws = some ws') (i j : Nat) :
    ws'.at i j = match sheetCell s i j with
      | some c => newCell ov (ws.at i j) c
      | none => ws.at i j := by
  rw [Worksheet.at, (build_cells h).1, placeRows_cells, if_pos (Nat.zero_le _), Nat.sub_zero]
  rfl

theorem mem_written {ov : Bool} {s : Sheet} {ws : Worksheet} {i j : Nat} {c : Cell} :
    ((j, i), c) ∈ (visited 0 s.rows).filter (fun p => ov || (ws.cells (p.1.1 + 1, p.1.2 + 1)).isNone) ↔ Written ov s ws i j c := by
  rw [List.mem_filter, mem_visited, Written, Worksheet.at, sheetCell]
  simp

theorem build_comments {den : Text → DateVal} {ov : Bool} {s : Sheet} {ws ws' : Worksheet} (h : buildWorksheet den ov s ws = some ws') :
    ws'.comments = ws.comments ++ ((visited 0 s.rows).filter (fun p => ov || (ws.cells (p.1.1 + 1, p.1.2 + 1)).isNone)).flatMap
      (fun p => p.2.opts.note.toList.map fun n => (p.1, n)) := by
  obtain ⟨l, rfl, h1, _, _⟩ := placeRows_append ov s.rows 0 ws []
  rw [(build_cells h).2, h1]

theorem mem_pending {ov : Bool} {s : Sheet} {ws : Worksheet} {i j : Nat} {v : Validation} :
    ((j, i), v) ∈ (placeRows ov 0 s.rows (ws, [])).2 ↔ ∃ c, Written ov s ws i j c ∧ c.opts.validation = some v := by
  obtain ⟨l, hl, _, h2, _⟩ := placeRows_append ov s.rows 0 ws []
  rw [h2, List.nil_append, List.mem_flatMap]
  constructor
  · rintro ⟨⟨p, c⟩, hp, hv⟩
    simp only [List.mem_map, Option.mem_toList, Prod.mk.injEq] at hv
    obtain ⟨v', hv, hp', rfl⟩ := hv
    subst hp'
    rw [hl] at hp
    exact ⟨c, mem_written.mp hp, hv⟩
  · rintro ⟨c, hw, hv⟩
    refine ⟨((j, i), c), hl ▸ mem_written.mpr hw, ?_⟩
    simp [hv]

theorem mem_mapM {α β : Type} {f : α → Option β} {l : List α} {rs : List β} (h : l.mapM f = some rs) {r : β} :
    r ∈ rs ↔ ∃ a ∈ l, f a = some r := by
  induction l generalizing rs with
  | nil => rw [List.mapM_nil] at h; cases h; simp
  | cons a l ih =>
    rw [List.mapM_cons] at h
    cases hf : f a with
    | none => rw [hf] at h; cases h
    | some b =>
      rw [hf] at h
      cases hm : l.mapM f with
      | none => rw [hm] at h; cases h
      | some bs =>
        rw [hm] at h
        cases h
        rw [List.mem_cons, ih hm]
        simp [hf, eq_comm]

theorem mapM_none {α β : Type} {f : α → Option β} {l : List α} : l.mapM f = none ↔ ∃ a ∈ l, f a = none := by
  induction l with
  | nil => rw [List.mapM_nil]; simp
  | cons a l ih =>
    rw [List.mapM_cons]
    cases hf : f a with
    | none => simp [hf]
    | some b =>
      simp only [List.mem_cons, exists_eq_or_imp, hf, reduceCtorEq, false_or, ← ih]
      cases hm : l.mapM f <;> simp

/-! ### Theorems about cells -/

section
variable {den : Text → DateVal} {ov : Bool} {s : Sheet} {ws ws' : Worksheet}

/-- C40 (Excel): with `--safe`, a cell that the worksheet has stays as it is, with its format. -/
theorem C40_excel_safe (h : buildWorksheet den false s ws = some ws') {i j : Nat} {e : XCell} (he : ws.at i j = some e) :
    ws'.at i j = some e := by
  rw [build_at h, he]
  cases sheetCell s i j <;> simp [newCell]

/-- C40 (Excel): a compiled cell is written if the worksheet has none there or `--safe` is not given: its format is that of the compiled cell, and so
is its value if it has one. -/
theorem C40_excel_written (h : buildWorksheet den ov s ws = some ws') {i j : Nat} {c : Cell} (hw : Written ov s ws i j c) :
    ∃ e, ws'.at i j = some e ∧ e.style = styleOf c ∧
      (∀ a, c.ast = some a → (e.value = some (.formula (display a)) ∨
        (∃ b, a = .bool b ∧ e.value = some (.bool b)) ∨ (∃ t, a = .text t ∧ e.value = some (.text t)) ∨
        (∃ n, a = .int false none n ∧ e.value = some (.int n)) ∨ (∃ t, a = .float false none t ∧ e.value = some (.float t)))) ∧
      (c.ast = none → c.value ≠ [] → e.value = some (.text c.value)) := by
  obtain ⟨hc, ho⟩ := hw
  rw [build_at h, hc]
  refine ⟨⟨setValue ((ws.at i j).bind (·.value)) c, styleOf c⟩, by simp [newCell, ho], rfl, ?_, ?_⟩
  · intro a ha
    simp only [setValue, ha]
    split <;> simp
  · intro ha hv
    simp only [setValue, ha, if_neg hv]

/-- C41 (Excel): a cell where the compiled sheet has none stays as it is. -/
theorem C41_excel (h : buildWorksheet den ov s ws = some ws') :
    (∀ i j, sheetCell s i j = none → ws'.at i j = ws.at i j) ∧ ∀ p, (p.1 = 0 ∨ p.2 = 0) → ws'.cells p = ws.cells p := by
  constructor
  · intro i j hc
    rw [build_at h, hc]
  · intro p hp
    rw [(build_cells h).1, placeRows_zero _ _ _ _ _ hp]

/-- C57 (Excel): a compiled cell without a text or formula leaves the value as it is. -/
theorem C57_excel (h : buildWorksheet den ov s ws = some ws') {i j : Nat} {c : Cell} (hc : sheetCell s i j = some c) (ha : c.ast = none)
    (hv : c.value = []) : (ws'.at i j).bind (·.value) = (ws.at i j).bind (·.value) := by
  rw [build_at h, hc]
  simp only [newCell]
  split
  · simp [setValue, ha, hv]
  · rfl

/-- But its format is replaced by that of the compiled cell, even if no option was given. -/
theorem C57_excel_format_violated (h : buildWorksheet den true s ws = some ws') {i j : Nat} {c : Cell} (hc : sheetCell s i j = some c) :
    (ws'.at i j).map (·.style) = some (styleOf c) := by
  rw [build_at h, hc]
  simp [newCell]

/-! ### Notes and validations -/

/-- C63 is false: the note of the cell in row `i` and column `j` is put at the cell above and to the left of it: at `(j, i)`, when the cell
is at `(j + 1, i + 1)`. -/
theorem C63_violated (h : buildWorksheet den ov s ws = some ws') {p : Nat × Nat} {n : Text} :
    (p, n) ∈ ws'.comments ↔ (p, n) ∈ ws.comments ∨ ∃ c, Written ov s ws p.2 p.1 c ∧ c.opts.note = some n := by
  rw [build_comments h, List.mem_append, List.mem_flatMap]
  apply or_congr Iff.rfl
  constructor
  · rintro ⟨⟨q, c⟩, hq, hn⟩
    simp only [List.mem_map, Option.mem_toList, Prod.mk.injEq] at hn
    obtain ⟨n', hn, hq', rfl⟩ := hn
    subst hq'
    exact ⟨c, mem_written.mp hq, hn⟩
  · rintro ⟨c, hw, hn⟩
    exact ⟨(p, c), mem_written.mpr hw, by simp [hn]⟩

/-- C63 is false: in a new worksheet, a note is attached to its cell only if the cell below and to the right of it has the same note. -/
theorem C63_violated_new (h : buildWorksheet den ov s blankSheet = some ws') {i j : Nat} {n : Text} :
    ((j + 1, i + 1), n) ∈ ws'.comments ↔ ∃ c, sheetCell s (i + 1) (j + 1) = some c ∧ c.opts.note = some n := by
  rw [C63_violated h]
  simp [blankSheet, Written, Worksheet.at]

/-- C62 is false: as soon as a cell with a validation is written, all validations that the worksheet had are gone: what is left are those of the
written cells. -/
theorem C62_violated (h : buildWorksheet den ov s ws = some ws') (hv : ∃ i j c, Written ov s ws i j c ∧ c.opts.validation ≠ none) (r : XRule) :
    r ∈ ws'.validations ↔ ∃ i j c v, Written ov s ws i j c ∧ c.opts.validation = some v ∧ excelRule den j i v = some r := by
  obtain ⟨i0, j0, c0, hw0, hv0⟩ := hv
  obtain ⟨v0, hv0⟩ := Option.ne_none_iff_exists'.mp hv0
  have hne : (placeRows ov 0 s.rows (ws, [])).2 ≠ [] := List.ne_nil_of_mem (mem_pending.mpr ⟨c0, hw0, hv0⟩)
  simp only [buildWorksheet, if_neg hne] at h
  obtain ⟨rules, hr, rfl⟩ := Option.map_eq_some_iff.mp h
  rw [mem_mapM hr]
  constructor
  · rintro ⟨⟨⟨j, i⟩, v⟩, hp, he⟩
    obtain ⟨c, hw, hv⟩ := mem_pending.mp hp
    exact ⟨i, j, c, v, hw, hv, he⟩
  · rintro ⟨i, j, c, v, hw, hv, he⟩
    exact ⟨((j, i), v), mem_pending.mpr ⟨c, hw, hv⟩, he⟩

/-- C62, the part that holds: the validations of the worksheet are kept if no cell with a validation is written. -/
theorem C62_kept_partial (h : buildWorksheet den ov s ws = some ws') (hv : ∀ i j c, Written ov s ws i j c → c.opts.validation = none) :
    ws'.validations = ws.validations := by
  have hn : (placeRows ov 0 s.rows (ws, [])).2 = [] := by
    rw [List.eq_nil_iff_forall_not_mem]
    rintro ⟨⟨j, i⟩, v⟩ hp
    obtain ⟨c, hw, hv'⟩ := mem_pending.mp hp
    rw [hv i j c hw] at hv'
    cases hv'
  simp only [buildWorksheet, if_pos hn] at h
  cases h
  obtain ⟨l, hl, _, _, h3⟩ := placeRows_append ov s.rows 0 ws []
  exact h3

/-! ### Writing again -/

/-- C58 (Excel), the part that holds: writing the same sheet again changes no cell. -/
theorem C58_excel_cells {ws'' : Worksheet} (h : buildWorksheet den ov s ws = some ws') (h' : buildWorksheet den ov s ws' = some ws'') :
    ws''.cells = ws'.cells := by
  funext ⟨a, b⟩
  rcases a with _ | a
  · exact (C41_excel h').2 _ (.inl rfl)
  · rcases b with _ | b
    · exact (C41_excel h').2 _ (.inr rfl)
    · show ws''.at b a = ws'.at b a
      rw [build_at h', build_at h]
      cases hc : sheetCell s b a with
      | none => rfl
      | some c =>
        simp only
        cases ov
        · cases ho : ws.at b a <;> simp [newCell]
        · simp only [newCell, true_or, if_true, Option.bind_some]
          congr 2
          simp only [setValue]
          cases c.ast with
          | none => by_cases hv : c.value = [] <;> simp [hv]
          | some x => rfl

/-- C58 (Excel): with `--safe`, writing the same sheet again changes nothing. -/
theorem C58_excel_safe (h : buildWorksheet den false s ws = some ws') : buildWorksheet den false s ws' = some ws' := by
  have hw : ∀ i j c, ¬ Written false s ws' i j c := by
    rintro i j c ⟨hc, ho | ho⟩
    · cases ho
    · rw [build_at h, hc] at ho
      simp only [newCell, Bool.false_eq_true, false_or] at ho
      split at ho
      · cases ho
      · exact absurd ho (by assumption)
  have hl : (visited 0 s.rows).filter (fun p => false || (ws'.cells (p.1.1 + 1, p.1.2 + 1)).isNone) = [] := by
    rw [List.eq_nil_iff_forall_not_mem]
    rintro ⟨⟨j, i⟩, c⟩ hp
    exact hw i j c (mem_written.mp hp)
  obtain ⟨l, rfl, h1, h2, h3⟩ := placeRows_append false s.rows 0 ws' []
  rw [hl] at h1 h2
  have hp : (placeRows false 0 s.rows (ws', [])).2 = [] := by rw [h2]; rfl
  have hb : buildWorksheet den false s ws' = some (placeRows false 0 s.rows (ws', [])).1 := by
    simp only [buildWorksheet, if_pos hp]
  rw [hb]
  have hcells := C58_excel_cells h hb
  revert hcells h1 h3
  cases hws : (placeRows false 0 s.rows (ws', [])).1
  cases ws'
  intro h1 h3 hcells
  simp at hcells h1 h3
  subst hcells h1 h3
  rfl

/-- C58 (Excel) is false without `--safe`: all notes are added once more each time. -/
theorem C58_excel_violated {ws'' : Worksheet} (h : buildWorksheet den true s ws = some ws') (h' : buildWorksheet den true s ws' = some ws'')
    {i j : Nat} {c : Cell} (hc : sheetCell s i j = some c) {n : Text} (hn : c.opts.note = some n) :
    ws''.comments.count ((j, i), n) = ws'.comments.count ((j, i), n) + (ws'.comments.count ((j, i), n) - ws.comments.count ((j, i), n)) ∧
    ws'.comments.count ((j, i), n) < ws''.comments.count ((j, i), n) := by
  rw [build_comments h', build_comments h]
  simp only [Bool.true_or, List.count_append]
  have hm : ((j, i), n) ∈ ((visited 0 s.rows).filter fun _ => true).flatMap (fun p => p.2.opts.note.toList.map fun n => (p.1, n)) := by
    rw [List.mem_flatMap]
    exact ⟨((j, i), c), List.mem_filter.mpr ⟨mem_visited.mpr ⟨Nat.zero_le _, hc⟩, rfl⟩, by simp [hn]⟩
  have := List.count_pos_iff.mpr hm
  omega

end

/-! ### Workbooks -/

theorem changeSheet_other {f : Worksheet → Option Worksheet} {name : Text} {wb wb' : Workbook} (h : changeSheet f name wb = some wb') {n : Text}
    (hn : n ≠ name) : sheetNamed wb' n = sheetNamed wb n := by
  induction wb generalizing wb' with
  | nil => cases h
  | cons p wb ih =>
    obtain ⟨m, ws⟩ := p
    rw [changeSheet] at h
    split at h
    · rename_i hm
      obtain ⟨ws', _, rfl⟩ := Option.map_eq_some_iff.mp h
      have : ¬ m = n := fun e => hn (e.symm.trans hm)
      simp [sheetNamed, this]
    · obtain ⟨wb1, h1, rfl⟩ := Option.map_eq_some_iff.mp h
      have := ih h1
      simp only [sheetNamed, List.find?_cons] at this ⊢
      split <;> simp_all

theorem changeSheet_same {f : Worksheet → Option Worksheet} {name : Text} {wb wb' : Workbook} (h : changeSheet f name wb = some wb') :
    ∃ ws ws', sheetNamed wb name = some ws ∧ f ws = some ws' ∧ sheetNamed wb' name = some ws' := by
  induction wb generalizing wb' with
  | nil => cases h
  | cons p wb ih =>
    obtain ⟨m, ws⟩ := p
    rw [changeSheet] at h
    split at h
    · rename_i hm
      obtain ⟨ws', hf, rfl⟩ := Option.map_eq_some_iff.mp h
      exact ⟨ws, ws', by simp [sheetNamed, hm], hf, by simp [sheetNamed, hm]⟩
    · rename_i hm
      obtain ⟨wb1, h1, rfl⟩ := Option.map_eq_some_iff.mp h
      obtain ⟨w, w', e1, e2, e3⟩ := ih h1
      refine ⟨w, w', ?_, e2, ?_⟩
      · simpa [sheetNamed, List.find?_cons, hm] using e1
      · simpa [sheetNamed, List.find?_cons, hm] using e3

/-- C69: writing changes only the worksheet of the given name, which is made if there is none; no other worksheet is changed, removed or added. -/
theorem C69_worksheets {den : Text → DateVal} {ov : Bool} {name : Text} {s : Sheet} {file : Option Workbook} {wb' : Workbook}
    (h : writeExcel den ov name s file = some wb') :
    (∃ ws', sheetNamed wb' name = some ws' ∧ buildWorksheet den ov s ((sheetNamed (file.getD []) name).getD blankSheet) = some ws') ∧
    ∀ n, n ≠ name → sheetNamed wb' n = sheetNamed (file.getD []) n := by
  rw [writeExcel] at h
  constructor
  · obtain ⟨ws, ws', h1, h2, h3⟩ := changeSheet_same h
    refine ⟨ws', h3, ?_⟩
    have : (sheetNamed (file.getD []) name).getD blankSheet = ws := by
      rw [createWorksheet] at h1
      cases hs : sheetNamed (file.getD []) name with
      | some w => simp only [hs] at h1; cases h1; rfl
      | none =>
        rw [hs] at h1
        rw [sheetNamed, Option.map_eq_none_iff] at hs
        simp only [sheetNamed] at h1
        rw [List.find?_append, hs] at h1
        simpa using h1
    rw [this]; exact h2
  · intro n hn
    rw [changeSheet_other h hn, createWorksheet]
    cases hs : sheetNamed (file.getD []) name with
    | some w => rfl
    | none =>
      have : ¬ name = n := fun e => hn e.symm
      simp [sheetNamed, this]

end Verif.Target
