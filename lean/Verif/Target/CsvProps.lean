import Verif.Target.Model
/-
What writing to a CSV file does (C40, C41, C42, C57, C58).
-/
namespace Verif.Target
open Verif.Cell Verif.Sheet

/-! ### Specification -/

/-- The rows of a CSV file that may not be there. -/
def rowsOf (file : Option Text) : List (List Text) :=
  match file with
  | none => []
  | some s => csvRead s

/-- The cell in row `i` and column `j`; beyond the end of a row or of the file it is empty. -/
def cellAt (rows : List (List Text)) (i j : Nat) : Text := (((rows[i]?).getD [])[j]?).getD []

/-- The compiled cell in row `i` and column `j`. -/
def sheetCell (s : Sheet) (i j : Nat) : Option Cell := (s.rows[i]?).bind (·.cells[j]?)

/-- The part of a sheet that is written: its rows, and the columns of its widest row. -/
def InSheet (s : Sheet) (i j : Nat) : Prop := i < s.rows.length ∧ ∃ r ∈ s.rows, j < r.cells.length

/-! ### Lemmas -/

theorem foldl_max_le (l : List Nat) (a m : Nat) : l.foldl max a ≤ m ↔ a ≤ m ∧ ∀ x ∈ l, x ≤ m := by
  induction l generalizing a with
  | nil => simp
  | cons x l ih => rw [List.foldl_cons, ih]; simp [Nat.max_le, and_assoc]

theorem lt_widest {s : Sheet} {j : Nat} : j < widestRow s ↔ ∃ r ∈ s.rows, j < r.cells.length := by
  rw [widestRow, ← not_iff_not, Nat.not_lt, foldl_max_le]
  simp

theorem outputRow_length (ov : Bool) (w : Nat) (ex : List (Existing Text)) (r : Row) : (outputRow ov w ex r).length = w := by
  rw [outputRow, resize, List.length_append, List.length_take, List.length_replicate]
  omega

theorem resize_at (l : List Text) (n j : Nat) (h : j < n) : (resize n l)[j]? = some ((l[j]?).getD []) := by
  rw [resize, List.getElem?_append]
  split
  · rename_i h'
    rw [List.length_take] at h'
    have : j < l.length := by omega
    rw [List.getElem?_take, if_pos h, List.getElem?_eq_getElem this, Option.getD_some]
  · rename_i h'
    rw [List.length_take] at h'
    have h2 : l.length ≤ j := by omega
    rw [List.getElem?_eq_none h2, List.getElem?_replicate, if_pos (by rw [List.length_take]; omega)]
    rfl

theorem mergeRows_at {V : Type} (ov : Bool) (ex : List (Existing V)) (cs : List Cell) (j : Nat) :
    ((mergeRows ov ex cs)[j]?).getD .empty = mergeCell ov ((ex[j]?).getD .empty) cs[j]? := by
  rw [mergeRows, List.getElem?_map]
  by_cases h : j < max ex.length cs.length
  · rw [List.getElem?_range h]; rfl
  · have h1 : ex.length ≤ j := by omega
    have h2 : cs.length ≤ j := by omega
    rw [List.getElem?_eq_none (by simp; omega), List.getElem?_eq_none h1, List.getElem?_eq_none h2]
    rfl

theorem outputRow_at (ov : Bool) (w : Nat) (ex : List (Existing Text)) (r : Row) (j : Nat) (h : j < w) :
    (outputRow ov w ex r)[j]? = some (mergedText (mergeCell ov ((ex[j]?).getD .empty) r.cells[j]?)) := by
  rw [outputRow, resize_at _ _ _ h, List.getElem?_map, ← mergeRows_at]
  cases (mergeRows ov ex r.cells)[j]? <;> rfl

theorem outputRows_at (ov : Bool) (w : Nat) (ex : List (List (Existing Text))) (rows : List Row) (k i : Nat) :
    (outputRows ov w ex k rows)[i]? = (rows[i]?).map fun r => outputRow ov w ((ex[k + i]?).getD []) r := by
  induction rows generalizing k i with
  | nil => rfl
  | cons r rows ih =>
    rw [outputRows]
    cases i with
    | zero => rfl
    | succ i =>
      rw [List.getElem?_cons_succ, List.getElem?_cons_succ, ih]
      have : k + 1 + i = k + (i + 1) := by omega
      rw [this]

theorem outputRows_length (ov : Bool) (w : Nat) (ex : List (List (Existing Text))) (rows : List Row) (k : Nat) :
    (outputRows ov w ex k rows).length = rows.length := by
  induction rows generalizing k with
  | nil => rfl
  | cons r rows ih => rw [outputRows, List.length_cons, List.length_cons, ih]

/-- What an existing cell is taken to be. -/
theorem existing_at (file : Option Text) (i j : Nat) :
    ((((readExisting file)[i]?).getD [])[j]?).getD .empty =
      if cellAt (rowsOf file) i j = [] then .empty else .value (cellAt (rowsOf file) i j) := by
  have h : readExisting file = (rowsOf file).map existingRow := by cases file <;> rfl
  rw [h, List.getElem?_map, cellAt]
  cases (rowsOf file)[i]? with
  | none => rfl
  | some r =>
    simp only [Option.map_some, Option.getD_some, existingRow, List.getElem?_map]
    cases r[j]? with
    | none => rfl
    | some c => simp only [Option.map_some, Option.getD_some]

theorem cellAt_pad (rows : List (List Text)) (i j : Nat) : cellAt (rows.map fun r => if r = [] then [[]] else r) i j = cellAt rows i j := by
  rw [cellAt, cellAt, List.getElem?_map]
  cases rows[i]? with
  | none => rfl
  | some r =>
    simp only [Option.map_some, Option.getD_some]
    split
    · rename_i h; subst h; cases j <;> rfl
    · rfl

/-- The cells of the records that are written. -/
theorem output_at (ov : Bool) (s : Sheet) (file : Option Text) (i j : Nat) (h : InSheet s i j) :
    cellAt (outputRows ov (widestRow s) (readExisting file) 0 s.rows) i j =
      match sheetCell s i j with
      | some c => if ov = true ∨ cellAt (rowsOf file) i j = [] then c.display else cellAt (rowsOf file) i j
      | none => cellAt (rowsOf file) i j := by
  obtain ⟨hi, hj⟩ := h
  rw [cellAt, outputRows_at, List.getElem?_eq_getElem hi, Option.map_some, Option.getD_some,
    outputRow_at _ _ _ _ _ (lt_widest.mpr hj), Option.getD_some, Nat.zero_add, existing_at, sheetCell, List.getElem?_eq_getElem hi,
    Option.bind_some]
  cases s.rows[i].cells[j]? with
  | none =>
    by_cases hc : cellAt (rowsOf file) i j = []
    · rw [if_pos hc, hc]; rfl
    · simp only [if_neg hc, mergeCell, mergedText]
  | some c =>
    by_cases hc : cellAt (rowsOf file) i j = []
    · rw [if_pos hc]; simp [mergeCell, mergedText, hc]
    · cases ov <;> simp [hc, mergeCell, mergedText]

theorem output_outside (ov : Bool) (s : Sheet) (file : Option Text) (i j : Nat) (h : ¬ InSheet s i j) :
    cellAt (outputRows ov (widestRow s) (readExisting file) 0 s.rows) i j = [] := by
  rw [cellAt, outputRows_at]
  by_cases hi : i < s.rows.length
  · have hj : ¬ j < widestRow s := fun hj => h ⟨hi, lt_widest.mp hj⟩
    rw [List.getElem?_eq_getElem hi, Option.map_some, Option.getD_some, List.getElem?_eq_none (by rw [outputRow_length]; omega)]
    rfl
  · rw [List.getElem?_eq_none (l := s.rows) (by omega)]; rfl

/-- The new file does not begin with a byte order mark (which would be skipped when it is read). -/
def NoBom (ov : Bool) (s : Sheet) (file : Option Text) : Prop := (writeCsv ov s file).head? ≠ some bom

theorem new_at {ov : Bool} {s : Sheet} {file : Option Text} (hb : NoBom ov s file) (i j : Nat) :
    cellAt (csvRead (writeCsv ov s file)) i j = cellAt (outputRows ov (widestRow s) (readExisting file) 0 s.rows) i j := by
  rw [writeCsv, read_write _ hb, cellAt_pad]

/-! ### Theorems -/

/-- C40 (CSV): with `--safe` (`overwrite = false`), a nonempty cell of the file in the written part keeps its text. -/
theorem C40_csv_safe {s : Sheet} {file : Option Text} (hb : NoBom false s file) {i j : Nat} (h : InSheet s i j)
    (ho : cellAt (rowsOf file) i j ≠ []) : cellAt (csvRead (writeCsv false s file)) i j = cellAt (rowsOf file) i j := by
  rw [new_at hb, output_at _ _ _ _ _ h]
  cases sheetCell s i j with
  | none => rfl
  | some c => simp [ho]

/-- C40 (CSV): with `--safe`, the compiled cells appear where the file was empty. -/
theorem C40_csv_fills {s : Sheet} {file : Option Text} (hb : NoBom false s file) {i j : Nat} {c : Cell} (hc : sheetCell s i j = some c)
    (ho : cellAt (rowsOf file) i j = []) : cellAt (csvRead (writeCsv false s file)) i j = c.display := by
  have h : InSheet s i j := by
    rw [sheetCell, Option.bind_eq_some_iff] at hc
    obtain ⟨r, hr, hc⟩ := hc
    exact ⟨(List.getElem?_eq_some_iff.mp hr).1, r, List.mem_of_getElem? hr, (List.getElem?_eq_some_iff.mp hc).1⟩
  rw [new_at hb, output_at _ _ _ _ _ h, hc]
  simp [ho]

/-- C40 (CSV): without `--safe`, every compiled cell is written. -/
theorem C40_csv_overwrite {s : Sheet} {file : Option Text} (hb : NoBom true s file) {i j : Nat} {c : Cell} (hc : sheetCell s i j = some c) :
    cellAt (csvRead (writeCsv true s file)) i j = c.display := by
  have h : InSheet s i j := by
    rw [sheetCell, Option.bind_eq_some_iff] at hc
    obtain ⟨r, hr, hc⟩ := hc
    exact ⟨(List.getElem?_eq_some_iff.mp hr).1, r, List.mem_of_getElem? hr, (List.getElem?_eq_some_iff.mp hc).1⟩
  rw [new_at hb, output_at _ _ _ _ _ h, hc]
  simp

/-- C41, the part that holds: in the written part, a cell that the compiled sheet does not have is kept. -/
theorem C41_kept_partial {ov : Bool} {s : Sheet} {file : Option Text} (hb : NoBom ov s file) {i j : Nat} (h : InSheet s i j)
    (hc : sheetCell s i j = none) : cellAt (csvRead (writeCsv ov s file)) i j = cellAt (rowsOf file) i j := by
  rw [new_at hb, output_at _ _ _ _ _ h, hc]

/-- C41 is false: every existing cell below the last compiled row or to the right of the widest one is lost. -/
theorem C41_violated {ov : Bool} {s : Sheet} {file : Option Text} (hb : NoBom ov s file) {i j : Nat} (h : ¬ InSheet s i j) :
    cellAt (csvRead (writeCsv ov s file)) i j = [] := by
  rw [new_at hb, output_outside _ _ _ _ _ h]

/-- C41: with `--safe` a nonempty cell of the file survives exactly if it is in the written part. -/
theorem C41_safe_iff {s : Sheet} {file : Option Text} (hb : NoBom false s file) {i j : Nat} (ho : cellAt (rowsOf file) i j ≠ []) :
    cellAt (csvRead (writeCsv false s file)) i j = cellAt (rowsOf file) i j ↔ InSheet s i j := by
  constructor
  · intro h
    by_contra hn
    rw [C41_violated hb hn] at h
    exact ho h.symm
  · intro h; exact C40_csv_safe hb h ho

/-- C42: there are as many rows in the new file as compiled rows, and each is as wide as the widest compiled row (a sheet
without columns is written as rows of one empty cell). -/
theorem C42_rectangular {ov : Bool} {s : Sheet} {file : Option Text} (hb : NoBom ov s file) :
    (csvRead (writeCsv ov s file)).length = s.rows.length ∧
    ∀ r ∈ csvRead (writeCsv ov s file), (∀ r' ∈ s.rows, r'.cells.length ≤ r.length) ∧ (r.length = 1 ∨ ∃ r' ∈ s.rows, r'.cells.length = r.length) := by
  rw [writeCsv, read_write _ hb]
  constructor
  · rw [List.length_map, outputRows_length]
  · intro r hr
    obtain ⟨r0, hr0, rfl⟩ := List.mem_map.mp hr
    obtain ⟨i, hi⟩ := List.mem_iff_getElem?.mp hr0
    rw [outputRows_at, Option.map_eq_some_iff] at hi
    obtain ⟨row, hrow, rfl⟩ := hi
    have hle : ∀ r' ∈ s.rows, r'.cells.length ≤ widestRow s := by
      intro r' hr'
      by_contra hn
      have := lt_widest.mpr ⟨r', hr', Nat.lt_of_not_le hn⟩
      omega
    split
    · rename_i h
      have hw : widestRow s = 0 := by
        have := outputRow_length ov (widestRow s) (((readExisting file)[0 + i]?).getD []) row
        rw [h] at this; exact this.symm
      exact ⟨fun r' hr' => by have := hle r' hr'; omega, .inl rfl⟩
    · rw [outputRow_length]
      refine ⟨hle, ?_⟩
      by_cases hw : widestRow s = 0
      · right
        have hm := List.mem_of_getElem? hrow
        exact ⟨row, hm, by have := hle row hm; omega⟩
      · right
        obtain ⟨r', hr', h'⟩ := lt_widest.mp (show widestRow s - 1 < widestRow s by omega)
        exact ⟨r', hr', by have := hle r' hr'; omega⟩

/-- C57 is false: without `--safe`, a compiled cell without a text erases what was in the file. -/
theorem C57_violated {s : Sheet} {file : Option Text} (hb : NoBom true s file) {i j : Nat} {c : Cell} (hc : sheetCell s i j = some c)
    (ha : c.ast = none) (hv : c.value = []) : cellAt (csvRead (writeCsv true s file)) i j = [] := by
  rw [C40_csv_overwrite hb hc, Cell.display, ha, hv]

theorem ext_rows {a b : List (List Text)} {w : Nat} (hl : a.length = b.length) (ha : ∀ r ∈ a, r.length = w) (hb : ∀ r ∈ b, r.length = w)
    (h : ∀ i j, i < a.length → j < w → cellAt a i j = cellAt b i j) : a = b := by
  apply List.ext_getElem hl
  intro i h1 h2
  have e1 := ha _ (List.getElem_mem h1)
  have e2 := hb _ (List.getElem_mem h2)
  apply List.ext_getElem (by rw [e1, e2])
  intro j h3 h4
  have := h i j h1 (by omega)
  rw [cellAt, cellAt, List.getElem?_eq_getElem h1, List.getElem?_eq_getElem h2, Option.getD_some, Option.getD_some,
    List.getElem?_eq_getElem h3, List.getElem?_eq_getElem h4, Option.getD_some, Option.getD_some] at this
  exact this

theorem outputRows_width {ov : Bool} {w : Nat} {ex : List (List (Existing Text))} {k : Nat} {rows : List Row} :
    ∀ r ∈ outputRows ov w ex k rows, r.length = w := by
  intro r hr
  obtain ⟨i, hi⟩ := List.mem_iff_getElem?.mp hr
  rw [outputRows_at, Option.map_eq_some_iff] at hi
  obtain ⟨row, _, rfl⟩ := hi
  exact outputRow_length _ _ _ _

/-- C58: writing the same sheet to a file again changes nothing. -/
theorem C58_idempotent {ov : Bool} {s : Sheet} {file : Option Text} (hb : NoBom ov s file) :
    writeCsv ov s (some (writeCsv ov s file)) = writeCsv ov s file := by
  have key : outputRows ov (widestRow s) (readExisting (some (writeCsv ov s file))) 0 s.rows =
      outputRows ov (widestRow s) (readExisting file) 0 s.rows := by
    apply ext_rows (w := widestRow s) (by rw [outputRows_length, outputRows_length]) outputRows_width outputRows_width
    intro i j hi hj
    rw [outputRows_length] at hi
    have h : InSheet s i j := ⟨hi, lt_widest.mp hj⟩
    rw [output_at _ _ _ _ _ h, output_at _ _ _ _ _ h]
    have : cellAt (rowsOf (some (writeCsv ov s file))) i j = _ := new_at hb i j
    rw [this, output_at _ _ _ _ _ h]
    cases sheetCell s i j with
    | none => rfl
    | some c =>
      cases ov
      · simp only [Bool.false_eq_true, false_or]
        by_cases ho : cellAt (rowsOf file) i j = []
        · simp only [ho, if_true]
          split <;> rfl
        · simp only [ho, if_false]
      · simp
  show csvWrite _ = csvWrite _
  rw [key]

/-- A sheet with a row of one cell with a text and a row of two empty cells. -/
def exSheet : Sheet := ⟨[⟨{}, none, [⟨none, ⟨⟨0, 0⟩, [], []⟩, ['a'], {}⟩]⟩,
  ⟨{}, none, [⟨none, ⟨⟨0, 0⟩, [], []⟩, [], {}⟩, ⟨none, ⟨⟨0, 0⟩, [], []⟩, [], {}⟩]⟩], true⟩

/-- A file with three rows and three columns. -/
def exFile : Option Text := some "p,q,r\ns,,\nt,u,\"v,w\"\n".toList

example : rowsOf exFile = [[['p'], ['q'], ['r']], [['s'], [], []], [['t'], ['u'], ['v', ',', 'w']]] := by decide

/-- The hypotheses of the theorems hold, for both modes, and the outcomes differ. -/
example : NoBom true exSheet exFile ∧ NoBom false exSheet exFile ∧
    csvRead (writeCsv true exSheet exFile) = [[['a'], ['q']], [[], []]] ∧
    csvRead (writeCsv false exSheet exFile) = [[['p'], ['q']], [['s'], []]] := by
  refine ⟨by unfold NoBom; decide, by unfold NoBom; decide, by decide, by decide⟩

/-- A cell to which `C57_violated` applies: `s` is erased; and one to which `C41_violated` does: `r` is lost. -/
example : (∃ c, sheetCell exSheet 1 0 = some c ∧ c.ast = none ∧ c.value = []) ∧ cellAt (rowsOf exFile) 1 0 = ['s'] ∧
    ¬ InSheet exSheet 0 2 ∧ cellAt (rowsOf exFile) 0 2 = ['r'] := by
  refine ⟨⟨_, rfl, rfl, rfl⟩, by decide, ?_, by decide⟩
  rintro ⟨_, h⟩
  rw [← lt_widest] at h
  revert h
  decide

end Verif.Target
