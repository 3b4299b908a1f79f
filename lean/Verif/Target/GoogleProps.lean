import Verif.Target.Google
import Mathlib.Tactic.Tauto
/-
What is written to Google Sheets (C40, C41, C44, C61, C64, C65, C66).
-/
namespace Verif.Target
open Verif.Ast Verif.Parser Verif.Cell Verif.Sheet

/-! ### Lemmas -/

/-- The cell that the service returned, if it did. -/
def given (rows : List (List GData)) (i j : Nat) : Option GData := (rows[i]?).bind (·[j]?)

/-- What is sent for row `i` and column `j` of the compiled sheet. -/
def sent (ov : Bool) (s : Sheet) (rows : List (List GData)) (i j : Nat) : Option GData :=
  match sheetCell s i j, given rows i j with
  | some c, some d => some (if ov then gNew c else d)
  | some c, none => some (gNew c)
  | none, some d => if i < s.rows.length then some d else none
  | none, none => none

theorem rowData_at (ov : Bool) (ex : List (List (Existing GData))) (rows : List Row) (k i : Nat) :
    (rowData ov ex k rows)[i]? = (rows[i]?).map fun r => (mergeRows ov ((ex[k + i]?).getD []) r.cells).map cellData := by
  induction rows generalizing k i with
  | nil => rfl
  | cons r rows ih =>
    rw [rowData]
    cases i with
    | zero => rfl
    | succ i =>
      rw [List.getElem?_cons_succ, List.getElem?_cons_succ, ih]
      have : k + 1 + i = k + (i + 1) := by omega
      rw [this]

theorem rowData_length (ov : Bool) (ex : List (List (Existing GData))) (rows : List Row) (k : Nat) : (rowData ov ex k rows).length = rows.length := by
  induction rows generalizing k with
  | nil => rfl
  | cons r rows ih => rw [rowData, List.length_cons, List.length_cons, ih]

theorem rowData_sent (ov : Bool) (s : Sheet) (rows : List (List GData)) (i j : Nat) :
    ((rowData ov (readGoogle rows) 0 s.rows)[i]?).bind (·[j]?) = sent ov s rows i j := by
  rw [rowData_at, Nat.zero_add, sent, sheetCell, given]
  cases hr : s.rows[i]? with
  | none =>
    have : s.rows.length ≤ i := List.getElem?_eq_none_iff.mp hr
    simp only [Option.map_none, Option.bind_none]
    split <;> simp_all
  | some r =>
    have hi : i < s.rows.length := (List.getElem?_eq_some_iff.mp hr).1
    simp only [Option.map_some, Option.bind_some, List.getElem?_map, if_pos hi]
    have hex : (((readGoogle rows)[i]?).getD [])[j]? = (given rows i j).map .value := by
      rw [readGoogle, List.getElem?_map, given]
      cases rows[i]? with
      | none => rfl
      | some er => simp
    rw [mergeRows, List.getElem?_map]
    have hlen : j < max (((readGoogle rows)[i]?).getD []).length r.cells.length ↔ given rows i j ≠ none ∨ r.cells[j]? ≠ none := by
      have h1 : j < (((readGoogle rows)[i]?).getD []).length ↔ given rows i j ≠ none := by
        rw [← not_iff_not, Nat.not_lt, ← List.getElem?_eq_none_iff, hex]
        cases given rows i j <;> simp
      have h2 : j < r.cells.length ↔ r.cells[j]? ≠ none := by
        rw [← not_iff_not, Nat.not_lt, ← List.getElem?_eq_none_iff]
        simp
      rw [← h1, ← h2]
      omega
    by_cases hj : j < max (((readGoogle rows)[i]?).getD []).length r.cells.length
    · rw [List.getElem?_range hj]
      simp only [Option.map_some, hex]
      have := hlen.mp hj
      show some (cellData (mergeCell ov (((given rows i j).map Existing.value).getD .empty) r.cells[j]?)) = _
      have hgiven : (rows[i]?.bind fun x => x[j]?) = given rows i j := rfl
      rw [hgiven]
      cases hg : given rows i j with
      | none =>
        cases hc : r.cells[j]? with
        | none => simp [hg, hc] at this
        | some c => simp [mergeCell, cellData]
      | some d =>
        cases hc : r.cells[j]? with
        | none => simp [mergeCell, cellData]
        | some c => cases ov <;> simp [mergeCell, cellData]
    · rw [List.getElem?_eq_none (l := List.range _) (by rw [List.length_range]; omega)]
      have : given rows i j = none ∧ r.cells[j]? = none := by
        have := mt hlen.mpr hj
        simpa using this
      have hgiven : (rows[i]?.bind fun x => x[j]?) = given rows i j := rfl
      rw [hgiven, this.1, this.2]
      rfl

theorem sent_length {ov : Bool} {s : Sheet} {rows : List (List GData)} {i j : Nat} (h : s.rows.length ≤ i) : sent ov s rows i j = none := by
  rw [← rowData_sent, List.getElem?_eq_none (by rw [rowData_length]; exact h)]
  rfl

theorem chunk_at {α : Type} (n : Nat) (l : List α) (k i : Nat) : ((l.drop (k * n)).take n)[i]? = if i < n then l[k * n + i]? else none := by
  rw [List.getElem?_take]
  split
  · rw [List.getElem?_drop]
  · rfl

theorem apply_at (r : Request) (g : GSheet) (i j : Nat) :
    r.apply g (r.row + i) (r.column + j) = ((r.rows[i]?).bind (·[j]?)).getD (g (r.row + i) (r.column + j)) := by
  rw [Request.apply, if_pos ⟨by omega, by omega⟩]
  have h1 : r.row + i - r.row = i := by omega
  have h2 : r.column + j - r.column = j := by omega
  rw [h1, h2]
  cases (r.rows[i]?).bind (·[j]?) <;> rfl

theorem apply_outside (r : Request) (g : GSheet) (i j : Nat) (h : i < r.row ∨ j < r.column) : r.apply g i j = g i j := by
  rw [Request.apply, if_neg (by omega)]

/-- The requests one after the other, when all begin at the same place. -/
theorem fold_at (x y : Nat) (rs : List (List (List GData))) (g : GSheet) (i j : Nat) (h : ∀ r ∈ rs, (r[i]?).bind (·[j]?) = none) :
    (rs.map fun r => (⟨x, y, r⟩ : Request)).foldl (fun g r => r.apply g) g (x + i) (y + j) = g (x + i) (y + j) := by
  induction rs generalizing g with
  | nil => rfl
  | cons r rs ih =>
    rw [List.map_cons, List.foldl_cons, ih _ (fun r' hr' => h r' (List.mem_cons_of_mem _ hr'))]
    rw [apply_at ⟨x, y, r⟩ g i j]
    simp only
    rw [h r (by simp)]
    rfl

theorem fold_outside (x y : Nat) (rs : List (List (List GData))) (g : GSheet) (i j : Nat) (h : i < x ∨ j < y) :
    (rs.map fun r => (⟨x, y, r⟩ : Request)).foldl (fun g r => r.apply g) g i j = g i j := by
  induction rs generalizing g with
  | nil => rfl
  | cons r rs ih =>
    rw [List.map_cons, List.foldl_cons, ih]
    exact apply_outside ⟨x, y, r⟩ g i j h

section
variable {ov : Bool} {x y : Nat} {s : Sheet} {rows : List (List GData)} {g : GSheet}

theorem write_eq (h : writeGoogle ov (x, y) s rows = some g) :
    g = ((chunks 1000 (rowData ov (readGoogle rows) 0 s.rows)).map fun r => (⟨x, y, r⟩ : Request)).foldl (fun g r => r.apply g) (gridOf rows) := by
  obtain ⟨rs, hr, rfl⟩ := Option.map_eq_some_iff.mp h
  simp only [requests] at hr
  split at hr
  · rename_i he
    cases hr
    rw [he]
    rfl
  · split at hr
    · cases hr; rfl
    · cases hr

theorem outside (h : writeGoogle ov (x, y) s rows = some g) {i j : Nat} (ho : i < x ∨ j < y) : g i j = gridOf rows i j := by
  rw [write_eq h, fold_outside _ _ _ _ _ _ ho]

/-- Up to 1000 rows there is one request. -/
theorem at_small (h : writeGoogle ov (x, y) s rows = some g) (hs : s.rows.length ≤ 1000) (i j : Nat) :
    g (x + i) (y + j) = (sent ov s rows i j).getD (gridOf rows (x + i) (y + j)) := by
  rw [write_eq h, chunks, rowData_length]
  by_cases h0 : s.rows.length = 0
  · have : (s.rows.length + (1000 - 1)) / 1000 = 0 := by omega
    rw [this, sent_length (by omega)]
    rfl
  · have : (s.rows.length + (1000 - 1)) / 1000 = 1 := by omega
    rw [this]
    show (Request.mk x y _).apply _ _ _ = _
    rw [apply_at ⟨x, y, _⟩]
    simp only
    rw [chunk_at, Nat.zero_mul, Nat.zero_add]
    split
    · rw [rowData_sent]
    · rw [sent_length (by omega)]
      rfl

/-! ### Theorems -/

/-- C44, the part that holds: if both offsets are the same and there are at most 1000 rows, then (without `--safe`) the compiled cell in row `i` and
column `j` is written at `offset + (i, j)`. -/
theorem C44_partial {n : Nat} (h : writeGoogle true (n, n) s rows = some g) (hs : s.rows.length ≤ 1000) {i j : Nat} {c : Cell}
    (hc : sheetCell s i j = some c) : g (n + i) (n + j) = gNew c := by
  rw [at_small h hs, sent, hc]
  cases given rows i j <;> rfl

/-- C44 is false: the offsets are swapped: with `--x-offset x --y-offset y` the cells are moved down by `x` rows and to the right by `y` columns. -/
theorem C44_violated_offsets (h : writeGoogle true (x, y) s rows = some g) (hs : s.rows.length ≤ 1000) {i j : Nat} {c : Cell}
    (hc : sheetCell s i j = some c) : g (x + i) (y + j) = gNew c := by
  rw [at_small h hs, sent, hc]
  cases given rows i j <;> rfl

/-- C44 is false: from the 1001st row on, nothing is written where it should be. -/
theorem C44_violated_chunks (h : writeGoogle ov (x, y) s rows = some g) {i j : Nat} (hi : 1000 ≤ i) : g (x + i) j = gridOf rows (x + i) j := by
  by_cases hj : j < y
  · exact outside h (.inr hj)
  · obtain ⟨k, rfl⟩ := Nat.le.dest (Nat.le_of_not_lt hj)
    rw [write_eq h, fold_at]
    intro r hr
    obtain ⟨m, _, rfl⟩ := List.mem_map.mp hr
    rw [chunk_at, if_neg (by omega)]
    rfl

/-- C44 is false: what is written instead: the rows of the last thousand replace the first ones. -/
theorem C44_violated_first (h : writeGoogle ov (x, y) s rows = some g) {m i j : Nat} (hm : 1000 * m < s.rows.length)
    (hm' : s.rows.length ≤ 1000 * (m + 1)) (hi : i < 1000) {d : GData} (hd : sent ov s rows (1000 * m + i) j = some d) :
    g (x + i) (y + j) = d := by
  rw [write_eq h, chunks, rowData_length]
  have : (s.rows.length + (1000 - 1)) / 1000 = m + 1 := by omega
  rw [this, List.range_succ, List.map_append, List.map_append, List.foldl_append]
  show (Request.mk x y _).apply _ _ _ = _
  rw [apply_at ⟨x, y, _⟩]
  simp only
  have e : ((rowData ov (readGoogle rows) 0 s.rows)[m * 1000 + i]?).bind (·[j]?) = some d := by
    rw [rowData_sent, Nat.mul_comm, hd]
  rw [chunk_at, if_pos hi, e]
  rfl

/-- C40 (Google Sheets), the part that holds: with `--safe`, without offsets and with at most 1000 rows, no cell that the service returned is changed. -/
theorem C40_google_safe_partial (h : writeGoogle false (0, 0) s rows = some g) (hs : s.rows.length ≤ 1000) {i j : Nat} {d : GData}
    (hd : given rows i j = some d) : g i j = d := by
  have := at_small h hs i j
  rw [Nat.zero_add, Nat.zero_add] at this
  rw [this, sent, hd]
  have : gridOf rows i j = d := by show (given rows i j).getD _ = _; rw [hd]; rfl
  cases sheetCell s i j with
  | some c => rfl
  | none => simp only; split <;> simp [this]

/-- C40 (Google Sheets) is false: with `--safe` a cell that is empty is not written if the service returned it (as it does for those left of a cell with a
value, and those with a format). -/
theorem C40_google_violated (h : writeGoogle false (0, 0) s rows = some g) (hs : s.rows.length ≤ 1000) {i j : Nat} (hd : given rows i j = some {}) :
    (g i j).value = none ∧ (g i j).note = none := by
  rw [C40_google_safe_partial h hs hd]
  exact ⟨rfl, rfl⟩

/-- C40 (Google Sheets) is false: even with `--safe`, a cell that the service returned is replaced if there are more than 1000 rows. -/
theorem C40_google_violated_chunks (h : writeGoogle false (0, 0) s rows = some g) {m i j : Nat} (hm : 1000 * m < s.rows.length)
    (hm' : s.rows.length ≤ 1000 * (m + 1)) (hi : i < 1000) {c : Cell} (hc : sheetCell s (1000 * m + i) j = some c)
    (hg : given rows (1000 * m + i) j = none) : g i j = gNew c := by
  have := C44_violated_first h (i := i) (j := j) (d := gNew c) hm hm' hi (by rw [sent, hc, hg])
  rwa [Nat.zero_add, Nat.zero_add] at this

/-- C41 (Google Sheets), the part that holds: without offsets and with at most 1000 rows, the cells that the compiled sheet does not have are kept. -/
theorem C41_google_partial (h : writeGoogle ov (0, 0) s rows = some g) (hs : s.rows.length ≤ 1000) {i j : Nat} (hc : sheetCell s i j = none) :
    g i j = gridOf rows i j := by
  have := at_small h hs i j
  rw [Nat.zero_add, Nat.zero_add] at this
  rw [this, sent, hc]
  cases hd : given rows i j with
  | none => rfl
  | some d =>
    have : gridOf rows i j = d := by show (given rows i j).getD _ = _; rw [hd]; rfl
    simp only
    split <;> simp [this]

/-- C41 (Google Sheets) is false with an offset: what is in row `i` and column `j` is copied over the cell at the offset, with or without `--safe`. -/
theorem C41_google_violated (h : writeGoogle ov (x, y) s rows = some g) (hs : s.rows.length ≤ 1000) {i j : Nat} (hi : i < s.rows.length) {d : GData}
    (hd : given rows i j = some d) (hc : sheetCell s i j = none) : g (x + i) (y + j) = d := by
  rw [at_small h hs, sent, hc, hd]
  simp [hi]

/-- An offset that is too large is a panic. -/
theorem C44_panics (hx : 2 ^ 31 ≤ x ∨ 2 ^ 31 ≤ y) (hs : s.rows ≠ []) : writeGoogle ov (x, y) s rows = none := by
  simp only [writeGoogle, requests, Option.map_eq_none_iff]
  rw [if_neg, if_neg (by omega)]
  intro he
  have := congrArg List.length he
  rw [rowData_length] at this
  exact hs (List.length_eq_zero_iff.mp this)

end

/-! ### Values and formats -/

/-- C61 (Google Sheets): a formula that is a literal becomes a value of its type, and any other formula a formula with the text of the CSV output. -/
theorem C61_google_formula {c : Cell} {a : Ast} (ha : c.ast = some a) :
    ∃ v, (gNew c).value = some v ∧
      (∀ b, a = .bool b → v = .bool b) ∧ (∀ t, a = .text t → v = .text t) ∧ (∀ n, a = .int false none n → v = .int n) ∧
      (∀ t, a = .float false none t → v = .float t) ∧
      ((∀ b, a ≠ .bool b) → (∀ t, a ≠ .text t) → (∀ n, a ≠ .int false none n) → (∀ t, a ≠ .float false none t) → v = .formula c.display) := by
  simp only [gNew, gValue, ha, Cell.display, displayFormula]
  split <;> simp_all

/-- C61 is false: whatever a cell without formula contains, be it a number, becomes a text. -/
theorem C61_google_violated {c : Cell} (ha : c.ast = none) (hv : c.value ≠ []) : (gNew c).value = some (.text c.value) := by
  simp [gNew, gValue, ha, hv]

/-- C64 (Google Sheets), the part that holds: a side has a border exactly if that side is given. -/
theorem C64_google_partial {o : Opts} :
    ((gBorders o).bind (·.left) = if o.borders .left then some ⟨gBorderStyle o.borderStyle, o.borderColor⟩ else none) ∧
    ((gBorders o).bind (·.right) = if o.borders .right then some ⟨gBorderStyle o.borderStyle, o.borderColor⟩ else none) ∧
    ((gBorders o).bind (·.top) = if o.borders .top then some ⟨gBorderStyle o.borderStyle, o.borderColor⟩ else none) ∧
    ((gBorders o).bind (·.bottom) = if o.borders .bottom then some ⟨gBorderStyle o.borderStyle, o.borderColor⟩ else none) := by
  simp only [gBorders, gSide]
  split
  · rename_i h
    simp [h]
  · exact ⟨rfl, rfl, rfl, rfl⟩

/-- C64 (Google Sheets) is false: the border on all sides is drawn on none. -/
theorem C64_google_violated {o : Opts} (h : ∀ s, o.borders s = true ↔ s = .all) : gBorders o = some ⟨none, none, none, none⟩ := by
  have h1 := h .all
  have h2 := h .left
  have h3 := h .right
  have h4 := h .top
  have h5 := h .bottom
  simp at h1 h2 h3 h4 h5
  simp [gBorders, gSide, h1, h2, h3, h4, h5]

/-- C65 is false: without the option `lock`, what is written is the same. -/
theorem C65_google_violated (c : Cell) (b : Bool) : gNew { c with opts := { c.opts with lock := b } } = gNew c := rfl

/-! ### Values that the service knows -/

/-- The horizontal alignments of the service. -/
def apiHAlign : List String := ["LEFT", "CENTER", "RIGHT"]
/-- The vertical alignments of the service. -/
def apiVAlign : List String := ["TOP", "MIDDLE", "BOTTOM"]
/-- The ways to wrap of the service. -/
def apiWrap : List String := ["OVERFLOW_CELL", "LEGACY_WRAP", "CLIP", "WRAP"]
/-- The kinds of number formats of the service. -/
def apiNumFmt : List String := ["TEXT", "NUMBER", "PERCENT", "CURRENCY", "DATE", "TIME", "DATE_TIME", "SCIENTIFIC"]
/-- The styles of borders of the service. -/
def apiBorder : List String := ["DOTTED", "DASHED", "SOLID", "SOLID_MEDIUM", "SOLID_THICK", "NONE", "DOUBLE"]
/-- The conditions of the service. -/
def apiCond : List String := ["NUMBER_GREATER", "NUMBER_GREATER_THAN_EQ", "NUMBER_LESS", "NUMBER_LESS_THAN_EQ", "NUMBER_EQ", "NUMBER_NOT_EQ",
  "NUMBER_BETWEEN", "NUMBER_NOT_BETWEEN", "TEXT_CONTAINS", "TEXT_NOT_CONTAINS", "TEXT_STARTS_WITH", "TEXT_ENDS_WITH", "TEXT_EQ", "TEXT_IS_EMAIL",
  "TEXT_IS_URL", "DATE_EQ", "DATE_BEFORE", "DATE_AFTER", "DATE_ON_OR_BEFORE", "DATE_ON_OR_AFTER", "DATE_BETWEEN", "DATE_NOT_BETWEEN", "DATE_IS_VALID",
  "ONE_OF_RANGE", "ONE_OF_LIST", "BLANK", "NOT_BLANK", "CUSTOM_FORMULA", "BOOLEAN", "TEXT_NOT_EQ", "DATE_NOT_EQ", "FILTER_EXPRESSION"]

/-- A text is one of those names. -/
def isOne (l : List String) (t : Text) : Prop := t ∈ l.map String.toList

instance (l : List String) (t : Text) : Decidable (isOne l t) := inferInstanceAs (Decidable (t ∈ _))

theorem isOne_iff (l : List String) (s : String) : isOne l s.toList ↔ s ∈ l := by
  rw [isOne, List.mem_map]
  constructor
  · rintro ⟨a, ha, he⟩
    exact String.toList_inj.mp he ▸ ha
  · intro h; exact ⟨s, h, rfl⟩

/-- C66, the part that holds: vertical alignments, number formats and border styles have names that the service knows. -/
theorem C66_partial (v : VAlign) (n : NumFmt) (b : BorderStyle) :
    isOne apiVAlign (gVAlign v) ∧ isOne apiNumFmt (gNumFmt n) ∧ isOne apiBorder (gBorderStyle b) := by
  cases v <;> cases n <;> cases b <;> decide

/-- C66 is false: the horizontal alignment of a cell is one that the service knows exactly if it is not centred (which is the default). -/
theorem C66_violated_alignment (c : Cell) : (∀ f, (gNew c).format = some f → isOne apiHAlign f.halign) ↔ c.opts.halign ≠ .center := by
  simp only [gNew, Option.some.injEq, gFormat]
  constructor
  · intro h hc
    have := h _ rfl
    simp only [hc] at this
    revert this
    decide
  · rintro h f rfl
    cases hc : c.opts.halign
    · exact absurd hc h
    · simp only [hc]; decide
    · simp only [hc]; decide

/-- C66 is false: the way to wrap is one that the service knows exactly if it is not `overflow`. -/
theorem C66_violated_wrap (c : Cell) : (∀ f, (gNew c).format = some f → isOne apiWrap f.wrap) ↔ c.opts.wrap ≠ .overflow := by
  simp only [gNew, Option.some.injEq, gFormat]
  constructor
  · intro h hc
    have := h _ rfl
    simp only [hc] at this
    revert this
    decide
  · rintro h f rfl
    cases hc : c.opts.wrap
    · simp only [hc]; decide
    · exact absurd hc h
    · simp only [hc]; decide

/-- C66 is false: these are the only validations with a condition that the service knows. -/
theorem C66_violated_conditions (v : Validation) : isOne apiCond (gCond v).type ↔
    (∃ d, v = .dateAfter d ∨ v = .dateBefore d ∨ v = .dateOnOrAfter d ∨ v = .dateOnOrBefore d) ∨
    (∃ d e, v = .dateBetween d e ∨ v = .dateNotBetween d e) ∨ (∃ m n, v = .numberBetween m n ∨ v = .numberNotBetween m n) ∨
    ∃ t, v = .textContains t := by
  rw [gCond, isOne_iff]
  cases v
  case dateAfter | dateBefore | dateOnOrAfter | dateOnOrBefore | dateBetween | dateNotBetween | numberBetween | numberNotBetween | textContains =>
    exact iff_of_true (by simp [gCondName, apiCond]) (by simp)
  all_goals exact iff_of_false (by simp [gCondName, apiCond]) (by simp)

/-! ### Cases that meet the hypotheses -/

/-- A sheet of 1001 rows of one cell. -/
def exLong : Sheet := ⟨(List.range 1001).map fun i => ⟨{}, none, [⟨none, ⟨⟨0, 0⟩, [], []⟩, natText i, {}⟩]⟩, true⟩

/-- Row 0 of `exLong` is overwritten by row 1000. -/
example : ∃ g, writeGoogle true (0, 0) exLong [] = some g ∧ (g 0 0).value = some (.text (natText 1000)) ∧ g 1000 0 = {} := by
  have h : ∃ g, writeGoogle true (0, 0) exLong [] = some g := by
    have hr : ∃ rs, requests true (0, 0) exLong [] = some rs := by
      simp only [requests]
      by_cases he : rowData true (readGoogle []) 0 exLong.rows = []
      · exact ⟨_, if_pos he⟩
      · exact ⟨_, by rw [if_neg he, if_pos (by decide)]⟩
    obtain ⟨rs, hr⟩ := hr
    exact ⟨_, by rw [writeGoogle, hr]; rfl⟩
  obtain ⟨g, hg⟩ := h
  have hl : exLong.rows.length = 1001 := by simp [exLong]
  refine ⟨g, hg, ?_, ?_⟩
  · have := C44_violated_first hg (m := 1) (i := 0) (j := 0) (by omega) (by omega) (by omega) (d := gNew ⟨none, ⟨⟨0, 0⟩, [], []⟩, natText 1000, {}⟩) (by
      have : sheetCell exLong 1000 0 = some ⟨none, ⟨⟨0, 0⟩, [], []⟩, natText 1000, {}⟩ := by
        simp [sheetCell, exLong]
      rw [sent]
      simp only [Nat.mul_one, Nat.add_zero, this]
      rfl)
    rw [this]
    have : natText 1000 ≠ [] := by decide +kernel
    simp [gNew, gValue, this]
  · exact C44_violated_chunks hg (i := 1000) (j := 0) (by omega)

/-- A sheet of two rows and offsets 1 (columns) and 0 (rows): it is moved by one row instead of one column. -/
example : ∃ g, writeGoogle true (1, 0) exSheet [[{ value := some (.int 5) }]] = some g ∧ (g 0 0).value = some (.int 5) ∧ (g 1 0).value = some (.text ['a']) ∧
    (g 0 1).value = none := ⟨_, rfl, by decide, by decide, by decide⟩

/-- With `--safe`: the blank cell A1 is not written, and A2 is. -/
example : ∃ g, writeGoogle false (0, 0) exSheet [[{}, { value := some (.int 5) }]] = some g ∧ (g 0 0).value = none ∧ (g 0 1).value = some (.int 5) ∧
    sheetCell exSheet 0 0 ≠ none ∧ (g 1 0).format ≠ none := ⟨_, rfl, by decide, by decide, by simp [sheetCell, exSheet], by decide⟩

end Verif.Target
