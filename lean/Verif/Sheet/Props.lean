import Verif.Sheet.Spec
import Mathlib.Tactic.Common
/-
C23-C27: fills and cell variables.
-/
namespace Verif.Sheet
open Verif.Ast Verif.Cell

/-! ## C25 -/

theorem multipleInfinite_iff (saw : Bool) (rows : List Row) :
    multipleInfinite saw rows = true ↔ 2 ≤ (if saw then 1 else 0) + (rows.filter (fun r => decide (Unbounded r))).length := by
  induction rows generalizing saw with
  | nil => cases saw <;> simp [multipleInfinite]
  | cons r rs ih =>
    rw [multipleInfinite]
    split
    · rename_i y hy
      have hu : Unbounded r := ⟨y, hy⟩
      rw [List.filter_cons_of_pos (by simpa using hu), List.length_cons]
      cases saw with
      | true => simp only [if_true, true_iff]; omega
      | false => simp only [Bool.false_eq_true, if_false, ih, if_true]; omega
    · rename_i h
      have hu : ¬ Unbounded r := fun ⟨y, hy⟩ => h y hy
      rw [List.filter_cons_of_neg (by simpa using hu), ih]

/-- C25: expanding is rejected exactly when there are two or more unbounded fills. -/
theorem C25_rejected_iff (rows : List Row) :
    evalFills ⟨rows, false⟩ = none ↔ 2 ≤ (rows.filter (fun r => decide (Unbounded r))).length := by
  have := multipleInfinite_iff false rows
  simp only [Bool.false_eq_true, if_false, Nat.zero_add] at this
  rw [← this, evalFills]
  simp only [Bool.false_eq_true, if_false]
  split <;> simp_all

/-! ## C27 -/

/-- C27: an expanded sheet is left alone, and what expansion gives is expanded. -/
theorem C27_idempotent (s s' : Sheet) (h : evalFills s = some s') : evalFills s' = some s' := by
  rw [evalFills] at h
  split at h
  · rename_i he; cases h; rw [evalFills, if_pos he]
  · split at h
    · cases h
    · cases h; rfl

/-! ## C24 -/

theorem foldl_add (f : Row → Nat) (rows : List Row) (a : Nat) :
    rows.foldl (fun acc r => acc + f r) a = a + (rows.map f).sum := by
  induction rows generalizing a with
  | nil => simp
  | cons r rs ih => simp [ih]; omega

theorem rowsLeftOver_eq (rows : List Row) : rowsLeftOver rows = 1000 - bounded rows := by
  rw [rowsLeftOver, foldl_add, Nat.zero_add, bounded]
  have : rowCount = boundedCopies := by
    funext r
    unfold boundedCopies rowCount
    rcases r.fill with _ | ⟨_ | n, y⟩ <;> rfl
  rw [this]; rfl

theorem expandLoop_at (rows : List Row) (n : Nat) (before : List Row) (r : Row) (after : List Row) :
    expandLoop (rowsLeftOver rows) n (before ++ r :: after) =
      expandLoop (rowsLeftOver rows) n before ++
        (List.replicate (copies rows r) (placed (n + total rows before) r) ++
          expandLoop (rowsLeftOver rows) (n + total rows before + copies rows r) after) := by
  have head : ∀ n, ∀ r : Row, ∀ rs, expandLoop (rowsLeftOver rows) n (r :: rs) =
      List.replicate (copies rows r) (placed n r) ++ expandLoop (rowsLeftOver rows) (n + copies rows r) rs := by
    intro n r rs
    rw [expandLoop]
    rcases hf : r.fill with _ | ⟨a, y⟩
    · have hu : ¬ Unbounded r := fun ⟨y, hy⟩ => by rw [hf] at hy; cases hy
      have hp : placed n r = r := by rw [placed, hf]; cases r; cases hf; rfl
      simp [copies, hu, boundedCopies, hf, hp]
    · have hp : placed n r = { r with fill := some ⟨a, n⟩ } := by rw [placed, hf]; rfl
      cases a with
      | none =>
        have hu : Unbounded r := ⟨y, hf⟩
        simp [copies, hu, Fill.cloneToRow, rowsLeftOver_eq, hp]
      | some k =>
        have hu : ¬ Unbounded r := fun ⟨y, hy⟩ => by rw [hf] at hy; cases hy
        simp [copies, hu, boundedCopies, hf, Fill.cloneToRow, hp]
  induction before generalizing n with
  | nil => simp [expandLoop, total, head]
  | cons b bs ih =>
    rw [List.cons_append, head, ih, head n b bs, List.append_assoc]
    congr 2
    simp only [total, List.map_cons, List.sum_cons]
    rw [Nat.add_assoc n]

theorem expandLoop_length (rows : List Row) (n : Nat) (part : List Row) :
    (expandLoop (rowsLeftOver rows) n part).length = total rows part := by
  induction part generalizing n with
  | nil => rfl
  | cons r rs ih =>
    have := expandLoop_at rows n [] r rs
    rw [List.nil_append] at this
    rw [this]
    simp [expandLoop, total, ih]

/-- C24: the rows of the expanded sheet are, for the rows of the sheet in order, their copies one after
the other: the number of rows is the sum of the copies, and the copies of a row start after those of the
rows before it and are the row itself with its fill starting there. -/
theorem C24_rows (rows : List Row) (s' : Sheet) (h : evalFills ⟨rows, false⟩ = some s') :
    s'.rows.length = total rows rows ∧
    ∀ before r after, rows = before ++ r :: after → ∀ i, i < copies rows r →
      s'.rows[total rows before + i]? = some (placed (total rows before) r) := by
  rw [evalFills] at h
  simp only [Bool.false_eq_true, if_false] at h
  split at h
  · cases h
  · cases h
    refine ⟨expandLoop_length rows 0 rows, fun before r after he i hi => ?_⟩
    have := expandLoop_at rows 0 before r after
    rw [← he, Nat.zero_add] at this
    rw [this, List.getElem?_append_right (by rw [expandLoop_length]; omega), expandLoop_length,
      Nat.add_sub_cancel_left, List.getElem?_append_left (by simpa using hi), List.getElem?_replicate, if_pos hi]

/-- C24: a row without a fill and a row with a bounded fill; the row's contents are kept. -/
theorem C24_copies (rows : List Row) (r : Row) :
    (r.fill = none → copies rows r = 1) ∧ (∀ n y, r.fill = some ⟨some n, y⟩ → copies rows r = n) ∧
    ∀ y, (placed y r).cells = r.cells ∧ (placed y r).opts = r.opts := by
  refine ⟨fun h => ?_, fun n y h => ?_, fun y => ⟨rfl, rfl⟩⟩
  · have hu : ¬ Unbounded r := fun ⟨y, hy⟩ => by rw [h] at hy; cases hy
    simp [copies, hu, boundedCopies, h]
  · have hu : ¬ Unbounded r := fun ⟨y, hy⟩ => by rw [h] at hy; cases hy
    simp [copies, hu, boundedCopies, h]

theorem total_bounded (rows part : List Row) (h : ∀ r ∈ part, ¬ Unbounded r) : total rows part = bounded part := by
  rw [total, bounded]
  congr 1
  exact List.map_congr_left fun r hr => by rw [copies, if_neg (h r hr)]

theorem total_append (rows a b : List Row) : total rows (a ++ b) = total rows a + total rows b := by simp [total]
theorem total_cons (rows : List Row) (r : Row) (b : List Row) : total rows (r :: b) = copies rows r + total rows b := by
  simp [total]
theorem bounded_append (a b : List Row) : bounded (a ++ b) = bounded a + bounded b := by simp [bounded]
theorem bounded_cons (r : Row) (b : List Row) : bounded (r :: b) = boundedCopies r + bounded b := by simp [bounded]

theorem unique_unbounded {before after : List Row} {r : Row} (hr : Unbounded r)
    (h : ((before ++ r :: after).filter (fun r => decide (Unbounded r))).length < 2) :
    (∀ b ∈ before, ¬ Unbounded b) ∧ ∀ b ∈ after, ¬ Unbounded b := by
  rw [List.filter_append, List.filter_cons_of_pos (by simpa using hr), List.length_append, List.length_cons] at h
  have h1 : (before.filter (fun r => decide (Unbounded r))) = [] := List.length_eq_zero_iff.mp (by omega)
  have h2 : (after.filter (fun r => decide (Unbounded r))) = [] := List.length_eq_zero_iff.mp (by omega)
  rw [List.filter_eq_nil_iff] at h1 h2
  exact ⟨fun b hb => by simpa using h1 b hb, fun b hb => by simpa using h2 b hb⟩

/-- C24: with an unbounded fill there are exactly 1000 rows, when the other rows are at most 1000. -/
theorem C24_thousand (rows : List Row) (s' : Sheet) (h : evalFills ⟨rows, false⟩ = some s') (r : Row) (hr : r ∈ rows)
    (hu : Unbounded r) (hb : bounded rows ≤ 1000) : s'.rows.length = 1000 := by
  rw [(C24_rows rows s' h).1]
  obtain ⟨before, after, he⟩ := List.append_of_mem hr
  have h2 : ¬ 2 ≤ (rows.filter (fun r => decide (Unbounded r))).length := by
    rw [← C25_rejected_iff, h]; simp
  obtain ⟨ha, hb'⟩ := unique_unbounded hu (by rw [← he]; omega)
  have hc : copies rows r = 1000 - bounded rows := by rw [copies, if_pos hu]
  have h0 : boundedCopies r = 0 := by obtain ⟨y, hy⟩ := hu; rw [boundedCopies, hy]
  have e1 : total rows rows = bounded before + (copies rows r + bounded after) := by
    conv_lhs => arg 2; rw [he]
    rw [total_append, total_cons, total_bounded _ _ ha, total_bounded _ _ hb']
  have e2 : bounded rows = bounded before + (boundedCopies r + bounded after) := by
    conv_lhs => rw [he]
    rw [bounded_append, bounded_cons]
  omega

/-- Without an unbounded fill the number of rows is the sum of the rows and fills. -/
theorem C24_bounded (rows : List Row) (s' : Sheet) (h : evalFills ⟨rows, false⟩ = some s')
    (hu : ∀ r ∈ rows, ¬ Unbounded r) : s'.rows.length = bounded rows := by
  rw [(C24_rows rows s' h).1, total_bounded _ _ hu]

/-! ## C26 -/

/-- The full claim: in the expanded sheet, the range of a row's fill is the set of the rows made from the
same row of the sheet. -/
def C26_full : Prop :=
  ∀ (rows : List Row) (s' : Sheet), evalFills ⟨rows, false⟩ = some s' →
    ∀ before r after f, rows = before ++ r :: after → (placed (total rows before) r).fill = some f →
      0 < copies rows r →
      ∀ y, fillRange f y ↔ total rows before ≤ y ∧ y < total rows before + copies rows r

theorem fillRange_iff (a : Option Nat) (o y : Nat) :
    fillRange ⟨a, o⟩ y ↔ o ≤ y ∧ y ≤ (match a with | some n => min (o + n) 1000 | none => 1000) - 1 := by
  constructor
  · rintro ⟨s, e, h1, h2, h3⟩
    simp only [Fill.toA1, A1.rows.injEq] at h1
    obtain ⟨rfl, rfl⟩ := h1
    refine ⟨h2, ?_⟩
    cases a <;> exact h3
  · rintro ⟨h1, h2⟩
    refine ⟨o, _, rfl, h1, ?_⟩
    cases a <;> exact h2

/-- C26, exactly when it holds: for a bounded fill when its rows are within the first 1000, for an
unbounded fill when no rows follow its own. -/
theorem C26_range_iff (rows : List Row) (s' : Sheet) (h : evalFills ⟨rows, false⟩ = some s')
    (before : List Row) (r : Row) (after : List Row) (f : Fill) (he : rows = before ++ r :: after)
    (hf : (placed (total rows before) r).fill = some f) (hpos : 0 < copies rows r) :
    (∀ y, fillRange f y ↔ total rows before ≤ y ∧ y < total rows before + copies rows r) ↔
      (if f.amount.isSome then total rows before + copies rows r ≤ 1000 else total rows after = 0) := by
  rcases hr : r.fill with _ | ⟨a, y0⟩
  · rw [placed, hr] at hf; cases hf
  · rw [placed, hr] at hf
    simp only [Option.map_some, Option.some.injEq] at hf
    subst hf
    have hc := C24_copies rows r
    cases a with
    | some n =>
      have hn : copies rows r = n := hc.2.1 n y0 hr
      simp only [Option.isSome_some, if_true, fillRange_iff]
      rw [hn] at hpos ⊢
      constructor
      · intro hy
        by_contra hgt
        have := (hy (total rows before + n - 1)).mpr ⟨by omega, by omega⟩
        omega
      · intro hle y
        omega
    | none =>
      have hu : Unbounded r := ⟨y0, hr⟩
      simp only [Option.isSome_none, fillRange_iff]
      have h2 : ¬ 2 ≤ (rows.filter (fun r => decide (Unbounded r))).length := by
        rw [← C25_rejected_iff, h]; simp
      obtain ⟨ha, hb'⟩ := unique_unbounded hu (by rw [← he]; omega)
      have hcp : copies rows r = 1000 - bounded rows := by rw [copies, if_pos hu]
      have h0 : boundedCopies r = 0 := by rw [boundedCopies, hr]
      have e2 : bounded rows = bounded before + (boundedCopies r + bounded after) := by
        conv_lhs => rw [he]
        rw [bounded_append, bounded_cons]
      rw [total_bounded rows before ha, total_bounded rows after hb', hcp]
      rw [hcp] at hpos
      simp only [Bool.false_eq_true, if_false]
      constructor
      · intro hy
        by_contra hne
        have := (hy 999).mp ⟨by omega, by omega⟩
        omega
      · intro hz y
        omega

/-- A plain row, and a row with an unbounded fill. -/
def plainRow (v : Text) (o : Opts := {}) : Row := ⟨o, none, [⟨none, ⟨⟨0, 0⟩, v, []⟩, v, {}⟩]⟩
def fillRow (n : Option Nat) (name : Text) : Row := ⟨{}, some ⟨n, 0⟩, [⟨none, ⟨⟨0, 0⟩, [], []⟩, [], { var := some name }⟩]⟩

/-- C26 is violated: an unbounded fill followed by another row. -/
theorem C26_violated : ¬ C26_full := by
  intro h
  have e : ∃ s', evalFills ⟨[fillRow none ['x'], plainRow ['a']], false⟩ = some s' := ⟨_, rfl⟩
  obtain ⟨s', e⟩ := e
  have hcop : copies [fillRow none ['x'], plainRow ['a']] (fillRow none ['x']) = 999 := rfl
  have h1 := h _ s' e [] (fillRow none ['x']) [plainRow ['a']] ⟨none, 0⟩ rfl rfl (by rw [hcop]; decide)
  have h2 := (C26_range_iff _ s' e [] (fillRow none ['x']) [plainRow ['a']] ⟨none, 0⟩ rfl rfl (by rw [hcop]; decide)).mp h1
  exact absurd h2 (by decide)

/-- The same for a bounded fill past row 1000. -/
theorem C26_violated_bounded : ∃ s', evalFills ⟨[fillRow (some 1001) ['x']], false⟩ = some s' ∧
    s'.rows.length = 1001 ∧ ¬ fillRange ⟨some 1001, 0⟩ 1000 := by
  have e : ∃ s', evalFills ⟨[fillRow (some 1001) ['x']], false⟩ = some s' := ⟨_, rfl⟩
  obtain ⟨s', e⟩ := e
  refine ⟨s', e, ?_, ?_⟩
  · rw [(C24_rows _ s' e).1]; rfl
  · rw [fillRange_iff]; show ¬ (0 ≤ 1000 ∧ 1000 ≤ min (0 + 1001) 1000 - 1); decide

/-! ## C23 -/

theorem collect_foldl (l : List (Text × Ast)) (m : Text → Option Ast) (k : Text) :
    l.foldl (fun m p k => if k = p.1 then some p.2 else m k) m k = (collect l k).or (m k) := by
  induction l generalizing m with
  | nil => simp [collect]
  | cons p l ih =>
    have e : collect (p :: l) k = (collect l k).or (if k = p.1 then some p.2 else none) := ih _
    rw [List.foldl_cons, ih, e]
    by_cases h : k = p.1
    · simp only [if_pos h, Option.or_assoc, Option.some_or]
    · simp only [if_neg h, Option.or_none]

theorem collect_app (a b : List (Text × Ast)) (k : Text) : collect (a ++ b) k = (collect b k).or (collect a k) := by
  rw [collect, List.foldl_append, collect_foldl]; rfl

theorem collect_none (l : List (Text × Ast)) (k : Text) (h : ∀ p ∈ l, p.1 ≠ k) : collect l k = none := by
  induction l with
  | nil => rfl
  | cons p l ih =>
    have : collect (p :: l) k = (collect l k).or (collect [p] k) := collect_app [p] l k
    rw [this, ih fun q hq => h q (by simp [hq]), Option.none_or]
    simp only [collect, List.foldl_cons, List.foldl_nil]
    rw [if_neg (Ne.symm (h p (by simp)))]

theorem insertions_append (y : Nat) (a b : List Row) : insertions y (a ++ b) = insertions y a ++ insertions (y + a.length) b := by
  induction a generalizing y with
  | nil => rfl
  | cons r a ih =>
    rw [List.cons_append, insertions, ih, insertions, List.length_cons, List.append_assoc _ _ (insertions _ b)]
    congr 3; omega

theorem cellVars_append (y : Nat) (f : Option Fill) (x : Nat) (a b : List Cell) :
    cellVars y f x (a ++ b) = cellVars y f x a ++ cellVars y f (x + a.length) b := by
  induction a generalizing x with
  | nil => rfl
  | cons c a ih =>
    rw [List.cons_append, cellVars, ih, cellVars, List.length_cons, List.append_assoc _ _ (cellVars _ _ _ b)]
    congr 3; omega

theorem cellVars_keys (y : Nat) (f : Option Fill) (x : Nat) (cs : List Cell) (p : Text × CellVal) (h : p ∈ cellVars y f x cs) :
    ∃ c ∈ cs, c.opts.var = some p.1 := by
  induction cs generalizing x with
  | nil => cases h
  | cons c cs ih =>
    rw [cellVars] at h
    rcases List.mem_append.mp h with h | h
    · obtain ⟨v, hv, rfl⟩ := List.mem_map.mp h
      exact ⟨c, by simp, Option.mem_toList.mp hv⟩
    · obtain ⟨d, hd, hv⟩ := ih _ h
      exact ⟨d, by simp [hd], hv⟩

theorem insertions_keys (y : Nat) (rows : List Row) (p : Text × CellVal) (h : p ∈ insertions y rows) :
    ∃ r ∈ rows, p.1 ∈ names r := by
  induction rows generalizing y with
  | nil => cases h
  | cons r rows ih =>
    rw [insertions] at h
    rcases List.mem_append.mp h with h | h
    · refine ⟨r, by simp, ?_⟩
      rcases List.mem_append.mp h with h | h
      · obtain ⟨v, hv, rfl⟩ := List.mem_map.mp h
        exact List.mem_append_left _ hv
      · obtain ⟨c, hc, hv⟩ := cellVars_keys _ _ _ _ _ h
        refine List.mem_append_right _ (List.mem_filterMap.mpr ⟨c, hc, hv⟩)
    · obtain ⟨d, hd, hv⟩ := ih _ h
      exact ⟨d, by simp [hd], hv⟩

/-- The map of a list of insertions. -/
def mapOf (l : List (Text × CellVal)) : Text → Option Ast := collect (l.map fun p => (p.1, .cellVar p.1 p.2))

theorem mapOf_append (a b : List (Text × CellVal)) (k : Text) : mapOf (a ++ b) k = (mapOf b k).or (mapOf a k) := by
  rw [mapOf, List.map_append, collect_app]; rfl
theorem mapOf_none {l : List (Text × CellVal)} {k : Text} (h : ∀ p ∈ l, p.1 ≠ k) : mapOf l k = none := by
  refine collect_none _ _ fun p hp => ?_
  obtain ⟨q, hq, rfl⟩ := List.mem_map.mp hp
  exact h q hq
theorem mapOf_single (k : Text) (v : CellVal) : mapOf [(k, v)] k = some (.cellVar k v) := by
  simp [mapOf, collect]

theorem row_cell (y : Nat) (r : Row) (x : Nat) (v : Text) (h : NamesCell r x v) :
    mapOf (rowVar y r ++ cellVars y r.fill 0 r.cells) v = some (.cellVar v (cellValue x y r.fill)) := by
  obtain ⟨⟨c, hc, hv⟩, hl⟩ := h
  obtain ⟨hx, hc'⟩ := List.getElem?_eq_some_iff.mp hc
  have hsplit : r.cells = r.cells.take x ++ c :: r.cells.drop (x + 1) := by
    rw [← hc', List.getElem_cons_drop, List.take_append_drop]
  have hlen : (r.cells.take x).length = x := by rw [List.length_take]; omega
  have hrest : mapOf (cellVars y r.fill (x + 1) (r.cells.drop (x + 1))) v = none := by
    refine mapOf_none fun p hp he => ?_
    obtain ⟨d, hd, hdv⟩ := cellVars_keys _ _ _ _ _ hp
    obtain ⟨i, hi⟩ := List.mem_iff_getElem?.mp hd
    rw [List.getElem?_drop] at hi
    exact hl _ d (by omega) hi (by rw [hdv, he])
  have e : cellVars y r.fill 0 r.cells =
      cellVars y r.fill 0 (r.cells.take x) ++ ([(v, cellValue x y r.fill)] ++ cellVars y r.fill (x + 1) (r.cells.drop (x + 1))) := by
    conv_lhs => rw [hsplit]
    rw [cellVars_append, hlen, Nat.zero_add, cellVars, cellVar, hv]
    rfl
  rw [e, mapOf_append, mapOf_append, mapOf_append, hrest, mapOf_single]
  rfl

theorem row_row (y : Nat) (r : Row) (v : Text) (h : NamesRow r v) :
    mapOf (rowVar y r ++ cellVars y r.fill 0 r.cells) v = some (.cellVar v (rowValue y r.fill)) := by
  have hrest : mapOf (cellVars y r.fill 0 r.cells) v = none := by
    refine mapOf_none fun p hp he => ?_
    obtain ⟨d, hd, hdv⟩ := cellVars_keys _ _ _ _ _ hp
    exact h.2 d hd (by rw [hdv, he])
  have e : rowVar y r = [(v, rowValue y r.fill)] := by
    rw [rowVar, h.1]
    rfl
  rw [mapOf_append, hrest, e, mapOf_single]
  rfl

theorem variables_last (s : Sheet) (y : Nat) (r : Row) (hr : s.rows[y]? = some r) (v : Text) (val : CellVal)
    (hv : mapOf (rowVar y r ++ cellVars y r.fill 0 r.cells) v = some (.cellVar v val))
    (hl : ∀ y' q, y < y' → s.rows[y']? = some q → v ∉ names q) : sheetVars s v = some (.cellVar v val) := by
  obtain ⟨hy, hr'⟩ := List.getElem?_eq_some_iff.mp hr
  have hsplit : s.rows = s.rows.take y ++ r :: s.rows.drop (y + 1) := by
    rw [← hr', List.getElem_cons_drop, List.take_append_drop]
  have hlen : (s.rows.take y).length = y := by rw [List.length_take]; omega
  have hrest : mapOf (insertions (y + 1) (s.rows.drop (y + 1))) v = none := by
    refine mapOf_none fun p hp he => ?_
    obtain ⟨d, hd, hdv⟩ := insertions_keys _ _ _ hp
    obtain ⟨i, hi⟩ := List.mem_iff_getElem?.mp hd
    rw [List.getElem?_drop] at hi
    exact hl _ d (by omega) hi (by rw [← he]; exact hdv)
  have : sheetVars s v = mapOf (insertions 0 s.rows) v := rfl
  rw [this]
  conv_lhs => rw [hsplit]
  rw [insertions_append, hlen, Nat.zero_add, insertions, mapOf_append, mapOf_append, hrest, hv]
  rfl

theorem expandLoop_mem (rows : List Row) (n : Nat) (part : List Row) (q : Row) (h : q ∈ expandLoop (rowsLeftOver rows) n part) :
    ∃ r ∈ part, ∃ y, q = placed y r := by
  induction part generalizing n with
  | nil => cases h
  | cons r part ih =>
    have := expandLoop_at rows n [] r part
    rw [List.nil_append] at this
    rw [this] at h
    simp only [expandLoop, List.nil_append, List.mem_append, List.mem_replicate] at h
    rcases h with ⟨-, rfl⟩ | h
    · exact ⟨r, by simp, _, rfl⟩
    · obtain ⟨r', h1, h2⟩ := ih _ h
      exact ⟨r', by simp [h1], h2⟩

/-- The last copy of the last row with a name decides it. -/
theorem variables_expanded {rows : List Row} {s' : Sheet} (h : evalFills ⟨rows, false⟩ = some s') {before : List Row}
    {r : Row} {v : Text} (hlast : LastWith rows before r v) (hpos : 0 < copies rows r) {val : Nat → Option Fill → CellVal}
    (hval : ∀ y q, q.cells = r.cells → q.opts = r.opts →
      mapOf (rowVar y q ++ cellVars y q.fill 0 q.cells) v = some (.cellVar v (val y q.fill))) :
    ∃ y, InCopies rows before r y ∧ sheetVars s' v = some (.cellVar v (val y (placed (total rows before) r).fill)) := by
  obtain ⟨after, he, ha⟩ := hlast
  refine ⟨total rows before + (copies rows r - 1), ⟨by omega, by omega⟩, ?_⟩
  have hrow := (C24_rows rows s' h).2 before r after he (copies rows r - 1) (by omega)
  refine variables_last s' _ _ hrow v _ (hval _ _ rfl rfl) fun y' q hy hq => ?_
  rw [evalFills] at h
  simp only [Bool.false_eq_true, if_false] at h
  split at h
  · cases h
  · cases h
    have hex := expandLoop_at rows 0 before r after
    rw [← he, Nat.zero_add] at hex
    dsimp only at hq
    rw [hex, List.getElem?_append_right (by rw [expandLoop_length]; omega), expandLoop_length,
      List.getElem?_append_right (by rw [List.length_replicate]; omega)] at hq
    obtain ⟨a, ha', y0, rfl⟩ := expandLoop_mem rows _ after q (List.mem_of_getElem? hq)
    exact ha a ha'

theorem toA1_contains (f : Fill) (pos : Addr) : f.toA1.contains pos = true ↔ fillRange f pos.y := by
  constructor
  · intro h
    simp only [Fill.toA1, A1.contains, Bool.and_eq_true, decide_eq_true_eq] at h
    exact ⟨_, _, rfl, h.1, h.2⟩
  · rintro ⟨s, e, h1, h2, h3⟩
    rw [h1]; simp [A1.contains, h2, h3]

theorem limits_range {rows before : List Row} {r : Row} {f : Fill} (hf : (placed (total rows before) r).fill = some f)
    (hlim : InLimits rows before r) (hpos : 0 < copies rows r) :
    f.toA1 = .rows (total rows before) (total rows before + copies rows r - 1) := by
  have h := hlim f hf
  have hst : f.startRow = total rows before := by
    rw [placed] at hf
    cases hr : r.fill with
    | none => rw [hr] at hf; cases hf
    | some g => rw [hr] at hf; cases hf; rfl
  have hr : ∀ y, fillRange f y ↔ total rows before ≤ y ∧ y ≤ f.endRow - 1 := by
    intro y
    constructor
    · rintro ⟨s, e, h1, h2, h3⟩
      simp only [Fill.toA1, A1.rows.injEq] at h1
      omega
    · intro ⟨h1, h2⟩; exact ⟨_, _, rfl, by omega, h2⟩
  have h1 := h (total rows before + copies rows r - 1)
  have h2 := h (total rows before + copies rows r)
  rw [hr] at h1 h2
  simp only [InCopies] at h1 h2
  rw [Fill.toA1, hst]
  congr 1
  omega

/-- C23, cells of rows without a fill: the name is that cell, wherever it is used. -/
theorem C23_cell (rows : List Row) (s' : Sheet) (h : evalFills ⟨rows, false⟩ = some s') (before : List Row) (r : Row)
    (x : Nat) (v : Text) (hlast : LastWith rows before r v) (hx : NamesCell r x v) (hf : r.fill = none) :
    ∃ val, sheetVars s' v = some (.cellVar v val) ∧
      ∀ pos, val.intoAst pos = some (.ref (cellRef x (total rows before))) := by
  have hc := (C24_copies rows r).1 hf
  obtain ⟨y, hy, hv⟩ := variables_expanded h hlast (by omega) (val := fun y f => cellValue x y f)
    (fun y q h1 _ => row_cell y q x v (by unfold NamesCell; rw [h1]; exact hx))
  rw [placed, hf] at hv
  refine ⟨_, hv, fun pos => ?_⟩
  have : y = total rows before := by rw [InCopies] at hy; omega
  subst this
  cases pos <;> rfl

/-- C23, rows without a fill: the name is that row, wherever it is used. -/
theorem C23_row (rows : List Row) (s' : Sheet) (h : evalFills ⟨rows, false⟩ = some s') (before : List Row) (r : Row)
    (v : Text) (hlast : LastWith rows before r v) (hx : NamesRow r v) (hf : r.fill = none) :
    ∃ val, sheetVars s' v = some (.cellVar v val) ∧
      ∀ pos, val.intoAst pos = some (.ref (rowsRef (total rows before) (total rows before))) := by
  have hc := (C24_copies rows r).1 hf
  obtain ⟨y, hy, hv⟩ := variables_expanded h hlast (by omega) (val := fun y f => rowValue y f)
    (fun y q h1 h2 => row_row y q v (by unfold NamesRow; rw [h1, h2]; exact hx))
  rw [placed, hf] at hv
  refine ⟨_, hv, fun pos => ?_⟩
  have : y = total rows before := by rw [InCopies] at hy; omega
  subst this
  cases pos <;> rfl

open Classical in
/-- C23, cells of filled rows (when the rows of the fill are within its range, see C26): inside the fill
the name is the cell of the same row, outside it is the column of all the fill's rows. -/
theorem C23_filled_cell (rows : List Row) (s' : Sheet) (h : evalFills ⟨rows, false⟩ = some s') (before : List Row)
    (r : Row) (x : Nat) (v : Text) (hlast : LastWith rows before r v) (hx : NamesCell r x v) (hf : r.fill.isSome = true)
    (hpos : 0 < copies rows r) (hlim : InLimits rows before r) :
    ∃ val, sheetVars s' v = some (.cellVar v val) ∧ ∀ pos : Addr, val.intoAst (some pos) = some (.ref
      (if InCopies rows before r pos.y then cellRef x pos.y
        else columnRef x (total rows before) (total rows before + copies rows r - 1))) := by
  obtain ⟨y, hy, hv⟩ := variables_expanded h hlast hpos (val := fun y f => cellValue x y f)
    (fun y q h1 _ => row_cell y q x v (by unfold NamesCell; rw [h1]; exact hx))
  obtain ⟨g, hg⟩ := Option.isSome_iff_exists.mp hf
  have hf' : (placed (total rows before) r).fill = some ⟨g.amount, total rows before⟩ := by rw [placed, hg]; rfl
  rw [hf'] at hv
  refine ⟨_, hv, fun pos => ?_⟩
  have hr := limits_range hf' hlim hpos
  have hc := (toA1_contains ⟨g.amount, total rows before⟩ pos).trans (hlim _ hf' pos.y)
  simp only [cellValue, CellVal.intoAst]
  by_cases hin : InCopies rows before r pos.y
  · rw [if_pos (hc.mpr hin), if_pos hin]; rfl
  · rw [if_neg (fun hh => hin (hc.mp hh)), if_neg hin, hr]; rfl

open Classical in
/-- C23, filled rows (when the rows of the fill are within its range, see C26): inside the fill the name
is the row itself, outside it is all the fill's rows. -/
theorem C23_filled_row (rows : List Row) (s' : Sheet) (h : evalFills ⟨rows, false⟩ = some s') (before : List Row)
    (r : Row) (v : Text) (hlast : LastWith rows before r v) (hx : NamesRow r v) (hf : r.fill.isSome = true)
    (hpos : 0 < copies rows r) (hlim : InLimits rows before r) :
    ∃ val, sheetVars s' v = some (.cellVar v val) ∧ ∀ pos : Addr, val.intoAst (some pos) = some (.ref
      (if InCopies rows before r pos.y then rowsRef pos.y pos.y
        else rowsRef (total rows before) (total rows before + copies rows r - 1))) := by
  obtain ⟨y, hy, hv⟩ := variables_expanded h hlast hpos (val := fun y f => rowValue y f)
    (fun y q h1 h2 => row_row y q v (by unfold NamesRow; rw [h1, h2]; exact hx))
  obtain ⟨g, hg⟩ := Option.isSome_iff_exists.mp hf
  have hf' : (placed (total rows before) r).fill = some ⟨g.amount, total rows before⟩ := by rw [placed, hg]; rfl
  rw [hf'] at hv
  refine ⟨_, hv, fun pos => ?_⟩
  have hr := limits_range hf' hlim hpos
  have hc := (toA1_contains ⟨g.amount, total rows before⟩ pos).trans (hlim _ hf' pos.y)
  simp only [rowValue, CellVal.intoAst]
  by_cases hin : InCopies rows before r pos.y
  · rw [if_pos (hc.mpr hin), if_pos hin]; rfl
  · rw [if_neg (fun hh => hin (hc.mp hh)), if_neg hin, hr]; rfl

/-- C23: a name that no row gives is not a variable of the sheet. -/
theorem C23_undefined (s : Sheet) (v : Text) (h : ∀ r ∈ s.rows, v ∉ names r) : sheetVars s v = none :=
  mapOf_none fun p hp he => by
    obtain ⟨r, hr, hn⟩ := insertions_keys _ _ _ hp
    exact h r hr (he ▸ hn)

end Verif.Sheet
