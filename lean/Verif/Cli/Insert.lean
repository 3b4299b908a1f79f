import Verif.Ast.Moved
import Verif.Cli.Local
/-
Inserting rows: names follow their cells (C105).
-/
namespace Verif.Cli
open Verif.Ast Verif.Loader Verif.Sheet Verif.Cache Verif.Csvp.Spec
open Verif.Cell hiding Target
open Verif.Target hiding MPath

/-! ## Specification -/

/-- What a cell contains. -/
def contents (c : Cell) : Opts × Text × Option Ast := (c.opts, c.value, c.ast)

/-- The two rows have the same options, the same fill and the same cells.  Where they are in the source file does not matter. -/
structure Alike (r r' : Row) : Prop where
  opts : r'.opts = r.opts
  fill : r'.fill.map (·.amount) = r.fill.map (·.amount)
  cells : r'.cells.map contents = r.cells.map contents

/-- Where row `y` is after `n` rows were inserted above row `k`. -/
def lowered (k n y : Nat) : Nat := if y < k then y else y + n

/-- Where a cell, rows, or a part of a column are when the rows moved. -/
def moveA1 (g : Nat → Nat) : A1 → A1
  | .cell a => .cell ⟨a.x, g a.y⟩
  | .rows s e => .rows (g s) (g e)
  | .colRows x s e => .colRows x (g s) (g e)

/-- The reference is written in a formula of the sheet, in a definition of the code section or in one on the command line. -/
def WrittenRef (sc : Scope) (ext : Text → Option Ast) (rows : List Row) (r : Text) : Prop :=
  (∃ q ∈ rows, ∃ c ∈ q.cells, ∃ f, c.ast = some f ∧ r ∈ refNames f) ∨
  ∃ x d, (sc.functions x = some d ∨ sc.variables x = some d ∨ ext x = some d) ∧ r ∈ refNames d

/-- A name of the sheet stands for the reference in a formula at `pos`. -/
def NameStands (rows : List Row) (pos : Addr) (t : Text) : Prop :=
  ∃ s x v, evalFills ⟨rows, false⟩ = some s ∧ sheetVars s x = some (.cellVar x v) ∧ v.intoAst (some pos) = some (.ref t)

/-- `r` and `r'` refer to the same in a formula at `pos` before and after the rows moved: a reference that is written in the source is left as it is, and one that a
name of the sheet stands for moves with its cells. -/
def FollowsRef (sc : Scope) (ext : Text → Option Ast) (rows : List Row) (g : Nat → Nat) (pos : Addr) (r r' : Text) : Prop :=
  (r = r' ∧ WrittenRef sc ext rows r) ∨ ∃ a : A1, NameStands rows pos a.text ∧ r = a.text ∧ r' = (moveA1 g a).text

/-- No variable and no parameter is called like a cell, and the code section and the command line define no cells. -/
structure NotLikeCells (sc : Scope) (ext : Text → Option Ast) (rows : List Row) : Prop where
  plain : ∀ x n v, sc.variables x ≠ some (.cellVar n v) ∧ ext x ≠ some (.cellVar n v)
  own : ∀ a : A1, sc.variables a.text = none
  line : ∀ a : A1, ext a.text = none
  named : ∀ q ∈ rows, ∀ a : A1, a.text ∉ names q
  params : ∀ g n ps b, sc.functions g = some (.fn n ps b) → ∀ a : A1, a.text ∉ ps

/-! ## Expanded rows -/

/-- A row and the same one elsewhere. -/
structure AlikeAt (g : Nat → Nat) (r r' : Row) : Prop where
  opts : r'.opts = r.opts
  fill : r'.fill = r.fill.map fun f => ⟨f.amount, g f.startRow⟩
  cells : r'.cells.map contents = r.cells.map contents

theorem alike_copies {r r' : Row} (h : Alike r r') : boundedCopies r' = boundedCopies r := by
  have := h.fill
  unfold boundedCopies
  cases hf : r.fill with
  | none =>
    rw [hf] at this
    cases hf' : r'.fill with
    | none => rfl
    | some f => rw [hf'] at this; cases this
  | some f =>
    rw [hf] at this
    cases hf' : r'.fill with
    | none => rw [hf'] at this; cases this
    | some f' =>
      rw [hf'] at this
      obtain ⟨a, y⟩ := f
      obtain ⟨a', y'⟩ := f'
      simp only [Option.map_some, Option.some.injEq] at this
      subst this
      cases a' <;> rfl

theorem alike_unbounded {r r' : Row} (h : Alike r r') (hu : Unbounded r') : Unbounded r := by
  obtain ⟨y, hy⟩ := hu
  have := h.fill
  rw [hy] at this
  cases hf : r.fill with
  | none => rw [hf] at this; cases this
  | some f =>
    obtain ⟨a, y'⟩ := f
    rw [hf] at this
    simp only [Option.map_some, Option.some.injEq] at this
    subst this
    exact ⟨_, hf⟩

theorem alikes_bounded {part part' : List Row} (h : List.Forall₂ Alike part part') : bounded part' = bounded part := by
  induction h with
  | nil => rfl
  | cons h _ ih => rw [bounded_cons, bounded_cons, alike_copies h, ih]

theorem forall₂_replicate {α : Type} {R : α → α → Prop} {a b : α} (h : R a b) (m : Nat) : List.Forall₂ R (List.replicate m a) (List.replicate m b) := by
  induction m with
  | zero => exact .nil
  | succ m ih => rw [List.replicate_succ, List.replicate_succ]; exact .cons h ih

/-- The rows of an expanded part, and of the same part elsewhere. -/
theorem expand_alike {g : Nat → Nat} {left left' : Nat} {part part' : List Row} (h : List.Forall₂ Alike part part') (hu : ∀ r ∈ part, ¬ Unbounded r) {n n' : Nat}
    (hg : ∀ i, i < bounded part → g (n + i) = n' + i) : List.Forall₂ (AlikeAt g) (expandLoop left n part) (expandLoop left' n' part') := by
  induction h generalizing n n' with
  | nil => exact .nil
  | cons h _ ih =>
    rename_i r r' rs rs' _
    have hur := hu r (by simp)
    have hu' : ∀ r ∈ rs, ¬ Unbounded r := fun q hq => hu q (by simp [hq])
    rw [expandLoop.eq_def, expandLoop.eq_def left']
    dsimp only
    have hfill := h.fill
    rw [bounded_cons] at hg
    cases hf : r.fill with
    | none =>
      rw [hf] at hfill
      have hf' : r'.fill = none := by
        cases hf' : r'.fill with
        | none => rfl
        | some f => rw [hf'] at hfill; cases hfill
      have hc : boundedCopies r = 1 := by rw [boundedCopies, hf]
      rw [hc] at hg
      rw [hf']
      dsimp only
      refine .cons ⟨h.opts, by rw [hf, hf']; rfl, h.cells⟩ (ih hu' fun i hi => ?_)
      rw [Nat.add_assoc, Nat.add_assoc]; exact hg (1 + i) (by omega)
    | some f =>
      obtain ⟨a, y⟩ := f
      rw [hf] at hfill
      cases hf' : r'.fill with
      | none => rw [hf'] at hfill; cases hfill
      | some f' =>
        obtain ⟨a', y'⟩ := f'
        rw [hf'] at hfill
        simp only [Option.map_some, Option.some.injEq] at hfill
        subst hfill
        cases a' with
        | none => exact absurd ⟨_, hf⟩ hur
        | some k =>
          have hc : boundedCopies r = k := by rw [boundedCopies, hf]
          rw [hc] at hg
          dsimp only [Option.getD_some]
          refine List.rel_append (R := AlikeAt g) ?_ (ih hu' fun i hi => ?_)
          · cases k with
            | zero => exact .nil
            | succ k =>
              have h0 := hg 0 (by omega)
              rw [Nat.add_zero, Nat.add_zero] at h0
              have hat : AlikeAt g { r with fill := some (Fill.cloneToRow ⟨some (k + 1), y⟩ n) } { r' with fill := some (Fill.cloneToRow ⟨some (k + 1), y'⟩ n') } :=
                ⟨h.opts, by simp only [Fill.cloneToRow, Option.map_some, h0], h.cells⟩
              exact forall₂_replicate hat _
          · rw [Nat.add_assoc, Nat.add_assoc]; exact hg (k + i) (by omega)

theorem expand_append {left : Nat} (a b : List Row) (ha : ∀ r ∈ a, ¬ Unbounded r) (n : Nat) :
    expandLoop left n (a ++ b) = expandLoop left n a ++ expandLoop left (n + bounded a) b := by
  induction a generalizing n with
  | nil => rfl
  | cons r a ih =>
    have ih := fun n => ih (fun q hq => ha q (by simp [hq])) n
    have hur := ha r (by simp)
    rw [List.cons_append, expandLoop.eq_def, expandLoop.eq_def left n (r :: a)]
    dsimp only
    rw [bounded_cons]
    cases hf : r.fill with
    | none =>
      have hc : boundedCopies r = 1 := by rw [boundedCopies, hf]
      simp only [ih, List.cons_append, hc, Nat.add_assoc]
    | some f =>
      obtain ⟨a, y⟩ := f
      cases a with
      | none => exact absurd ⟨_, hf⟩ hur
      | some k =>
        have hc : boundedCopies r = k := by rw [boundedCopies, hf]
        simp only [ih, List.append_assoc, hc, Nat.add_assoc, Option.getD_some]

theorem expand_length {left : Nat} (a : List Row) (ha : ∀ r ∈ a, ¬ Unbounded r) (n : Nat) : (expandLoop left n a).length = bounded a := by
  induction a generalizing n with
  | nil => rfl
  | cons r a ih =>
    have ih := fun n => ih (fun q hq => ha q (by simp [hq])) n
    have hur := ha r (by simp)
    rw [expandLoop.eq_def]
    dsimp only
    rw [bounded_cons]
    cases hf : r.fill with
    | none =>
      have hc : boundedCopies r = 1 := by rw [boundedCopies, hf]
      simp only [List.length_cons, ih, hc, Nat.add_comm]
    | some f =>
      obtain ⟨a, y⟩ := f
      cases a with
      | none => exact absurd ⟨_, hf⟩ hur
      | some k =>
        have hc : boundedCopies r = k := by rw [boundedCopies, hf]
        simp only [List.length_append, List.length_replicate, ih, hc, Option.getD_some]

theorem expand_plain {left : Nat} {mid : List Row} (h : ∀ r ∈ mid, r.fill = none) (n : Nat) : expandLoop left n mid = mid := by
  induction mid generalizing n with
  | nil => rfl
  | cons r mid ih =>
    rw [expandLoop.eq_def]
    simp only [h r (by simp), ih fun q hq => h q (by simp [hq])]

theorem not_multiple {rows : List Row} (h : ∀ r ∈ rows, ¬ Unbounded r) : multipleInfinite false rows = false := by
  cases hm : multipleInfinite false rows with
  | false => rfl
  | true =>
    have := (multipleInfinite_iff false rows).mp hm
    rw [List.filter_eq_nil_iff.mpr (by simpa using h)] at this
    simp at this

theorem evalFills_bounded {rows : List Row} (h : ∀ r ∈ rows, ¬ Unbounded r) : evalFills ⟨rows, false⟩ = some ⟨expandLoop (rowsLeftOver rows) 0 rows, true⟩ := by
  simp [evalFills, not_multiple h]

/-- The fills of an expanded part are within its rows. -/
theorem expand_fill {left : Nat} {part : List Row} (hu : ∀ r ∈ part, ¬ Unbounded r) {n : Nat} {q : Row} (hq : q ∈ expandLoop left n part) {f : Fill} (hf : q.fill = some f) :
    ∃ a, f.amount = some a ∧ 1 ≤ a ∧ n ≤ f.startRow ∧ f.startRow + a ≤ n + bounded part := by
  induction part generalizing n with
  | nil => cases hq
  | cons r part ih =>
    have ih := fun n h => @ih (fun q hq => hu q (by simp [hq])) n h
    have hur := hu r (by simp)
    rw [expandLoop.eq_def] at hq
    dsimp only at hq
    rw [bounded_cons]
    cases hr : r.fill with
    | none =>
      rw [hr] at hq
      have hc : boundedCopies r = 1 := by rw [boundedCopies, hr]
      rcases List.mem_cons.mp hq with rfl | hq
      · rw [hr] at hf; cases hf
      · obtain ⟨a, h1, h2, h3, h4⟩ := ih _ hq
        exact ⟨a, h1, h2, by omega, by omega⟩
    | some f' =>
      obtain ⟨a, y⟩ := f'
      cases a with
      | none => exact absurd ⟨_, hr⟩ hur
      | some k =>
        rw [hr] at hq
        have hc : boundedCopies r = k := by rw [boundedCopies, hr]
        dsimp only [Option.getD_some] at hq
        rcases List.mem_append.mp hq with hq | hq
        · obtain ⟨h1, rfl⟩ := List.mem_replicate.mp hq
          cases hf
          exact ⟨k, rfl, by omega, Nat.le_refl _, by show n + k ≤ _; omega⟩
        · obtain ⟨a, h1, h2, h3, h4⟩ := ih _ hq
          exact ⟨a, h1, h2, by omega, by omega⟩

/-! ## Names -/

/-- The value of a name after the rows moved. -/
def moveVal (g : Nat → Nat) : CellVal → CellVal
  | .absolute a => .absolute ⟨a.x, g a.y⟩
  | .columnRelative x f => .columnRelative x ⟨f.amount, g f.startRow⟩
  | .row y => .row (g y)
  | .rowRelative y f => .rowRelative (g y) ⟨f.amount, g f.startRow⟩

theorem cellVars_contents {y : Nat} {fill : Option Fill} {cs cs' : List Cell} (h : cs'.map contents = cs.map contents) (x : Nat) : cellVars y fill x cs' = cellVars y fill x cs := by
  induction cs generalizing cs' x with
  | nil => rw [List.map_nil, List.map_eq_nil_iff] at h; subst h; rfl
  | cons c cs ih =>
    cases cs' with
    | nil => cases h
    | cons c' cs' =>
      simp only [List.map_cons, List.cons.injEq, contents, Prod.mk.injEq] at h
      rw [cellVars, cellVars, ih (by simpa [contents] using h.2), cellVar, cellVar, h.1.1]

theorem cellVars_move (g : Nat → Nat) (y : Nat) (fill : Option Fill) (cs : List Cell) (x : Nat) :
    cellVars (g y) (fill.map fun f => ⟨f.amount, g f.startRow⟩) x cs = (cellVars y fill x cs).map fun p => (p.1, moveVal g p.2) := by
  induction cs generalizing x with
  | nil => rfl
  | cons c cs ih =>
    rw [cellVars, cellVars, ih, List.map_append]
    congr 1
    unfold cellVar
    cases c.opts.var <;> cases fill <;> rfl

theorem insertions_move {g : Nat → Nat} {part part' : List Row} (h : List.Forall₂ (AlikeAt g) part part') {y y' : Nat} (hg : ∀ i, i < part.length → g (y + i) = y' + i) :
    insertions y' part' = (insertions y part).map fun p => (p.1, moveVal g p.2) := by
  induction h generalizing y y' with
  | nil => rfl
  | cons h _ ih =>
    rename_i r r' rs rs' _
    have h0 := hg 0 (by simp)
    rw [Nat.add_zero, Nat.add_zero] at h0
    rw [insertions, insertions, List.map_append, List.map_append, ih (y := y + 1) fun i hi => by
      rw [Nat.add_assoc, Nat.add_assoc]; exact hg (1 + i) (by rw [List.length_cons]; omega)]
    congr 1
    rw [cellVars_contents h.cells, h.fill, ← h0, cellVars_move]
    congr 1
    unfold rowVar
    rw [h.opts, h.fill]
    cases r.opts.var <;> cases r.fill <;> rfl

theorem insertions_unnamed {mid : List Row} (h : ∀ r ∈ mid, names r = []) (y : Nat) : insertions y mid = [] := by
  rw [List.eq_nil_iff_forall_not_mem]
  intro p hp
  obtain ⟨r, hr, hn⟩ := insertions_keys y mid p hp
  rw [h r hr] at hn
  cases hn

theorem collect_mapSnd {f : Ast → Ast} (l : List (Text × Ast)) (k : Text) : collect (l.map fun p => (p.1, f p.2)) k = (collect l k).map f := by
  induction l with
  | nil => rfl
  | cons p l ih =>
    have e1 : collect (p :: l) k = (collect l k).or (collect [p] k) := collect_app [p] l k
    have e2 : collect ((p :: l).map fun p => (p.1, f p.2)) k = (collect (l.map fun p => (p.1, f p.2)) k).or (collect [(p.1, f p.2)] k) := collect_app [(p.1, f p.2)] _ k
    rw [e1, e2, ih]
    have e3 : collect [(p.1, f p.2)] k = (collect [p] k).map f := by
      simp only [collect, List.foldl_cons, List.foldl_nil]
      split <;> rfl
    rw [e3]
    cases collect l k <;> rfl

/-- The value of a name is one of a row of the sheet. -/
theorem sheetVars_mem {s : Sheet} {x : Text} {d : Ast} (h : sheetVars s x = some d) : ∃ v, (x, v) ∈ insertions 0 s.rows ∧ d = .cellVar x v := by
  have key : ∀ l : List (Text × CellVal), ∀ d, collect (l.map fun p => (p.1, .cellVar p.1 p.2)) x = some d → ∃ v, (x, v) ∈ l ∧ d = .cellVar x v := by
    intro l
    induction l using List.reverseRecOn with
    | nil => intro d h; cases h
    | append_singleton l p ih =>
      intro d h
      simp only [List.map_append, List.map_cons, List.map_nil, collect_snoc] at h
      split at h
      · rename_i e; cases h; subst e; exact ⟨_, by simp, rfl⟩
      · obtain ⟨v, h1, h2⟩ := ih d h; exact ⟨v, by simp [h1], h2⟩
  exact key _ d h


/-! ## What a name stands for -/

theorem cellVars_mem {y : Nat} {fill : Option Fill} {cs : List Cell} {x : Nat} {p : Text × CellVal} (h : p ∈ cellVars y fill x cs) : ∃ x', p.2 = cellValue x' y fill := by
  induction cs generalizing x with
  | nil => cases h
  | cons c cs ih =>
    rw [cellVars] at h
    rcases List.mem_append.mp h with h | h
    · simp only [cellVar, List.mem_map] at h
      obtain ⟨v, -, rfl⟩ := h
      exact ⟨_, rfl⟩
    · exact ih h

theorem insertions_value {part : List Row} {y : Nat} {p : Text × CellVal} (h : p ∈ insertions y part) :
    ∃ q ∈ part, ∃ y', p.2 = rowValue y' q.fill ∨ ∃ x, p.2 = cellValue x y' q.fill := by
  induction part generalizing y with
  | nil => cases h
  | cons r part ih =>
    rw [insertions] at h
    rcases List.mem_append.mp h with h | h
    · rcases List.mem_append.mp h with h | h
      · simp only [rowVar, List.mem_map] at h
        obtain ⟨v, -, rfl⟩ := h
        exact ⟨r, by simp, y, .inl rfl⟩
      · obtain ⟨x, hx⟩ := cellVars_mem h
        exact ⟨r, by simp, y, .inr ⟨x, hx⟩⟩
    · obtain ⟨q, h1, y', h2⟩ := ih h
      exact ⟨q, by simp [h1], y', h2⟩

/-- The fill is above or below the inserted rows. -/
def FillOk (k n : Nat) (f : Fill) : Prop := ∃ a, f.amount = some a ∧ 1 ≤ a ∧ f.startRow + a + n ≤ 1000 ∧ (f.startRow + a ≤ k ∨ k ≤ f.startRow)

theorem fill_contains {k n : Nat} {f : Fill} (h : FillOk k n f) (pos : Addr) :
    (Fill.toA1 ⟨f.amount, lowered k n f.startRow⟩).contains ⟨pos.x, lowered k n pos.y⟩ = f.toA1.contains pos := by
  obtain ⟨a, h1, h2, h3, h4⟩ := h
  simp only [Fill.toA1, A1.contains, Fill.endRow, h1, rowMax, lowered]
  congr 1 <;> rw [decide_eq_decide] <;> split <;> split <;> omega

theorem fill_rows {k n : Nat} {f : Fill} (h : FillOk k n f) : Fill.toA1 ⟨f.amount, lowered k n f.startRow⟩ = moveA1 (lowered k n) f.toA1 := by
  obtain ⟨a, h1, h2, h3, h4⟩ := h
  simp only [Fill.toA1, moveA1, Fill.endRow, h1, rowMax, lowered]
  congr 1
  split <;> split <;> omega

/-- What a name stands for, before and after the rows were inserted. -/
theorem intoAst_move {k n : Nat} {v : CellVal} (h : ∃ fill : Option Fill, (∀ f, fill = some f → FillOk k n f) ∧ ∃ y, v = rowValue y fill ∨ ∃ x, v = cellValue x y fill) (pos : Addr) :
    ∃ q : A1, v.intoAst (some pos) = some (.ref q.text) ∧ (moveVal (lowered k n) v).intoAst (some ⟨pos.x, lowered k n pos.y⟩) = some (.ref (moveA1 (lowered k n) q).text) := by
  obtain ⟨fill, hf, y, h⟩ := h
  cases fill with
  | none =>
    rcases h with rfl | ⟨x, rfl⟩
    · exact ⟨.rows y y, rfl, rfl⟩
    · exact ⟨.cell ⟨x, y⟩, rfl, rfl⟩
  | some f =>
    have hf := hf f rfl
    have hcc := fill_contains hf pos
    rw [fill_rows hf] at hcc
    rcases h with rfl | ⟨x, rfl⟩
    · simp only [rowValue, moveVal, CellVal.intoAst, fill_rows hf, hcc]
      by_cases hc : f.toA1.contains pos = true
      · exact ⟨.rows pos.y pos.y, by rw [if_pos hc], by rw [if_pos hc]; rfl⟩
      · exact ⟨f.toA1, by rw [if_neg hc], by rw [if_neg hc]⟩
    · simp only [cellValue, moveVal, CellVal.intoAst, fill_rows hf, hcc]
      by_cases hc : f.toA1.contains pos = true
      · exact ⟨.cell ⟨x, pos.y⟩, by rw [if_pos hc]; rfl, by rw [if_pos hc]; rfl⟩
      · exact ⟨f.toA1.withX x, by rw [if_neg hc], by rw [if_neg hc]; rfl⟩

/-! ## The inserted rows -/

/-- `rows'` is `rows` with the rows `mid` inserted below the part that stands for the first `k` rows of the sheet.  No fill is without an amount, the inserted rows
have no fill and no names, and everything fits into 1000 rows. -/
structure Inserted (k : Nat) (mid rows rows' : List Row) : Prop where
  split : ∃ top bottom top' bottom', rows = top ++ bottom ∧ rows' = top' ++ mid ++ bottom' ∧ bounded top = k ∧ List.Forall₂ Alike top top' ∧ List.Forall₂ Alike bottom bottom'
  fills : ∀ r ∈ rows, ¬ Unbounded r
  fits : bounded rows + mid.length ≤ 1000
  noFill : ∀ r ∈ mid, r.fill = none
  noName : ∀ r ∈ mid, names r = []

theorem bounded_append (a b : List Row) : bounded (a ++ b) = bounded a + bounded b := by
  rw [bounded, bounded, bounded, List.map_append, List.sum_append]

theorem alikes_fills {part part' : List Row} (h : List.Forall₂ Alike part part') (hu : ∀ r ∈ part, ¬ Unbounded r) : ∀ r ∈ part', ¬ Unbounded r := by
  induction h with
  | nil => simp
  | cons h _ ih =>
    rename_i r r' rs rs' _
    intro q hq
    rcases List.mem_cons.mp hq with rfl | hq
    · exact fun hu' => hu r (by simp) (alike_unbounded h hu')
    · exact ih (fun q hq => hu q (by simp [hq])) q hq

/-- The expanded sheets. -/
theorem Inserted.expand {k : Nat} {mid rows rows' : List Row} (h : Inserted k mid rows rows') :
    ∃ A B A' B', evalFills ⟨rows, false⟩ = some ⟨A ++ B, true⟩ ∧ evalFills ⟨rows', false⟩ = some ⟨A' ++ mid ++ B', true⟩ ∧ A.length = k ∧ A'.length = k ∧
      List.Forall₂ (AlikeAt (lowered k mid.length)) A A' ∧ List.Forall₂ (AlikeAt (lowered k mid.length)) B B' ∧
      (∀ q ∈ A ++ B, ∀ f, q.fill = some f → FillOk k mid.length f) ∧ (A ++ B).length = bounded rows := by
  obtain ⟨top, bottom, top', bottom', rfl, rfl, rfl, h1, h2⟩ := h.split
  have ht : ∀ r ∈ top, ¬ Unbounded r := fun r hr => h.fills r (by simp [hr])
  have hb : ∀ r ∈ bottom, ¬ Unbounded r := fun r hr => h.fills r (by simp [hr])
  have hm : ∀ r ∈ mid, ¬ Unbounded r := fun r hr ⟨y, hy⟩ => by rw [h.noFill r hr] at hy; cases hy
  have ht' := alikes_fills h1 ht
  have hb' := alikes_fills h2 hb
  have hall : ∀ r ∈ top' ++ mid ++ bottom', ¬ Unbounded r := by
    intro r hr
    rcases List.mem_append.mp hr with hr | hr
    · rcases List.mem_append.mp hr with hr | hr
      · exact ht' r hr
      · exact hm r hr
    · exact hb' r hr
  have htm : ∀ r ∈ top' ++ mid, ¬ Unbounded r := fun r hr => hall r (List.mem_append_left _ hr)
  have hmid : bounded mid = mid.length := by rw [← expand_length (left := 0) mid hm 0, expand_plain h.noFill]
  have hfit := h.fits
  rw [bounded_append] at hfit
  refine ⟨expandLoop (rowsLeftOver (top ++ bottom)) 0 top, expandLoop (rowsLeftOver (top ++ bottom)) (0 + bounded top) bottom,
    expandLoop (rowsLeftOver (top' ++ mid ++ bottom')) 0 top', expandLoop (rowsLeftOver (top' ++ mid ++ bottom')) (0 + (bounded top + mid.length)) bottom', ?_, ?_, ?_, ?_, ?_, ?_, ?_, ?_⟩
  · rw [evalFills_bounded h.fills, expand_append _ _ ht]
  · rw [evalFills_bounded hall, expand_append _ _ htm, expand_append _ _ ht', expand_plain h.noFill, bounded_append, hmid, alikes_bounded h1]
  · exact expand_length _ ht _
  · rw [expand_length _ ht', alikes_bounded h1]
  · exact expand_alike h1 ht fun i hi => by rw [lowered, if_pos (by omega)]
  · exact expand_alike h2 hb fun i hi => by rw [lowered, if_neg (by omega)]; omega
  · intro q hq f hf
    rcases List.mem_append.mp hq with hq | hq
    · obtain ⟨a, e1, e2, e3, e4⟩ := expand_fill ht hq hf
      exact ⟨a, e1, e2, by omega, .inl (by omega)⟩
    · obtain ⟨a, e1, e2, e3, e4⟩ := expand_fill hb hq hf
      exact ⟨a, e1, e2, by omega, .inr (by omega)⟩
  · rw [List.length_append, expand_length _ ht, expand_length _ hb, bounded_append]

theorem alikeAt_length {g : Nat → Nat} {a b : List Row} (h : List.Forall₂ (AlikeAt g) a b) : b.length = a.length := h.length_eq.symm

/-- The names of the sheet with the inserted rows. -/
theorem inserted_vars {k : Nat} {mid A B A' B' : List Row} (hA : A.length = k) (h1 : List.Forall₂ (AlikeAt (lowered k mid.length)) A A')
    (h2 : List.Forall₂ (AlikeAt (lowered k mid.length)) B B') (hn : ∀ r ∈ mid, names r = []) (b b' : Bool) (x : Text) :
    sheetVars ⟨A' ++ mid ++ B', b'⟩ x = (sheetVars ⟨A ++ B, b⟩ x).map fun
      | .cellVar n v => .cellVar n (moveVal (lowered k mid.length) v)
      | d => d := by
  have hl := alikeAt_length h1
  have key : insertions 0 (A' ++ mid ++ B') = (insertions 0 (A ++ B)).map fun p => (p.1, moveVal (lowered k mid.length) p.2) := by
    rw [insertions_append, insertions_append, insertions_append, List.map_append, insertions_unnamed hn, List.append_nil]
    congr 1
    · exact insertions_move h1 fun i hi => by rw [lowered, if_pos (by omega)]
    · exact insertions_move h2 fun i hi => by rw [lowered, if_neg (by omega), List.length_append]; omega
  simp only [sheetVars]
  rw [key, List.map_map, ← collect_mapSnd, List.map_map]
  rfl

/-- The row of the sheet that an expanded one is a copy of. -/
theorem expand_of {left : Nat} {part : List Row} {n : Nat} {q : Row} (hq : q ∈ expandLoop left n part) : ∃ r ∈ part, q.opts = r.opts ∧ q.cells = r.cells := by
  induction part generalizing n with
  | nil => cases hq
  | cons r part ih =>
    rw [expandLoop.eq_def] at hq
    dsimp only at hq
    cases hf : r.fill with
    | none =>
      rw [hf] at hq
      rcases List.mem_cons.mp hq with rfl | hq
      · exact ⟨q, by simp, rfl, rfl⟩
      · obtain ⟨p, h1, h2⟩ := ih hq; exact ⟨p, by simp [h1], h2⟩
    | some f =>
      rw [hf] at hq
      rcases List.mem_append.mp hq with hq | hq
      · obtain ⟨-, rfl⟩ := List.mem_replicate.mp hq
        exact ⟨r, by simp, rfl, rfl⟩
      · obtain ⟨p, h1, h2⟩ := ih hq; exact ⟨p, by simp [h1], h2⟩

theorem evalFills_of {rows : List Row} {s₁ : Sheet} (h : evalFills ⟨rows, false⟩ = some s₁) {q : Row} (hq : q ∈ s₁.rows) : ∃ r ∈ rows, q.opts = r.opts ∧ q.cells = r.cells := by
  simp only [evalFills, Bool.false_eq_true, if_false] at h
  split at h
  · cases h
  · cases h; exact expand_of hq

/-- A name of the expanded sheet is a name of the sheet. -/
theorem sheetVars_named {rows : List Row} {s₁ : Sheet} (h : evalFills ⟨rows, false⟩ = some s₁) {x : Text} {d : Ast} (hx : sheetVars s₁ x = some d) : ∃ q ∈ rows, x ∈ names q := by
  obtain ⟨v, hv, -⟩ := sheetVars_mem hx
  obtain ⟨q, h1, h2⟩ := insertions_keys _ _ _ hv
  obtain ⟨r, h3, h4, h5⟩ := evalFills_of h h1
  exact ⟨r, h3, by rw [names, ← h4, ← h5]; exact h2⟩

section
variable {k : Nat} {mid rows rows' : List Row} {sc : Scope} {ext : Text → Option Ast} {s₁ t₁ : Sheet}

theorem Inserted.vars (h : Inserted k mid rows rows') (hs : evalFills ⟨rows, false⟩ = some s₁) (ht : evalFills ⟨rows', false⟩ = some t₁) (x : Text) :
    sheetVars t₁ x = (sheetVars s₁ x).map fun
      | .cellVar n v => .cellVar n (moveVal (lowered k mid.length) v)
      | d => d := by
  obtain ⟨A, B, A', B', e1, e2, e3, -, e5, e6, -⟩ := h.expand
  rw [hs] at e1; rw [ht] at e2; cases e1; cases e2
  exact inserted_vars e3 e5 e6 h.noName _ _ x

/-- The definitions that the formulas of the two sheets see. -/
theorem Inserted.scope (h : Inserted k mid rows rows') (hs : evalFills ⟨rows, false⟩ = some s₁) (ht : evalFills ⟨rows', false⟩ = some t₁) (hn : NotLikeCells sc ext rows) (pos : Addr) :
    MovedScope (FollowsRef sc ext rows (lowered k mid.length) pos) (some pos) (some ⟨pos.x, lowered k mid.length pos.y⟩) (effective sc ext s₁) (effective sc ext t₁) := by
  have kept : ∀ x, (∀ a : A1, x ≠ a.text) → KeptName (FollowsRef sc ext rows (lowered k mid.length) pos) x := by
    rintro x hx r r' (⟨rfl, -⟩ | ⟨a, -, rfl, rfl⟩)
    · exact Iff.rfl
    · exact ⟨fun e => absurd e (hx _), fun e => absurd e (hx _)⟩
  have plain : ∀ x d, (sc.variables x = some d ∨ ext x = some d) → ∃ v, (∀ p, resolve p d = some v) ∧ Moved (FollowsRef sc ext rows (lowered k mid.length) pos) v v := by
    intro x d hd
    have hr : ∀ r ∈ refNames d, FollowsRef sc ext rows (lowered k mid.length) pos r r := fun r hr =>
      .inl ⟨rfl, .inr ⟨x, d, hd.elim (fun h => .inr (.inl h)) (fun h => .inr (.inr h)), hr⟩⟩
    cases d with
    | var n a => exact ⟨a, fun _ => rfl, .refl hr⟩
    | cellVar n v => rcases hd with hd | hd; exact absurd hd (hn.plain x n v).1; exact absurd hd (hn.plain x n v).2
    | _ => exact ⟨_, fun _ => rfl, .refl hr⟩
  have free : ∀ a : A1, sheetVars s₁ a.text = none := by
    intro a
    cases hx : sheetVars s₁ a.text with
    | none => rfl
    | some d => obtain ⟨q, h1, h2⟩ := sheetVars_named hs hx; exact absurd h2 (hn.named q h1 a)
  have hvars := h.vars hs ht
  refine ⟨rfl, fun g d hd => ?_, fun g d hd => ?_, fun x => ?_, fun r r' hr => ?_⟩
  · exact .refl fun r hr => .inl ⟨rfl, .inr ⟨g, d, .inl hd, hr⟩⟩
  · cases d with
    | fn n ps b => exact fun p hp => kept p fun a e => hn.params g n ps b hd a (e ▸ hp)
    | _ => exact trivial
  · show ((sc.variables x).or ((sheetVars s₁ x).or (ext x)) = none ∧ (sc.variables x).or ((sheetVars t₁ x).or (ext x)) = none) ∨ _
    cases ho : sc.variables x with
    | some d =>
      obtain ⟨v, h1, h2⟩ := plain x d (.inl ho)
      refine .inr ⟨d, d, by simp [effective, ho], by simp [effective, ho], kept x fun a e => ?_, .inr ⟨v, v, h1 _, h1 _, h2⟩⟩
      rw [e, hn.own a] at ho; cases ho
    | none =>
      cases hv : sheetVars s₁ x with
      | some d =>
        obtain ⟨q, q1, q2⟩ := sheetVars_named hs hv
        obtain ⟨v, v1, rfl⟩ := sheetVars_mem hv
        have hv' := hvars x
        rw [hv] at hv'
        simp only [Option.map_some] at hv'
        refine .inr ⟨.cellVar x v, _, by simp [effective, ho, hv], by simp only [effective, ho, hv']; rfl, kept x fun a e => hn.named q q1 a (e ▸ q2), .inr ?_⟩
        obtain ⟨A, B, A', B', e1, -, -, -, -, -, e7, -⟩ := h.expand
        rw [hs] at e1; cases e1
        obtain ⟨q', p1, y', p2⟩ := insertions_value v1
        obtain ⟨c, c1, c2⟩ := intoAst_move (k := k) (n := mid.length) (v := v) ⟨q'.fill, e7 q' p1, y', p2⟩ pos
        exact ⟨_, _, c1, c2, .ref (.inr ⟨c, ⟨_, x, v, hs, hv, c1⟩, rfl, rfl⟩)⟩
      | none =>
        have hv' := hvars x
        rw [hv] at hv'
        simp only [Option.map_none] at hv'
        cases he : ext x with
        | none => exact .inl ⟨by simp, by simp [hv']⟩
        | some d =>
          obtain ⟨v, h1, h2⟩ := plain x d (.inr he)
          refine .inr ⟨d, d, by simp [effective, ho, hv, he], by simp [effective, ho, hv', he], kept x fun a e => ?_, .inr ⟨v, v, h1 _, h1 _, h2⟩⟩
          rw [e, hn.line a] at he; cases he
  · rcases hr with ⟨rfl, -⟩ | ⟨a, -, rfl, rfl⟩
    · exact .inl rfl
    · refine .inr ⟨?_, ?_⟩
      · show (sc.variables _).or ((sheetVars s₁ _).or (ext _)) = none
        rw [hn.own, free, hn.line]; rfl
      · show (sc.variables _).or ((sheetVars t₁ _).or (ext _)) = none
        rw [hn.own, hvars, free, hn.line]; rfl

/-- The two cells have the same value and options, and the results of their formulas are the same except that references by name follow their cells. -/
structure SameCell (R : Text → Text → Prop) (c c' : Cell) : Prop where
  value : c'.value = c.value
  opts : c'.opts = c.opts
  ast : (c.ast = none ∧ c'.ast = none) ∨ ∃ b b', c.ast = some b ∧ c'.ast = some b' ∧ Moved R b b'

/-- C105, one formula.  Insert rows into a sheet.  Every outcome of a formula in a cell is one of the same formula in the cell where it is then, except that
references by name follow their cells. -/
theorem C105_formula (h : Inserted k mid rows rows') (hs : evalFills ⟨rows, false⟩ = some s₁) (ht : evalFills ⟨rows', false⟩ = some t₁) (hn : NotLikeCells sc ext rows)
    {f : Ast} (hf : ∃ q ∈ rows, ∃ c ∈ q.cells, c.ast = some f) (x y : Nat) :
    (∀ o, Eval (effective sc ext s₁) (some ⟨x, y⟩) f o →
      ∃ o', Eval (effective sc ext t₁) (some ⟨x, lowered k mid.length y⟩) f o' ∧ MovedOut (FollowsRef sc ext rows (lowered k mid.length) ⟨x, y⟩) o o') ∧
    ∀ o', Eval (effective sc ext t₁) (some ⟨x, lowered k mid.length y⟩) f o' →
      ∃ o, Eval (effective sc ext s₁) (some ⟨x, y⟩) f o ∧ MovedOut (FollowsRef sc ext rows (lowered k mid.length) ⟨x, y⟩) o o' := by
  have hsc := h.scope hs ht hn ⟨x, y⟩
  obtain ⟨q, q1, c, c1, c2⟩ := hf
  have hm : Moved (FollowsRef sc ext rows (lowered k mid.length) ⟨x, y⟩) f f := .refl fun r hr => .inl ⟨rfl, .inl ⟨q, q1, c, c1, f, c2, hr⟩⟩
  refine ⟨fun o ho => hsc.Eval hm ho, fun o' ho' => ?_⟩
  obtain ⟨o, h1, h2⟩ := hsc.symm.Eval hm.symm ho'
  exact ⟨o, h1, h2.symm⟩

/-! ## The sheet -/

theorem forall₂_of {α β : Type} {R : α → β → Prop} {l : List α} {l' : List β} (hl : l'.length = l.length)
    (h : ∀ (i : Nat) a b, l[i]? = some a → l'[i]? = some b → R a b) : List.Forall₂ R l l' := by
  induction l generalizing l' with
  | nil => cases List.length_eq_zero_iff.mp hl; exact .nil
  | cons a l ih =>
    cases l' with
    | nil => cases hl
    | cons b l' =>
      exact .cons (h 0 a b rfl rfl) (ih (by simpa using hl) fun i a b ha hb => h (i + 1) a b (by simpa using ha) (by simpa using hb))

theorem forall₂_get {α β : Type} {R : α → β → Prop} {l : List α} {l' : List β} (h : List.Forall₂ R l l') {i : Nat} {a : α} (ha : l[i]? = some a) : ∃ b, l'[i]? = some b ∧ R a b := by
  induction h generalizing i with
  | nil => cases ha
  | cons h _ ih =>
    cases i with
    | zero => cases ha; exact ⟨_, rfl, h⟩
    | succ i => obtain ⟨b, h1, h2⟩ := ih (by simpa using ha); exact ⟨b, by simpa using h1, h2⟩

theorem forall₂_get' {α β : Type} {R : α → β → Prop} {l : List α} {l' : List β} (h : List.Forall₂ R l l') {i : Nat} {b : β} (hb : l'[i]? = some b) : ∃ a, l[i]? = some a ∧ R a b := by
  have hi : i < l.length := by rw [h.length_eq]; exact (List.getElem?_eq_some_iff.mp hb).1
  obtain ⟨b', h1, h2⟩ := forall₂_get h (List.getElem?_eq_getElem hi)
  rw [hb] at h1; cases h1
  exact ⟨_, List.getElem?_eq_getElem hi, h2⟩

/-- The rows of the two expanded sheets. -/
theorem Inserted.rowsAt (h : Inserted k mid rows rows') (hs : evalFills ⟨rows, false⟩ = some s₁) (ht : evalFills ⟨rows', false⟩ = some t₁) :
    t₁.rows.length = s₁.rows.length + mid.length ∧
    (∀ (y : Nat) q, s₁.rows[y]? = some q → ∃ q', t₁.rows[lowered k mid.length y]? = some q' ∧ AlikeAt (lowered k mid.length) q q') ∧
    (∀ (i : Nat) q, mid[i]? = some q → t₁.rows[k + i]? = some q) ∧
    ∀ (y' : Nat) q', t₁.rows[y']? = some q' →
      (∃ y q, y' = lowered k mid.length y ∧ s₁.rows[y]? = some q ∧ AlikeAt (lowered k mid.length) q q') ∨ ∃ i, y' = k + i ∧ mid[i]? = some q' := by
  obtain ⟨A, B, A', B', e1, e2, e3, e4, e5, e6, -⟩ := h.expand
  rw [hs] at e1; rw [ht] at e2; cases e1; cases e2
  dsimp only
  have l1 := e5.length_eq
  have l2 := e6.length_eq
  refine ⟨by simp only [List.length_append]; omega, fun y q hq => ?_, fun i q hq => ?_, fun y' q' hq' => ?_⟩
  · by_cases hy : y < k
    · rw [List.getElem?_append_left (by omega)] at hq
      obtain ⟨b, h1, h2⟩ := forall₂_get e5 hq
      refine ⟨b, ?_, h2⟩
      rw [lowered, if_pos hy, List.append_assoc, List.getElem?_append_left (by omega), h1]
    · rw [List.getElem?_append_right (by omega)] at hq
      obtain ⟨b, h1, h2⟩ := forall₂_get e6 hq
      refine ⟨b, ?_, h2⟩
      rw [lowered, if_neg hy, List.getElem?_append_right (by rw [List.length_append]; omega), ← h1]
      congr 1
      rw [List.length_append]; omega
  · have hi := (List.getElem?_eq_some_iff.mp hq).1
    rw [List.append_assoc, List.getElem?_append_right (by omega), e4, Nat.add_sub_cancel_left, List.getElem?_append_left hi, hq]
  · by_cases hy : y' < k
    · rw [List.append_assoc, List.getElem?_append_left (by omega)] at hq'
      obtain ⟨a, h1, h2⟩ := forall₂_get' e5 hq'
      exact .inl ⟨y', a, by rw [lowered, if_pos hy], by rw [List.getElem?_append_left (by omega), h1], h2⟩
    · by_cases hm : y' < k + mid.length
      · rw [List.append_assoc, List.getElem?_append_right (by omega), List.getElem?_append_left (by omega), e4] at hq'
        exact .inr ⟨y' - k, by omega, hq'⟩
      · rw [List.getElem?_append_right (by rw [List.length_append]; omega)] at hq'
        obtain ⟨a, h1, h2⟩ := forall₂_get' e6 hq'
        refine .inl ⟨y' - mid.length, a, by rw [lowered, if_neg (by omega)]; omega, ?_, h2⟩
        rw [List.getElem?_append_right (by omega), ← h1]
        congr 1
        rw [List.length_append]; omega

/-- `t'` is `s'` with `n` rows inserted below the first `k`: the other rows have the same options and the same cells, except that references by name follow their
cells. -/
structure SameSheet (R : Addr → Text → Text → Prop) (k n : Nat) (s' t' : Sheet) : Prop where
  len : t'.rows.length = s'.rows.length + n
  row : ∀ (y : Nat) r, s'.rows[y]? = some r → ∃ r', t'.rows[lowered k n y]? = some r' ∧ r'.opts = r.opts ∧ r'.cells.length = r.cells.length ∧
    ∀ (x : Nat) c c', r.cells[x]? = some c → r'.cells[x]? = some c' → SameCell (R ⟨x, y⟩) c c'

theorem contents_get {cs cs' : List Cell} (h : cs'.map contents = cs.map contents) {x : Nat} {c : Cell} (hc : cs[x]? = some c) : ∃ c', cs'[x]? = some c' ∧ contents c' = contents c := by
  have := congrArg (·[x]?) h
  simp only [List.getElem?_map, hc, Option.map_some] at this
  exact Option.map_eq_some_iff.mp this

theorem cells_ex {q : Row} {Q : Nat → Cell → Cell → Prop} (h : ∀ (x : Nat) c, q.cells[x]? = some c → ∃ c', Q x c c') :
    ∃ q' : Row, q'.opts = q.opts ∧ q'.fill = q.fill ∧ q'.cells.length = q.cells.length ∧ ∀ (x : Nat) c c', q.cells[x]? = some c → q'.cells[x]? = some c' → Q x c c' := by
  obtain ⟨cs, k1, k2⟩ := exists_list q.cells h
  exact ⟨{ q with cells := cs }, rfl, rfl, k1, k2⟩

/-- C105.  Insert rows into a sheet.  For every outcome of the sheet, if the formulas of the inserted rows have results, the sheet with the inserted rows has an
outcome with the same other rows, in which every reference by name follows its cell. -/
theorem C105_insert (h : Inserted k mid rows rows') (hs : evalFills ⟨rows, false⟩ = some s₁) (ht : evalFills ⟨rows', false⟩ = some t₁) (hn : NotLikeCells sc ext rows)
    {s' : Sheet} (he : EvalSheet sc ext ⟨rows, false⟩ (.ok s'))
    (hnew : ∀ (i x : Nat) r c f, mid[i]? = some r → r.cells[x]? = some c → c.ast = some f → ∃ b, Eval (effective sc ext t₁) (some ⟨x, k + i⟩) f (.ok b)) :
    ∃ t', EvalSheet sc ext ⟨rows', false⟩ (.ok t') ∧ SameSheet (FollowsRef sc ext rows (lowered k mid.length)) k mid.length s' t' := by
  obtain ⟨h1, h2, s₂, hs₂, hcc⟩ := (C103_cell_by_cell ..).mp he
  rw [hs] at hs₂; cases hs₂
  obtain ⟨hlen, hfwd, hmid, hbwd⟩ := h.rowsAt hs ht
  have hrow : ∀ (y' : Nat) q', t₁.rows[y']? = some q' → ∃ r' : Row, r'.opts = q'.opts ∧ r'.fill = q'.fill ∧ r'.cells.length = q'.cells.length ∧
      ∀ (x : Nat) c' d', q'.cells[x]? = some c' → r'.cells[x]? = some d' → CellEval (effective sc ext t₁) ⟨x, y'⟩ c' d' ∧
        ∀ y, y' = lowered k mid.length y → ∀ r d, s'.rows[y]? = some r → r.cells[x]? = some d → SameCell (FollowsRef sc ext rows (lowered k mid.length) ⟨x, y⟩) d d' := by
    intro y' q' hq'
    rcases hbwd y' q' hq' with ⟨y, q, rfl, hq, hat⟩ | ⟨i, rfl, hi⟩
    · refine cells_ex fun x c' hc' => ?_
      obtain ⟨c, hc, hcon⟩ := contents_get hat.cells.symm hc'
      simp only [contents, Prod.mk.injEq] at hcon
      obtain ⟨r0, r1, r2, r3⟩ := evalFills_of hs (List.mem_of_getElem? hq)
      have hy : y < s'.rows.length := by rw [hcc.rows]; exact (List.getElem?_eq_some_iff.mp hq).1
      have hx : x < s'.rows[y].cells.length := by rw [(hcc.row y q _ hq (List.getElem?_eq_getElem hy)).2.2]; exact (List.getElem?_eq_some_iff.mp hc).1
      have hce := hcc.cell y x q _ c _ hq (List.getElem?_eq_getElem hy) hc (List.getElem?_eq_getElem hx)
      have hsame : ∀ d' : Cell, SameCell (FollowsRef sc ext rows (lowered k mid.length) ⟨x, y⟩) s'.rows[y].cells[x] d' → ∀ y₂, lowered k mid.length y = lowered k mid.length y₂ → ∀ r d, s'.rows[y₂]? = some r →
          r.cells[x]? = some d → SameCell (FollowsRef sc ext rows (lowered k mid.length) ⟨x, y₂⟩) d d' := by
        intro d' hd' y₂ e r d hr hd
        have : y₂ = y := by unfold lowered at e; split at e <;> split at e <;> omega
        subst this
        rw [List.getElem?_eq_getElem hy] at hr; cases hr
        rw [List.getElem?_eq_getElem hx] at hd; cases hd
        exact hd'
      cases ha : c.ast with
      | none =>
        have ha' : c'.ast = none := by rw [← hcon.2.2, ha]
        refine ⟨c', ⟨rfl, rfl, rfl, fun h => h, (fun f hf => by rw [ha'] at hf; cases hf)⟩, hsame c' ⟨?_, ?_, .inl ⟨hce.text ha, ha'⟩⟩⟩
        · rw [hce.value, hcon.2.1]
        · rw [hce.opts, hcon.1]
      | some f =>
        have ha' : c'.ast = some f := by rw [← hcon.2.2, ha]
        obtain ⟨b, hb, hev⟩ := hce.formula f ha
        obtain ⟨o', ho', hmo⟩ := (C105_formula h hs ht hn ⟨r0, r1, c, by rw [← r3]; exact List.mem_of_getElem? hc, ha⟩ x y).1 _ hev
        cases hmo with
        | @ok _ b' hm =>
          refine ⟨{ c' with ast := some b' }, ⟨rfl, rfl, rfl, (fun h => by rw [ha'] at h; cases h), fun g hg => ⟨b', rfl, ?_⟩⟩, hsame _ ⟨?_, ?_, .inr ⟨b, b', hb, rfl, hm⟩⟩⟩
          · rw [ha'] at hg; cases hg; exact ho'
          · show c'.value = _; rw [hce.value, hcon.2.1]
          · show c'.opts = _; rw [hce.opts, hcon.1]
    · have hvac : ∀ (x : Nat) (d' : Cell), ∀ y, k + i = lowered k mid.length y → ∀ r d, s'.rows[y]? = some r → r.cells[x]? = some d →
          SameCell (FollowsRef sc ext rows (lowered k mid.length) ⟨x, y⟩) d d' := by
        intro x d' y e
        have := (List.getElem?_eq_some_iff.mp hi).1
        unfold lowered at e
        split at e <;> omega
      refine cells_ex fun x c' hc' => ?_
      cases ha : c'.ast with
      | none => exact ⟨c', ⟨rfl, rfl, rfl, fun h => h, (fun f hf => by rw [ha] at hf; cases hf)⟩, hvac x c'⟩
      | some f =>
        obtain ⟨b, hb⟩ := hnew i x q' c' f hi hc' ha
        refine ⟨{ c' with ast := some b }, ⟨rfl, rfl, rfl, (fun h => by rw [ha] at h; cases h), fun g hg => ⟨b, rfl, ?_⟩⟩, hvac x _⟩
        rw [ha] at hg; cases hg; exact hb
  obtain ⟨rs, k1, k2⟩ := exists_list t₁.rows hrow
  refine ⟨⟨rs, t₁.expanded⟩, (C103_cell_by_cell ..).mpr ⟨h1, h2, t₁, ht, rfl, k1, fun y r r' hr hr' => ?_, fun y x r r' c c' hr hr' hc hc' => ?_⟩, ?_, ?_⟩
  · obtain ⟨m1, m2, m3, -⟩ := k2 y r r' hr hr'
    exact ⟨m1, m2, m3⟩
  · exact ((k2 y r r' hr hr').2.2.2 x c c' hc hc').1
  · show rs.length = _
    rw [k1, hlen, hcc.rows]
  · intro y r hr
    have hy : y < s₁.rows.length := by rw [← hcc.rows]; exact (List.getElem?_eq_some_iff.mp hr).1
    obtain ⟨q', hq', hat⟩ := hfwd y _ (List.getElem?_eq_getElem hy)
    have hy' : lowered k mid.length y < rs.length := by rw [k1]; exact (List.getElem?_eq_some_iff.mp hq').1
    obtain ⟨m1, -, m3, m4⟩ := k2 _ _ _ hq' (List.getElem?_eq_getElem hy')
    obtain ⟨n1, -, n3⟩ := hcc.row y _ _ (List.getElem?_eq_getElem hy) hr
    have hcl : q'.cells.length = s₁.rows[y].cells.length := by simpa using congrArg List.length hat.cells
    refine ⟨_, List.getElem?_eq_getElem hy', by rw [m1, n1, hat.opts], by rw [m3, n3, hcl], fun x d d' hd hd' => ?_⟩
    have hx : x < q'.cells.length := by rw [hcl, ← n3]; exact (List.getElem?_eq_some_iff.mp hd).1
    exact (m4 x _ _ (List.getElem?_eq_getElem hx) hd').2 y rfl r d hr hd

/-- C105, the other way round: every outcome of the sheet with the inserted rows is, but for those rows, one of the sheet, in which every reference by name
follows its cell. -/
theorem C105_remove (h : Inserted k mid rows rows') (hs : evalFills ⟨rows, false⟩ = some s₁) (ht : evalFills ⟨rows', false⟩ = some t₁) (hn : NotLikeCells sc ext rows)
    {t' : Sheet} (he : EvalSheet sc ext ⟨rows', false⟩ (.ok t')) :
    ∃ s', EvalSheet sc ext ⟨rows, false⟩ (.ok s') ∧ SameSheet (FollowsRef sc ext rows (lowered k mid.length)) k mid.length s' t' := by
  obtain ⟨h1, h2, t₂, ht₂, hcc⟩ := (C103_cell_by_cell ..).mp he
  rw [ht] at ht₂; cases ht₂
  obtain ⟨hlen, hfwd, hmid, hbwd⟩ := h.rowsAt hs ht
  have hrow : ∀ (y : Nat) q, s₁.rows[y]? = some q → ∃ r : Row, r.opts = q.opts ∧ r.fill = q.fill ∧ r.cells.length = q.cells.length ∧
      ∀ (x : Nat) c d, q.cells[x]? = some c → r.cells[x]? = some d → CellEval (effective sc ext s₁) ⟨x, y⟩ c d ∧
        ∀ r' d', t'.rows[lowered k mid.length y]? = some r' → r'.cells[x]? = some d' → SameCell (FollowsRef sc ext rows (lowered k mid.length) ⟨x, y⟩) d d' := by
    intro y q hq
    obtain ⟨q', hq', hat⟩ := hfwd y q hq
    refine cells_ex fun x c hc => ?_
    obtain ⟨c', hc', hcon⟩ := contents_get hat.cells hc
    simp only [contents, Prod.mk.injEq] at hcon
    obtain ⟨r0, r1, r2, r3⟩ := evalFills_of hs (List.mem_of_getElem? hq)
    have hy : lowered k mid.length y < t'.rows.length := by rw [hcc.rows]; exact (List.getElem?_eq_some_iff.mp hq').1
    have hx : x < t'.rows[lowered k mid.length y].cells.length := by rw [(hcc.row _ q' _ hq' (List.getElem?_eq_getElem hy)).2.2]; exact (List.getElem?_eq_some_iff.mp hc').1
    have hce := hcc.cell _ x q' _ c' _ hq' (List.getElem?_eq_getElem hy) hc' (List.getElem?_eq_getElem hx)
    have hsame : ∀ d : Cell, SameCell (FollowsRef sc ext rows (lowered k mid.length) ⟨x, y⟩) d t'.rows[lowered k mid.length y].cells[x] → ∀ r' d', t'.rows[lowered k mid.length y]? = some r' →
        r'.cells[x]? = some d' → SameCell (FollowsRef sc ext rows (lowered k mid.length) ⟨x, y⟩) d d' := by
      intro d hd r' d' hr' hd'
      rw [List.getElem?_eq_getElem hy] at hr'; cases hr'
      rw [List.getElem?_eq_getElem hx] at hd'; cases hd'
      exact hd
    cases ha : c.ast with
    | none =>
      have ha' : c'.ast = none := by rw [hcon.2.2, ha]
      refine ⟨c, ⟨rfl, rfl, rfl, fun h => h, (fun f hf => by rw [ha] at hf; cases hf)⟩, hsame c ⟨?_, ?_, .inl ⟨ha, hce.text ha'⟩⟩⟩
      · rw [hce.value, hcon.2.1]
      · rw [hce.opts, hcon.1]
    | some f =>
      have ha' : c'.ast = some f := by rw [hcon.2.2, ha]
      obtain ⟨b', hb', hev⟩ := hce.formula f ha'
      obtain ⟨o, ho, hmo⟩ := (C105_formula h hs ht hn ⟨r0, r1, c, by rw [← r3]; exact List.mem_of_getElem? hc, ha⟩ x y).2 _ hev
      cases hmo with
      | @ok b _ hm =>
        refine ⟨{ c with ast := some b }, ⟨rfl, rfl, rfl, (fun h => by rw [ha] at h; cases h), fun g hg => ⟨b, rfl, ?_⟩⟩, hsame _ ⟨?_, ?_, .inr ⟨b, b', rfl, hb', hm⟩⟩⟩
        · rw [ha] at hg; cases hg; exact ho
        · show _ = c.value; rw [hce.value, hcon.2.1]
        · show _ = c.opts; rw [hce.opts, hcon.1]
  obtain ⟨rs, k1, k2⟩ := exists_list s₁.rows hrow
  refine ⟨⟨rs, s₁.expanded⟩, (C103_cell_by_cell ..).mpr ⟨h1, h2, s₁, hs, rfl, k1, fun y r r' hr hr' => ?_, fun y x r r' c c' hr hr' hc hc' => ?_⟩, ?_, ?_⟩
  · obtain ⟨m1, m2, m3, -⟩ := k2 y r r' hr hr'
    exact ⟨m1, m2, m3⟩
  · exact ((k2 y r r' hr hr').2.2.2 x c c' hc hc').1
  · show _ = rs.length + _
    rw [k1, hcc.rows, hlen]
  · intro y r hr
    change rs[y]? = some r at hr
    have hy : y < s₁.rows.length := by rw [← k1]; exact (List.getElem?_eq_some_iff.mp hr).1
    obtain ⟨q', hq', hat⟩ := hfwd y _ (List.getElem?_eq_getElem hy)
    have hy' : lowered k mid.length y < t'.rows.length := by rw [hcc.rows]; exact (List.getElem?_eq_some_iff.mp hq').1
    obtain ⟨m1, -, m3, m4⟩ := k2 _ _ _ (List.getElem?_eq_getElem hy) hr
    obtain ⟨n1, -, n3⟩ := hcc.row _ _ _ hq' (List.getElem?_eq_getElem hy')
    have hcl : q'.cells.length = s₁.rows[y].cells.length := by simpa using congrArg List.length hat.cells
    refine ⟨_, List.getElem?_eq_getElem hy', by rw [m1, n1, hat.opts], by rw [m3, n3, hcl], fun x d d' hd hd' => ?_⟩
    have hx : x < s₁.rows[y].cells.length := by rw [← m3]; exact (List.getElem?_eq_some_iff.mp hd).1
    exact (m4 x _ _ (List.getElem?_eq_getElem hx) hd).2 _ _ (List.getElem?_eq_getElem hy') hd'

end

end Verif.Cli
