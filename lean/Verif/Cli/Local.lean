import Verif.Cli.Cells
import Verif.Cli.Props
import Verif.Sheet.Unused
import Verif.Cli.Modules
import Verif.Cli.Examples
/-
Editing a cell changes that cell only (C103).
-/
namespace Verif.Cli
open Verif.Ast Verif.Loader Verif.Sheet Verif.Cache Verif.Csvp.Spec
open Verif.Cell hiding Target
open Verif.Target hiding MPath

/-! ## A sheet is evaluated cell by cell -/

/-- `c'` is `c` evaluated at the address: everything but the formula is kept. -/
structure CellEval (sc : Scope) (pos : Addr) (c c' : Cell) : Prop where
  field : c'.field = c.field
  value : c'.value = c.value
  opts : c'.opts = c.opts
  text : c.ast = none → c'.ast = none
  formula : ∀ f, c.ast = some f → ∃ b, c'.ast = some b ∧ Eval sc (some pos) f (.ok b)

/-- `s'` is the expanded sheet `s₁` with every cell evaluated on its own. -/
structure CellByCell (sc : Scope) (s₁ s' : Sheet) : Prop where
  expanded : s'.expanded = s₁.expanded
  rows : s'.rows.length = s₁.rows.length
  row : ∀ (y : Nat) r r', s₁.rows[y]? = some r → s'.rows[y]? = some r' → r'.opts = r.opts ∧ r'.fill = r.fill ∧ r'.cells.length = r.cells.length
  cell : ∀ (y x : Nat) r r' c c', s₁.rows[y]? = some r → s'.rows[y]? = some r' → r.cells[x]? = some c → r'.cells[x]? = some c' → CellEval sc ⟨x, y⟩ c c'

theorem evalCells_of {sc : Scope} {y : Nat} {cs cs' : List Cell} (x : Nat) (hl : cs'.length = cs.length)
    (h : ∀ (i : Nat) c c', cs[i]? = some c → cs'[i]? = some c' → CellEval sc ⟨x + i, y⟩ c c') : EvalCells sc y x cs (.ok cs') := by
  induction cs generalizing x cs' with
  | nil => cases List.length_eq_zero_iff.mp hl; exact .nil
  | cons c cs ih =>
    cases cs' with
    | nil => cases hl
    | cons c' cs' =>
      have hrest := ih (cs' := cs') (x + 1) (by simpa using hl) fun i d d' hd hd' => by
        have := h (i + 1) d d' (by simpa using hd) (by simpa using hd')
        rwa [show x + (i + 1) = x + 1 + i by omega] at this
      have hc := h 0 c c' rfl rfl
      rw [Nat.add_zero] at hc
      cases ha : c.ast with
      | none =>
        have := EvalCells.value ha hrest
        rw [Out.map] at this
        have e : ({ c with ast := none } : Cell) = c' := cell_ext (hc.text ha).symm hc.field.symm hc.value.symm hc.opts.symm
        rwa [e] at this
      | some f =>
        obtain ⟨b, hb, hev⟩ := hc.formula f ha
        have := EvalCells.formula ha hev hrest
        rw [Out.map] at this
        have e : ({ c with ast := some b } : Cell) = c' := cell_ext hb.symm hc.field.symm hc.value.symm hc.opts.symm
        rwa [e] at this

theorem evalAll_of {sc : Scope} {rs rs' : List Row} (y : Nat) (hl : rs'.length = rs.length)
    (h : ∀ (i : Nat) r r', rs[i]? = some r → rs'[i]? = some r' → r'.opts = r.opts ∧ r'.fill = r.fill ∧ EvalCells sc (y + i) 0 r.cells (.ok r'.cells)) :
    EvalAll sc y rs rs' := by
  induction rs generalizing y rs' with
  | nil => cases List.length_eq_zero_iff.mp hl; exact .nil
  | cons r rs ih =>
    cases rs' with
    | nil => cases hl
    | cons r' rs' =>
      obtain ⟨h1, h2, h3⟩ := h 0 r r' rfl rfl
      refine .cons ⟨_, h3, ?_⟩ (ih (y + 1) (by simpa using hl) fun i d d' hd hd' => ?_)
      · rw [Out.map]
        congr 1
        exact row_ext h1 h2 rfl
      · have := h (i + 1) d d' (by simpa using hd) (by simpa using hd')
        rwa [show y + (i + 1) = y + 1 + i by omega] at this

/-- C103, exactly: the outcomes of a sheet without an error are the expanded sheets with every formula replaced by some result of its own evaluation,
independently of the others. -/
theorem C103_cell_by_cell (sc : Scope) (ext : Text → Option Ast) (s s' : Sheet) :
    EvalSheet sc ext s (.ok s') ↔ (∃ own, IsEnum own sc.variables) ∧ (∃ e, IsEnum e ext) ∧ ∃ s₁, evalFills s = some s₁ ∧ CellByCell (effective sc ext s₁) s₁ s' := by
  constructor
  · intro h
    obtain ⟨h1, h2, -⟩ := evalSheet_iff.mp h
    obtain ⟨s₁, _, _, _, _, _, hfill, -⟩ := id h
    obtain ⟨k1, k2, k3⟩ := C51_shape sc ext s s₁ s' h hfill
    refine ⟨h1, h2, s₁, hfill, k1, k2, fun y r r' hr hr' => ?_, fun y x r r' c c' hr hr' hc hc' => ?_⟩
    · obtain ⟨q, m1, m2, m3, m4, -⟩ := k3 y r hr
      rw [hr'] at m1; cases m1
      exact ⟨m2, m3, m4⟩
    · obtain ⟨q, m1, -, -, -, m5⟩ := k3 y r hr
      rw [hr'] at m1; cases m1
      obtain ⟨d, n1, n2, n3, n4, n5, n6⟩ := m5 x c hc
      rw [hc'] at n1; cases n1
      exact ⟨n2, n3, n4, n5, n6⟩
  · rintro ⟨h1, h2, s₁, hfill, hc⟩
    refine evalSheet_iff.mpr ⟨h1, h2, s₁, .ok s'.rows, hfill, .ok ?_, ?_⟩
    · refine evalAll_of 0 hc.rows fun i r r' hr hr' => ?_
      obtain ⟨e1, e2, e3⟩ := hc.row i r r' hr hr'
      refine ⟨e1, e2, evalCells_of 0 e3 fun j c c' hj hj' => ?_⟩
      rw [Nat.zero_add, Nat.zero_add]
      exact hc.cell i j r r' c c' hr hr' hj hj'
    · rw [Out.map]
      congr 1
      cases s'
      have := hc.expanded
      simp only at this
      rw [this]

theorem exists_list {α β : Type} {R : Nat → α → β → Prop} (l : List α) (h : ∀ (i : Nat) a, l[i]? = some a → ∃ b, R i a b) :
    ∃ l' : List β, l'.length = l.length ∧ ∀ (i : Nat) a b, l[i]? = some a → l'[i]? = some b → R i a b := by
  induction l generalizing R with
  | nil => exact ⟨[], rfl, by simp⟩
  | cons a l ih =>
    obtain ⟨b, hb⟩ := h 0 a rfl
    obtain ⟨l', h1, h2⟩ := ih (R := fun i => R (i + 1)) fun i a ha => h (i + 1) a (by simpa using ha)
    refine ⟨b :: l', by simp [h1], fun i a' b' ha hb' => ?_⟩
    cases i with
    | zero => cases ha; cases hb'; exact hb
    | succ i => exact h2 i a' b' (by simpa using ha) (by simpa using hb')

/-! ## What does not depend on the contents of the cells -/

def bareCell (c : Cell) : Cell := ⟨none, ⟨⟨0, 0⟩, [], []⟩, [], c.opts⟩

def bare (r : Row) : Row := { r with cells := r.cells.map bareCell }

theorem expandLoop_bare (left : Nat) (rows : List Row) (n : Nat) : expandLoop left n (rows.map bare) = (expandLoop left n rows).map bare := by
  induction rows generalizing n with
  | nil => rfl
  | cons r rows ih =>
    have hf : (bare r).fill = r.fill := rfl
    rw [List.map_cons, expandLoop, expandLoop, hf]
    cases r.fill with
    | none => simp only [List.map_cons, ih]
    | some f => simp only [List.map_append, List.map_replicate, ih]; rfl

theorem multipleInfinite_bare (rows : List Row) (b : Bool) : multipleInfinite b (rows.map bare) = multipleInfinite b rows := by
  induction rows generalizing b with
  | nil => rfl
  | cons r rows ih =>
    have hf : (bare r).fill = r.fill := rfl
    rw [List.map_cons, multipleInfinite.eq_def, multipleInfinite.eq_def b (r :: rows)]
    simp only [hf, ih]

theorem rowsLeftOver_bare (rows : List Row) : rowsLeftOver (rows.map bare) = rowsLeftOver rows := by
  rw [rowsLeftOver, rowsLeftOver, List.foldl_map]
  rfl

theorem evalFills_bare (rows : List Row) : evalFills ⟨rows.map bare, false⟩ = (evalFills ⟨rows, false⟩).map fun s => { s with rows := s.rows.map bare } := by
  rw [evalFills, evalFills]
  simp only [Bool.false_eq_true, if_false, multipleInfinite_bare, rowsLeftOver_bare, expandLoop_bare]
  split <;> rfl

theorem cellVars_bare (y : Nat) (fill : Option Fill) (cs : List Cell) (x : Nat) : cellVars y fill x (cs.map bareCell) = cellVars y fill x cs := by
  induction cs generalizing x with
  | nil => rfl
  | cons c cs ih => rw [List.map_cons, cellVars, cellVars, ih]; rfl

theorem insertions_bare (rows : List Row) (y : Nat) : insertions y (rows.map bare) = insertions y rows := by
  induction rows generalizing y with
  | nil => rfl
  | cons r rows ih =>
    rw [List.map_cons, insertions, insertions, ih]
    congr 1
    show rowVar y r ++ cellVars y r.fill 0 (r.cells.map bareCell) = _
    rw [cellVars_bare]

theorem copies_bare (rows : List Row) (r : Row) : copies (rows.map bare) (bare r) = copies rows r := by
  have : bounded (rows.map bare) = bounded rows := by rw [bounded, bounded, List.map_map]; rfl
  rw [copies, copies, this]
  rfl

theorem total_bare (rows part : List Row) : total (rows.map bare) (part.map bare) = total rows part := by
  rw [total, total, List.map_map]
  congr 1
  exact List.map_congr_left fun r _ => copies_bare rows r

/-! ## Edits -/

/-- The rows `rows'` are `rows` with other contents in the cells at `P` (row and column): everything else is the same, and those cells have the same
options.  Where the cells are in the source file does not matter. -/
structure Edited (P : Nat → Nat → Prop) (rows rows' : List Row) : Prop where
  len : rows'.length = rows.length
  row : ∀ (y : Nat) r r', rows[y]? = some r → rows'[y]? = some r' → r'.opts = r.opts ∧ r'.fill = r.fill ∧ r'.cells.length = r.cells.length
  cell : ∀ (y x : Nat) r r' c c', rows[y]? = some r → rows'[y]? = some r' → r.cells[x]? = some c → r'.cells[x]? = some c' →
    c'.opts = c.opts ∧ (¬ P y x → c'.value = c.value ∧ c'.ast = c.ast)

section
variable {P : Nat → Nat → Prop} {rows rows' : List Row}

theorem Edited.bare (h : Edited P rows rows') : rows'.map bare = rows.map bare := by
  apply List.ext_getElem?
  intro y
  rw [List.getElem?_map, List.getElem?_map]
  cases hr : rows[y]? with
  | none =>
    rw [List.getElem?_eq_none (by rw [h.len]; exact List.getElem?_eq_none_iff.mp hr)]
  | some r =>
    have hy : y < rows'.length := by rw [h.len]; exact (List.getElem?_eq_some_iff.mp hr).1
    rw [List.getElem?_eq_getElem hy]
    obtain ⟨e1, e2, e3⟩ := h.row y r _ hr (List.getElem?_eq_getElem hy)
    simp only [Option.map_some, Option.some.injEq]
    refine row_ext e1 e2 ?_
    show (rows'[y].cells.map bareCell) = r.cells.map bareCell
    apply List.ext_getElem?
    intro x
    rw [List.getElem?_map, List.getElem?_map]
    cases hc : r.cells[x]? with
    | none => rw [List.getElem?_eq_none (by rw [e3]; exact List.getElem?_eq_none_iff.mp hc)]
    | some c =>
      have hx : x < rows'[y].cells.length := by rw [e3]; exact (List.getElem?_eq_some_iff.mp hc).1
      rw [List.getElem?_eq_getElem hx]
      have := (h.cell y x r _ c _ hr (List.getElem?_eq_getElem hy) hc (List.getElem?_eq_getElem hx)).1
      simp only [Option.map_some, Option.some.injEq, bareCell]
      rw [this]

theorem Edited.symm (h : Edited P rows rows') : Edited P rows' rows := by
  refine ⟨h.len.symm, fun y r r' hr hr' => ?_, fun y x r r' c c' hr hr' hc hc' => ?_⟩
  · obtain ⟨e1, e2, e3⟩ := h.row y r' r hr' hr
    exact ⟨e1.symm, e2.symm, e3.symm⟩
  · obtain ⟨e1, e2⟩ := h.cell y x r' r c' c hr' hr hc' hc
    exact ⟨e1.symm, fun hn => ⟨(e2 hn).1.symm, (e2 hn).2.symm⟩⟩

/-- The rows of the edited sheet correspond to those of the sheet. -/
theorem Edited.split (h : Edited P rows rows') {before r' after} (hr : rows' = before ++ r' :: after) :
    ∃ before₀ r after₀, rows = before₀ ++ r :: after₀ ∧ before₀.length = before.length ∧ total rows before₀ = total rows' before ∧ copies rows r = copies rows' r' := by
  have hb : rows.map Cli.bare = before.map Cli.bare ++ Cli.bare r' :: after.map Cli.bare := by rw [← h.bare, hr, List.map_append, List.map_cons]
  obtain ⟨before₀, l, e1, e2, e3⟩ := List.map_eq_append_iff.mp hb
  obtain ⟨r, after₀, e4, e5, -⟩ := List.map_eq_cons_iff.mp e3
  subst e4
  refine ⟨before₀, r, after₀, e1, by simpa using congrArg List.length e2, ?_, ?_⟩
  · rw [← total_bare, e2, ← h.bare, total_bare]
  · rw [← copies_bare, e5, ← h.bare, copies_bare]

/-- The expanded sheets. -/
theorem Edited.fills (h : Edited P rows rows') {s₁ : Sheet} (hs : evalFills ⟨rows, false⟩ = some s₁) :
    ∃ t₁, evalFills ⟨rows', false⟩ = some t₁ ∧ sheetVars t₁ = sheetVars s₁ ∧ t₁.expanded = s₁.expanded ∧ t₁.rows.length = s₁.rows.length := by
  have := evalFills_bare rows'
  rw [h.bare, evalFills_bare, hs] at this
  cases ht : evalFills ⟨rows', false⟩ with
  | none => rw [ht] at this; cases this
  | some t₁ =>
    rw [ht] at this
    simp only [Option.map_some, Option.some.injEq, Sheet.mk.injEq] at this
    refine ⟨t₁, rfl, ?_, this.2.symm, ?_⟩
    · rw [sheetVars, sheetVars, ← insertions_bare, ← this.1, insertions_bare]
    · simpa using congrArg List.length this.1.symm

/-- C103.  Edit the contents of any cells of a sheet, but not their options.  For every outcome of the sheet, if the edited formulas have results, the edited
sheet has an outcome with the same number of rows and the same cells but for the edited ones (and the copies a fill makes of them). -/
theorem C103_edit {sc : Scope} {ext : Text → Option Ast} {s₁ s' : Sheet} (hed : Edited P rows rows') (hs : evalFills ⟨rows, false⟩ = some s₁)
    (h : EvalSheet sc ext ⟨rows, false⟩ (.ok s'))
    (hnew : ∀ before r after x c f, rows' = before ++ r :: after → P before.length x → r.cells[x]? = some c → c.ast = some f →
      ∀ i, i < copies rows' r → ∃ b, Eval (effective sc ext s₁) (some ⟨x, total rows' before + i⟩) f (.ok b)) :
    ∃ t', EvalSheet sc ext ⟨rows', false⟩ (.ok t') ∧ t'.rows.length = s'.rows.length ∧
      ∀ before r after, rows = before ++ r :: after → ∀ i, i < copies rows r → ∀ x, x < r.cells.length → ¬ P before.length x →
        ∃ c c', sheetCell s' (total rows before + i) x = some c ∧ sheetCell t' (total rows before + i) x = some c' ∧
          c'.value = c.value ∧ c'.ast = c.ast ∧ c'.opts = c.opts := by
  obtain ⟨h1, h2, s₂, hs₂, hcc⟩ := (C103_cell_by_cell ..).mp h
  rw [hs] at hs₂; cases hs₂
  obtain ⟨t₁, ht, hv, hexp, hlen⟩ := hed.fills hs
  have heff : effective sc ext t₁ = effective sc ext s₁ := by simp only [effective, hv]
  obtain ⟨hl', hrows'⟩ := C24_rows rows' t₁ ht
  obtain ⟨-, hrows⟩ := C24_rows rows s₁ hs
  have hcell : ∀ (y : Nat) (q : Row), t₁.rows[y]? = some q → ∀ (x : Nat) (c : Cell), q.cells[x]? = some c →
      ∃ c', CellEval (effective sc ext s₁) ⟨x, y⟩ c c' ∧ ∀ before r after i, rows = before ++ r :: after → i < copies rows r → y = total rows before + i →
        ¬ P before.length x → ∃ d, sheetCell s' y x = some d ∧ c'.value = d.value ∧ c'.ast = d.ast ∧ c'.opts = d.opts := by
    intro y q hq x c hc
    by_cases hk : ∃ before r after i, rows = before ++ r :: after ∧ i < copies rows r ∧ y = total rows before + i ∧ ¬ P before.length x
    · obtain ⟨before, r, after, i, e1, e2, e3, e4⟩ := hk
      obtain ⟨before', r', after', m1, m2, m3, m4⟩ := hed.symm.split e1
      have hq' := hrows' before' r' after' m1 i (by rw [m4]; exact e2)
      rw [m3, ← e3, hq] at hq'
      cases hq'
      have hq₁ := hrows before r after e1 i e2
      rw [← e3] at hq₁
      have hr : rows[before.length]? = some r := by rw [e1, List.getElem?_append_right (Nat.le_refl _), Nat.sub_self]; rfl
      have hr' : rows'[before.length]? = some r' := by rw [m1, ← m2, List.getElem?_append_right (Nat.le_refl _), Nat.sub_self]; rfl
      have hc' : r'.cells[x]? = some c := hc
      have hx : x < r.cells.length := by rw [← (hed.row _ _ _ hr hr').2.2]; exact (List.getElem?_eq_some_iff.mp hc').1
      obtain ⟨k1, k2⟩ := hed.cell _ x r r' r.cells[x] c hr hr' (List.getElem?_eq_getElem hx) hc'
      obtain ⟨k3, k4⟩ := k2 e4
      have hy : y < s'.rows.length := by rw [hcc.rows]; exact (List.getElem?_eq_some_iff.mp hq₁).1
      have hxl : x < s'.rows[y].cells.length := by rw [(hcc.row y _ _ hq₁ (List.getElem?_eq_getElem hy)).2.2]; exact hx
      have hce := hcc.cell y x _ _ r.cells[x] _ hq₁ (List.getElem?_eq_getElem hy) (List.getElem?_eq_getElem hx) (List.getElem?_eq_getElem hxl)
      have hs' : sheetCell s' y x = some s'.rows[y].cells[x] := by rw [sheetCell, List.getElem?_eq_getElem hy, Option.bind_some, List.getElem?_eq_getElem hxl]
      refine ⟨{ c with ast := s'.rows[y].cells[x].ast }, ⟨rfl, rfl, rfl, fun h => hce.text (k4 ▸ h), fun f h => hce.formula f (k4 ▸ h)⟩, fun _ _ _ _ _ _ _ _ => ⟨_, hs', ?_, rfl, ?_⟩⟩
      · show c.value = _; rw [k3, hce.value]
      · show c.opts = _; rw [k1, hce.opts]
    · obtain ⟨before', r', after', i, e1, e2, e3, rfl⟩ := expanded_row ht hq
      obtain ⟨before, r, after, m1, m2, m3, m4⟩ := hed.split e1
      have hP : P before'.length x := by
        by_contra hn
        exact hk ⟨before, r, after, i, m1, by rw [m4]; exact e2, by rw [m3]; exact e3, by rw [m2]; exact hn⟩
      have hvac : ∀ (c' : Cell), ∀ before r after i, rows = before ++ r :: after → i < copies rows r → y = total rows before + i →
          ¬ P before.length x → ∃ d, sheetCell s' y x = some d ∧ c'.value = d.value ∧ c'.ast = d.ast ∧ c'.opts = d.opts :=
        fun _ b r a i g1 g2 g3 g4 => absurd ⟨b, r, a, i, g1, g2, g3, g4⟩ hk
      cases ha : c.ast with
      | none => exact ⟨c, ⟨rfl, rfl, rfl, (fun h => h), fun f h => by rw [ha] at h; cases h⟩, hvac c⟩
      | some f =>
        obtain ⟨b, hb⟩ := hnew before' r' after' x c f e1 hP hc ha i e2
        refine ⟨{ c with ast := some b }, ⟨rfl, rfl, rfl, fun h => (by rw [ha] at h; cases h), fun g h => ⟨b, rfl, ?_⟩⟩, hvac _⟩
        rw [ha] at h; cases h
        rw [e3]; exact hb
  have hrow : ∀ (y : Nat) (q : Row), t₁.rows[y]? = some q → ∃ q' : Row, q'.opts = q.opts ∧ q'.fill = q.fill ∧ q'.cells.length = q.cells.length ∧
      ∀ (x : Nat) c c', q.cells[x]? = some c → q'.cells[x]? = some c' → CellEval (effective sc ext s₁) ⟨x, y⟩ c c' ∧
        ∀ before r after i, rows = before ++ r :: after → i < copies rows r → y = total rows before + i →
          ¬ P before.length x → ∃ d, sheetCell s' y x = some d ∧ c'.value = d.value ∧ c'.ast = d.ast ∧ c'.opts = d.opts := by
    intro y q hq
    obtain ⟨cs, k1, k2⟩ := exists_list q.cells (hcell y q hq)
    exact ⟨{ q with cells := cs }, rfl, rfl, k1, k2⟩
  obtain ⟨rs, k1, k2⟩ := exists_list t₁.rows hrow
  refine ⟨⟨rs, t₁.expanded⟩, (C103_cell_by_cell ..).mpr ⟨h1, h2, t₁, ht, rfl, k1, fun y r r' hr hr' => ?_, fun y x r r' c c' hr hr' hc hc' => ?_⟩, ?_, ?_⟩
  · obtain ⟨m1, m2, m3, -⟩ := k2 y r r' hr hr'
    exact ⟨m1, m2, m3⟩
  · rw [heff]
    exact ((k2 y r r' hr hr').2.2.2 x c c' hc hc').1
  · show rs.length = _
    rw [k1, hlen, hcc.rows]
  · intro before r after e1 i hi x hx hP
    obtain ⟨before', r', after', m1, m2, m3, m4⟩ := hed.symm.split e1
    have hq' := hrows' before' r' after' m1 i (by rw [m4]; exact hi)
    rw [m3] at hq'
    have hr : rows[before.length]? = some r := by rw [e1, List.getElem?_append_right (Nat.le_refl _), Nat.sub_self]; rfl
    have hr' : rows'[before.length]? = some r' := by rw [m1, ← m2, List.getElem?_append_right (Nat.le_refl _), Nat.sub_self]; rfl
    have hx' : x < r'.cells.length := by rw [(hed.row _ _ _ hr hr').2.2]; exact hx
    have hy : total rows before + i < rs.length := by rw [k1]; exact (List.getElem?_eq_some_iff.mp hq').1
    obtain ⟨-, -, n3, n4⟩ := k2 _ _ _ hq' (List.getElem?_eq_getElem hy)
    have hxl : x < rs[total rows before + i].cells.length := by rw [n3]; exact hx'
    obtain ⟨-, n5⟩ := n4 x _ _ (List.getElem?_eq_getElem hx') (List.getElem?_eq_getElem hxl)
    obtain ⟨d, d1, d2, d3, d4⟩ := n5 before r after i e1 hi rfl hP
    refine ⟨d, _, d1, ?_, d2, d3, d4⟩
    show ((rs[total rows before + i]?).bind (·.cells[x]?)) = _
    rw [List.getElem?_eq_getElem hy, Option.bind_some, List.getElem?_eq_getElem hxl]
end

/-! ## The program -/

/-- The rows `rs'` of a cells section are the rows `rs` with other texts in the cells at `P` (row and column); the options are the same. -/
structure EditedSrc (P : Nat → Nat → Prop) (rs rs' : List RowSrc) : Prop where
  len : rs'.length = rs.length
  row : ∀ (y : Nat) r r', rs[y]? = some r → rs'[y]? = some r' → r'.entries = r.entries ∧ r'.cells.length = r.cells.length
  cell : ∀ (y x : Nat) r r' c c', rs[y]? = some r → rs'[y]? = some r' → r.cells[x]? = some c → r'.cells[x]? = some c' → c'.1 = c.1 ∧ (¬ P y x → c'.2 = c.2)

theorem isRow_cell {E : Env} {y : Nat} {r : RowSrc} {row : Row} (h : IsRow E y r row) {x : Nat} {c : Cell} (hc : row.cells[x]? = some c) :
    ∃ q, r.cells[x]? = some q ∧ c.opts = settled q.1 (withoutVar row.opts) ∧ c.value = q.2 ∧ c.ast = formulaOf E q.2 := by
  have := congrArg (·[x]?) h.cells
  simp only [List.getElem?_map, hc, Option.map_some] at this
  cases hq : r.cells[x]? with
  | none => rw [hq] at this; cases this
  | some q =>
    rw [hq] at this
    simp only [Option.map_some, Option.some.injEq, Prod.mk.injEq] at this
    exact ⟨q, rfl, this.1, this.2.1, this.2.2⟩

theorem isRow_length {E : Env} {y : Nat} {r : RowSrc} {row : Row} (h : IsRow E y r row) : row.cells.length = r.cells.length := by
  simpa using congrArg List.length h.cells

theorem EditedSrc.rows {E : Env} {P : Nat → Nat → Prop} {rs rs' : List RowSrc} {rows rows' : List Row} (h : EditedSrc P rs rs') (hr : AreRows E rs rows)
    (hr' : AreRows E rs' rows') : Edited P rows rows' := by
  have get : ∀ (y : Nat) r r', rows[y]? = some r → rows'[y]? = some r' → ∃ q q', rs[y]? = some q ∧ rs'[y]? = some q' ∧ IsRow E y q r ∧ IsRow E y q' r' := by
    intro y r r' e e'
    have hy : y < rs.length := by rw [← hr.1]; exact (List.getElem?_eq_some_iff.mp e).1
    have hy' : y < rs'.length := by rw [← hr'.1]; exact (List.getElem?_eq_some_iff.mp e').1
    obtain ⟨row, k1, k2⟩ := hr.2 y _ (List.getElem?_eq_getElem hy)
    obtain ⟨row', k1', k2'⟩ := hr'.2 y _ (List.getElem?_eq_getElem hy')
    rw [e] at k1; rw [e'] at k1'; cases k1; cases k1'
    exact ⟨_, _, List.getElem?_eq_getElem hy, List.getElem?_eq_getElem hy', k2, k2'⟩
  refine ⟨by rw [hr.1, hr'.1, h.len], fun y r r' e e' => ?_, fun y x r r' c c' e e' hc hc' => ?_⟩
  · obtain ⟨q, q', k1, k2, k3, k4⟩ := get y r r' e e'
    obtain ⟨m1, m2⟩ := h.row y q q' k1 k2
    exact ⟨by rw [k3.opts, k4.opts, m1], by rw [k3.fill, k4.fill, m1], by rw [isRow_length k3, isRow_length k4, m2]⟩
  · obtain ⟨q, q', k1, k2, k3, k4⟩ := get y r r' e e'
    obtain ⟨m1, -⟩ := h.row y q q' k1 k2
    obtain ⟨d, n1, n2, n3, n4⟩ := isRow_cell k3 hc
    obtain ⟨d', n1', n2', n3', n4'⟩ := isRow_cell k4 hc'
    obtain ⟨o1, o2⟩ := h.cell y x q q' d d' k1 k2 n1 n1'
    refine ⟨by rw [n2, n2', k3.opts, k4.opts, m1, o1], fun hP => ⟨by rw [n3, n3', o2 hP], by rw [n4, n4', o2 hP]⟩⟩

section
variable {E : Env} {a : Args} {fs fs' : FS Text} {files : Files Text} {mp : MPath} {p : Path} {kv : Text → Option Ast}
  {ls : List Parser.Line} {csv csv' src src' : Text} {rs rs' : List RowSrc}

/-- C103, the program.  Edit the texts of some cells of a source file.  For every run on the file that writes its target, if the edited formulas have
results, there is a run on the edited file that writes a target with the same rows and, but for the edited cells, the same texts. -/
theorem C103_program (P : Nat → Nat → Prop) (version : Nat) (ts : List Text) (partials : Text → List Text) (cuts : List Nat) (hs : Setup E a mp p kv)
    (hb : CanBackup ts a files p) (hsrc : SourceFile E ls csv src) (hf : Fresh fs mp src) (hc : CellsSection E csv rs)
    (hsrc' : SourceFile E ls csv' src') (hf' : Fresh fs' mp src') (hc' : CellsSection E csv' rs') (hed : EditedSrc P rs rs')
    (h0 : NoMark (cellAt (rowsOf (files p)) 0 0)) (h1 : ∀ r ∈ rs, ∀ c ∈ r.cells, NoMark c.2) (h1' : ∀ r ∈ rs', ∀ c ∈ r.cells, NoMark c.2) :
    ∃ sc rows rows', Defines (Parser.stmts ls) sc ∧ AreRows E rs rows ∧ AreRows E rs' rows' ∧
      ∀ e states w, Main E version ts partials cuts a fs files e states w →
        (e ≠ some .success ∧ states = [files]) ∨ (e = some .success ∧ ∃ s₁ final out, evalFills ⟨rows, false⟩ = some s₁ ∧ states.getLast? = some final ∧ Wrote files final p out ∧
          ((∀ before r after x c f, rows' = before ++ r :: after → P before.length x → r.cells[x]? = some c → c.ast = some f →
              ∀ i, i < copies rows' r → ∃ b, Eval (effective sc kv s₁) (some ⟨x, total rows' before + i⟩) f (.ok b)) →
            ∃ states' w' final' out', Main E version ts partials cuts a fs' files (some .success) states' w' ∧ states'.getLast? = some final' ∧
              Wrote files final' p out' ∧ (csvRead out').length = (csvRead out).length ∧
              ∀ before r after, rows = before ++ r :: after → ∀ i, i < copies rows r → ∀ x, x < r.cells.length → ¬ P before.length x →
                cellAt (csvRead out') (total rows before + i) x = cellAt (csvRead out) (total rows before + i) x)) := by
  obtain ⟨c1, c2⟩ := hsrc.split
  obtain ⟨c1', c2'⟩ := hsrc'.split
  obtain ⟨sc, s1, s2, s3, -⟩ := Parser.C48_code_section_partial E.uni E.f64 ls hsrc.lines (usesFirst_of hsrc.uses)
  rw [modules_of hsrc.uses] at s1
  obtain ⟨⟨g, hg, ht⟩, hform⟩ := hc
  obtain ⟨⟨g', hg', ht'⟩, hform'⟩ := hc'
  obtain ⟨rows, r1, hpm, -⟩ := main_cells (version := version) (partials := partials) (cuts := cuts) hs hb hf (sc := sc)
    (by rw [c1]; exact s1) (by rw [c2, Csvp.values_parse]; rw [Csvp.values_parse] at hg; exact hg) ht hform h0 h1
  obtain ⟨rows', r1', hpm', -⟩ := main_cells (version := version) (partials := partials) (cuts := cuts) hs hb hf' (sc := sc)
    (by rw [c1']; exact s1) (by rw [c2', Csvp.values_parse]; rw [Csvp.values_parse] at hg'; exact hg') ht' hform' h0 h1'
  refine ⟨sc, rows, rows', ⟨s2, s3⟩, r1, r1', fun e states w h => ?_⟩
  obtain ⟨-, ⟨s, final, hev, k1, k2, k3⟩ | ⟨k1, k2, -⟩⟩ := main_alone hs hb hf hpm rfl h
  · obtain ⟨s₁, _, _, _, _, _, hfill, -⟩ := id hev
    refine .inr ⟨k1, s₁, final, _, hfill, k2, k3, fun hnew => ?_⟩
    obtain ⟨t, ht1, ht2, ht3⟩ := C103_edit (hed.rows r1 r1') hfill hev hnew
    obtain ⟨states', w', final', m1, m2, m3⟩ := main_alone_with (version := version) (partials := partials) (cuts := cuts) hs hb hf' hpm' rfl ht1
    have hm := written_mark (safe := a.safe) h0 (sheet_mark r1 h1 hev)
    have hm' := written_mark (safe := a.safe) h0 (sheet_mark r1' h1' ht1)
    refine ⟨states', w', final', _, m1, m2, m3, ?_, fun before r after e1 i hi x hx hP => ?_⟩
    · rw [(C42_rectangular hm).1, (C42_rectangular hm').1, ht2]
    · obtain ⟨c, c', n1, n2, n3, n4, -⟩ := ht3 before r after e1 i hi x hx hP
      rw [new_at hm, new_at hm', records_at, records_at, n1, n2]
      simp only [Cell.display, n3, n4]
  · refine .inl ⟨?_, k2⟩
    rcases k1 with k1 | k1 <;> rw [k1] <;> intro h <;> cases h
end

/-! ## An example -/

def editedText : Text := "x := 1\ny := (x + k) # uses x\n---\n=(y * z),no\n".toList

theorem edited_file (E : Env) : SourceFile E codeLines "=(y * z),no".toList editedText :=
  ⟨(program_file E).lines, (program_file E).uses, (program_file E).separator, (program_file E).codeCr, by decide, "=(y * z),no\n".toList, .inl (by decide), by decide +kernel⟩

theorem edited_section (E : Env) (v : Text) (h1 : v = "ok".toList ∨ v = "no".toList) :
    CellsSection E ("=(y * z),".toList ++ v) [⟨[], [([], "=(y * z)".toList), ([], v)]⟩] := by
  refine ⟨⟨[["=(y * z)".toList, v]], ?_, .cons (rowText_plain (by simp) ?_) .nil⟩, ?_⟩
  · rcases h1 with rfl | rfl <;> decide
  · rcases h1 with rfl | rfl <;> (unfold NoList; decide)
  · intro r hr c hc hq
    obtain rfl := List.mem_singleton.mp hr
    simp only [List.mem_cons, List.not_mem_nil, or_false] at hc
    rcases hc with rfl | rfl
    · exact ⟨_, example_formula E⟩
    · rcases h1 with rfl | rfl <;> (exfalso; revert hq; decide)

/-- The other cell of the row keeps its formula's value. -/
example (E : Env) (version : Nat) (e : Option Exit) (states : List (Files Text)) (w : List (MPath × Module Text))
    (h : Main E version [] (fun _ => []) [] (exampleArgs false ["k=2".toList]) (exampleFs programText) exampleFiles e states w) :
    ∃ states' w' final' out', Main E version [] (fun _ => []) [] (exampleArgs false ["k=2".toList]) (exampleFs editedText) exampleFiles (some .success) states' w' ∧
      states'.getLast? = some final' ∧ Wrote exampleFiles final' (Path.ofText "out.csv".toList) out' ∧ cellAt (csvRead out') 0 0 = "=((1 + 2) * z)".toList := by
  have h0 : NoMark (cellAt (rowsOf (exampleFiles (Path.ofText "out.csv".toList))) 0 0) := by unfold NoMark; decide
  have hs := exampleSetup E false _ _ (example_values E)
  have hed : EditedSrc (fun _ x => x = 1) [⟨[], [([], "=(y * z)".toList), ([], "ok".toList)]⟩] [⟨[], [([], "=(y * z)".toList), ([], "no".toList)]⟩] := by
    refine ⟨rfl, fun y r r' e1 e2 => ?_, fun y x r r' c c' e1 e2 e3 e4 => ?_⟩
    · match y with
      | 0 => cases e1; cases e2; exact ⟨rfl, rfl⟩
      | n + 1 => cases e1
    · match y with
      | 0 =>
        cases e1; cases e2
        match x with
        | 0 => cases e3; cases e4; exact ⟨rfl, fun _ => rfl⟩
        | 1 => cases e3; cases e4; exact ⟨rfl, fun h => absurd rfl h⟩
        | n + 2 => cases e3
      | n + 1 => cases e1
  have hm : ∀ v, v = "ok".toList ∨ v = "no".toList → ∀ r ∈ [(⟨[], [([], "=(y * z)".toList), ([], v)]⟩ : RowSrc)], ∀ c ∈ r.cells, NoMark c.2 := by
    intro v hv r hr c hc
    obtain rfl := List.mem_singleton.mp hr
    simp only [List.mem_cons, List.not_mem_nil, or_false] at hc
    rcases hc with rfl | rfl
    · show NoMark "=(y * z)".toList
      unfold NoMark; decide
    · show NoMark v
      rcases hv with rfl | rfl <;> (unfold NoMark; decide)
  obtain ⟨sc, rows, rows', -, k2, k3, k4⟩ := C103_program (fun _ x => x = 1) version [] (fun _ => []) [] hs (by intro h; cases h) (program_file E) (exampleFresh programText)
    (edited_section E _ (.inl rfl)) (edited_file E) (exampleFresh editedText) (edited_section E _ (.inr rfl)) hed (files := exampleFiles) h0 (hm _ (.inl rfl)) (hm _ (.inr rfl))
  obtain ⟨h2, final, out, h3, h4, h5, -⟩ := example_run E version e states w h
  rcases k4 e states w h with ⟨k5, -⟩ | ⟨-, s₁, final₀, out₀, m1, m2, m3, m4⟩
  · exact absurd h2 k5
  · rw [h3] at m2; cases m2
    have := m3.target
    rw [h4.target] at this; cases this
    have one : ∀ {v : Text} {l : List Row}, AreRows E [⟨[], [([], "=(y * z)".toList), ([], v)]⟩] l → ∃ r, l = [r] ∧ IsRow E 0 ⟨[], [([], "=(y * z)".toList), ([], v)]⟩ r := by
      intro v l hl
      obtain ⟨r, e1, e2⟩ := hl.2 0 _ rfl
      have hlen : l.length = 1 := hl.1
      obtain ⟨q, rfl⟩ := List.length_eq_one_iff.mp hlen
      cases e1
      exact ⟨_, rfl, e2⟩
    obtain ⟨r, rfl, hr⟩ := one k2
    obtain ⟨r', rfl, hr'⟩ := one k3
    obtain ⟨states', w', final', out', n1, n2, n3, -, n4⟩ := m4 fun before q after x c f e1 hx hc ha => by
      exfalso
      subst hx
      cases before with
      | cons b bs => simp at e1
      | nil =>
        cases e1
        obtain ⟨d, o1, -, -, o4⟩ := isRow_cell hr' hc
        obtain rfl : ([], "no".toList) = d := Option.some.inj o1
        rw [ha, show formulaOf E "no".toList = none from if_neg (by decide)] at o4
        cases o4
    refine ⟨states', w', final', out', n1, n2, n3, ?_⟩
    have hcop : 0 < copies [r] r := by
      have hn : r.fill = none := hr.fill
      rw [copies, if_neg (by simp [Unbounded, hn]), boundedCopies, hn]
      exact Nat.zero_lt_one
    have := n4 [] r [] rfl 0 hcop 0 (by rw [isRow_length hr]; decide) (by decide)
    rw [show total [r] [] + 0 = 0 from rfl] at this
    rw [← h5]; exact this

end Verif.Cli
