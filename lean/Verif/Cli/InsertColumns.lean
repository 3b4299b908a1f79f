import Verif.Cli.Insert
/-
Inserting columns: names follow their cells (C112).
-/
namespace Verif.Cli
open Verif.Ast Verif.Loader Verif.Sheet Verif.Cache Verif.Csvp.Spec
open Verif.Cell hiding Target
open Verif.Target hiding MPath

/-! ## Specification -/

/-- `r'` is `r` with `n` cells without names inserted after the first `k`; a row that ends before is left as it is.  Where the cells are in the source file does not
matter. -/
structure Widened (k n : Nat) (r r' : Row) : Prop where
  opts : r'.opts = r.opts
  fill : r'.fill = r.fill
  cells : (r.cells.length ≤ k ∧ r'.cells.map contents = r.cells.map contents) ∨
    ∃ a b a' m b', r.cells = a ++ b ∧ r'.cells = a' ++ m ++ b' ∧ a.length = k ∧ m.length = n ∧ a'.map contents = a.map contents ∧ b'.map contents = b.map contents ∧
      ∀ c ∈ m, c.opts.var = none

/-- Where a cell, rows, or a part of a column are when the columns moved. -/
def moveCol (g : Nat → Nat) : A1 → A1
  | .cell a => .cell ⟨g a.x, a.y⟩
  | .rows s e => .rows s e
  | .colRows x s e => .colRows (g x) s e

/-- `r` and `r'` refer to the same in a formula at `pos` before and after the columns moved: a reference that is written in the source is left as it is, and one that
a name of the sheet stands for moves with its cells. -/
def FollowsCol (sc : Scope) (ext : Text → Option Ast) (rows : List Row) (g : Nat → Nat) (pos : Addr) (r r' : Text) : Prop :=
  (r = r' ∧ WrittenRef sc ext rows r) ∨ ∃ a : A1, NameStands rows pos a.text ∧ r = a.text ∧ r' = (moveCol g a).text

/-- `t'` is `s'` with `n` columns inserted after the first `k`: the rows have the same options and the same other cells, except that references by name follow their
cells. -/
structure SameColumns (R : Addr → Text → Text → Prop) (k n : Nat) (s' t' : Sheet) : Prop where
  len : t'.rows.length = s'.rows.length
  row : ∀ (y : Nat) r, s'.rows[y]? = some r → ∃ r', t'.rows[y]? = some r' ∧ r'.opts = r.opts ∧
    ((r.cells.length ≤ k ∧ r'.cells.length = r.cells.length) ∨ (k ≤ r.cells.length ∧ r'.cells.length = r.cells.length + n)) ∧
    ∀ (x : Nat) c, r.cells[x]? = some c → ∃ c', r'.cells[lowered k n x]? = some c' ∧ SameCell (R ⟨x, y⟩) c c'

/-! ## Names -/

/-- The value of a name after the columns moved. -/
def moveColVal (g : Nat → Nat) : CellVal → CellVal
  | .absolute a => .absolute ⟨g a.x, a.y⟩
  | .columnRelative x f => .columnRelative (g x) f
  | .row y => .row y
  | .rowRelative y f => .rowRelative y f

theorem cellVars_append (y : Nat) (fill : Option Fill) (a b : List Cell) (x : Nat) : cellVars y fill x (a ++ b) = cellVars y fill x a ++ cellVars y fill (x + a.length) b := by
  induction a generalizing x with
  | nil => rfl
  | cons c a ih => rw [List.cons_append, cellVars, cellVars, ih, List.append_assoc, List.length_cons, Nat.add_right_comm, Nat.add_assoc]

theorem cellVars_unnamed (y : Nat) (fill : Option Fill) {m : List Cell} (h : ∀ c ∈ m, c.opts.var = none) (x : Nat) : cellVars y fill x m = [] := by
  induction m generalizing x with
  | nil => rfl
  | cons c m ih => rw [cellVars, ih fun d hd => h d (by simp [hd]), cellVar, h c (by simp)]; rfl

theorem cellVars_shift {g : Nat → Nat} (y : Nat) (fill : Option Fill) (cs : List Cell) {x x' : Nat} (hg : ∀ i, i < cs.length → g (x + i) = x' + i) :
    cellVars y fill x' cs = (cellVars y fill x cs).map fun p => (p.1, moveColVal g p.2) := by
  induction cs generalizing x x' with
  | nil => rfl
  | cons c cs ih =>
    have h0 := hg 0 (by simp)
    rw [Nat.add_zero, Nat.add_zero] at h0
    rw [cellVars, cellVars, ih (x := x + 1) fun i hi => by rw [Nat.add_assoc, Nat.add_assoc]; exact hg (1 + i) (by rw [List.length_cons]; omega), List.map_append]
    congr 1
    unfold cellVar
    cases c.opts.var with
    | none => rfl
    | some v => cases fill <;> simp [cellValue, moveColVal, h0]

theorem contents_length {cs cs' : List Cell} (h : cs'.map contents = cs.map contents) : cs'.length = cs.length := by simpa using congrArg List.length h

theorem widened_vars {k n : Nat} {r r' : Row} (h : Widened k n r r') (y : Nat) :
    cellVars y r'.fill 0 r'.cells = (cellVars y r.fill 0 r.cells).map fun p => (p.1, moveColVal (lowered k n) p.2) := by
  rw [h.fill]
  rcases h.cells with ⟨h1, h2⟩ | ⟨a, b, a', m, b', h1, h2, h3, h4, h5, h6, h7⟩
  · rw [cellVars_contents h2]
    exact cellVars_shift _ _ _ fun i hi => by rw [lowered, if_pos (by omega)]
  · have l := contents_length h5
    rw [h1, h2, cellVars_append, cellVars_append, cellVars_append, cellVars_unnamed _ _ h7, List.append_nil, List.map_append, cellVars_contents h5, cellVars_contents h6]
    congr 1
    · exact cellVars_shift _ _ _ fun i hi => by rw [lowered, if_pos (by omega)]
    · exact cellVars_shift _ _ _ fun i hi => by rw [lowered, if_neg (by omega), List.length_append]; omega

theorem widened_insertions {k n : Nat} {rows rows' : List Row} (h : List.Forall₂ (Widened k n) rows rows') (y : Nat) :
    insertions y rows' = (insertions y rows).map fun p => (p.1, moveColVal (lowered k n) p.2) := by
  induction h generalizing y with
  | nil => rfl
  | cons h _ ih =>
    rename_i r r' _ _ _
    rw [insertions, insertions, ih, List.map_append, List.map_append, widened_vars h]
    congr 2
    rw [rowVar, rowVar, h.opts, h.fill, List.map_map]
    exact List.map_congr_left fun v _ => by cases r.fill <;> rfl

theorem widened_sheetVars {k n : Nat} {s t : Sheet} (h : List.Forall₂ (Widened k n) s.rows t.rows) (x : Text) :
    sheetVars t x = (sheetVars s x).map fun
      | .cellVar n' v => .cellVar n' (moveColVal (lowered k n) v)
      | d => d := by
  simp only [sheetVars]
  rw [widened_insertions h, List.map_map, ← collect_mapSnd, List.map_map]
  rfl

theorem intoAst_moveCol (g : Nat → Nat) (v : CellVal) (pos : Addr) :
    ∃ q : A1, v.intoAst (some pos) = some (.ref q.text) ∧ (moveColVal g v).intoAst (some ⟨g pos.x, pos.y⟩) = some (.ref (moveCol g q).text) := by
  cases v with
  | absolute a => exact ⟨.cell a, rfl, rfl⟩
  | row y => exact ⟨.rows y y, rfl, rfl⟩
  | columnRelative x f =>
    have hcc : f.toA1.contains ⟨g pos.x, pos.y⟩ = f.toA1.contains pos := rfl
    simp only [moveColVal, CellVal.intoAst, hcc]
    by_cases hc : f.toA1.contains pos = true
    · exact ⟨.cell ⟨x, pos.y⟩, by rw [if_pos hc]; rfl, by rw [if_pos hc]; rfl⟩
    · exact ⟨f.toA1.withX x, by rw [if_neg hc], by rw [if_neg hc]; rfl⟩
  | rowRelative y f =>
    have hcc : f.toA1.contains ⟨g pos.x, pos.y⟩ = f.toA1.contains pos := rfl
    simp only [moveColVal, CellVal.intoAst, hcc]
    by_cases hc : f.toA1.contains pos = true
    · exact ⟨.rows pos.y pos.y, by rw [if_pos hc], by rw [if_pos hc]; rfl⟩
    · exact ⟨f.toA1, by rw [if_neg hc], by rw [if_neg hc]; rfl⟩

/-! ## Expanded rows -/

theorem widened_multiple {k n : Nat} {rows rows' : List Row} (h : List.Forall₂ (Widened k n) rows rows') (b : Bool) : multipleInfinite b rows' = multipleInfinite b rows := by
  induction h generalizing b with
  | nil => rfl
  | cons h _ ih =>
    rw [multipleInfinite.eq_def, multipleInfinite.eq_def b (_ :: _)]
    dsimp only
    rw [h.fill]
    simp only [ih]

theorem widened_left {k n : Nat} {rows rows' : List Row} (h : List.Forall₂ (Widened k n) rows rows') : rowsLeftOver rows' = rowsLeftOver rows := by
  have key : ∀ z, rows'.foldl (fun acc r => acc + rowCount r) z = rows.foldl (fun acc r => acc + rowCount r) z := by
    induction h with
    | nil => intro z; rfl
    | cons h _ ih =>
      intro z
      rw [List.foldl_cons, List.foldl_cons, ih, rowCount, rowCount, h.fill]
  rw [rowsLeftOver, rowsLeftOver, key]

theorem widened_expand {k n : Nat} {rows rows' : List Row} (h : List.Forall₂ (Widened k n) rows rows') (left z : Nat) :
    List.Forall₂ (Widened k n) (expandLoop left z rows) (expandLoop left z rows') := by
  induction h generalizing z with
  | nil => exact .nil
  | cons h _ ih =>
    rename_i r r' rs rs' _
    rw [expandLoop.eq_def, expandLoop.eq_def left z (r' :: rs')]
    dsimp only
    rw [h.fill]
    cases hf : r.fill with
    | none => exact .cons h (ih _)
    | some f => exact List.rel_append (R := Widened k n) (forall₂_replicate ⟨h.opts, rfl, h.cells⟩ _) (ih _)

/-- The expanded sheets. -/
theorem widened_fills {k n : Nat} {rows rows' : List Row} (h : List.Forall₂ (Widened k n) rows rows') {s₁ : Sheet} (hs : evalFills ⟨rows, false⟩ = some s₁) :
    ∃ t₁, evalFills ⟨rows', false⟩ = some t₁ ∧ List.Forall₂ (Widened k n) s₁.rows t₁.rows := by
  simp only [evalFills, Bool.false_eq_true, if_false] at hs ⊢
  rw [widened_multiple h, widened_left h]
  split at hs
  · cases hs
  · rename_i h1
    cases hs
    rw [if_neg h1]
    exact ⟨_, rfl, widened_expand h _ _⟩

/-! ## Formulas -/

section
variable {k n : Nat} {rows rows' : List Row} {sc : Scope} {ext : Text → Option Ast} {s₁ t₁ : Sheet}

/-- The definitions that the formulas of the two sheets see. -/
theorem widened_scope (h : List.Forall₂ (Widened k n) rows rows') (hs : evalFills ⟨rows, false⟩ = some s₁) (ht : evalFills ⟨rows', false⟩ = some t₁) (hn : NotLikeCells sc ext rows) (pos : Addr) :
    MovedScope (FollowsCol sc ext rows (lowered k n) pos) (some pos) (some ⟨lowered k n pos.x, pos.y⟩) (effective sc ext s₁) (effective sc ext t₁) := by
  obtain ⟨t₂, ht₂, hw⟩ := widened_fills h hs
  rw [ht] at ht₂; cases ht₂
  have kept : ∀ x, (∀ a : A1, x ≠ a.text) → KeptName (FollowsCol sc ext rows (lowered k n) pos) x := by
    rintro x hx r r' (⟨rfl, -⟩ | ⟨a, -, rfl, rfl⟩)
    · exact Iff.rfl
    · exact ⟨fun e => absurd e (hx _), fun e => absurd e (hx _)⟩
  have plain : ∀ x d, (sc.variables x = some d ∨ ext x = some d) → ∃ v, (∀ p, resolve p d = some v) ∧ Moved (FollowsCol sc ext rows (lowered k n) pos) v v := by
    intro x d hd
    have hr : ∀ r ∈ refNames d, FollowsCol sc ext rows (lowered k n) pos r r := fun r hr =>
      .inl ⟨rfl, .inr ⟨x, d, hd.elim (fun h => .inr (.inl h)) (fun h => .inr (.inr h)), hr⟩⟩
    cases d with
    | var n a => exact ⟨a, fun _ => rfl, .refl hr⟩
    | cellVar n v => rcases hd with hd | hd; exact absurd hd (hn.plain x n v).1; exact absurd hd (hn.plain x n v).2
    | _ => exact ⟨_, fun _ => rfl, .refl hr⟩
  have free : ∀ a : A1, sheetVars s₁ a.text = none := by
    intro a
    cases hx : sheetVars s₁ a.text with
    | none => rfl
    | some d => obtain ⟨q, h1, h2⟩ := sheetVars_named hs hx; exact absurd h2 (hn.named q h1 a)
  have hvars := widened_sheetVars hw
  refine ⟨rfl, fun g d hd => ?_, fun g d hd => ?_, fun x => ?_, fun r r' hr => ?_⟩
  · exact .refl fun r hr => .inl ⟨rfl, .inr ⟨g, d, .inl hd, hr⟩⟩
  · cases d with
    | fn n ps b => exact fun p hp => kept p fun a e => hn.params g n ps b hd a (e ▸ hp)
    | _ => exact trivial
  · show ((sc.variables x).or ((sheetVars s₁ x).or (ext x)) = none ∧ (sc.variables x).or ((sheetVars t₁ x).or (ext x)) = none) ∨ _
    cases ho : sc.variables x with
    | some d =>
      obtain ⟨v, h1, h2⟩ := plain x d (.inl ho)
      refine .inr ⟨d, d, by simp [effective, ho], by simp [effective, ho], kept x fun a e => ?_, .inr ⟨v, v, h1 _, h1 _, h2⟩⟩
      rw [e, hn.own a] at ho; cases ho
    | none =>
      cases hv : sheetVars s₁ x with
      | some d =>
        obtain ⟨q, q1, q2⟩ := sheetVars_named hs hv
        obtain ⟨v, v1, rfl⟩ := sheetVars_mem hv
        have hv' := hvars x
        rw [hv] at hv'
        simp only [Option.map_some] at hv'
        refine .inr ⟨.cellVar x v, _, by simp [effective, ho, hv], by simp only [effective, ho, hv']; rfl, kept x fun a e => hn.named q q1 a (e ▸ q2), .inr ?_⟩
        obtain ⟨c, c1, c2⟩ := intoAst_moveCol (lowered k n) v pos
        exact ⟨_, _, c1, c2, .ref (.inr ⟨c, ⟨s₁, x, v, hs, hv, c1⟩, rfl, rfl⟩)⟩
      | none =>
        have hv' := hvars x
        rw [hv] at hv'
        simp only [Option.map_none] at hv'
        cases he : ext x with
        | none => exact .inl ⟨by simp, by simp [hv']⟩
        | some d =>
          obtain ⟨v, h1, h2⟩ := plain x d (.inr he)
          refine .inr ⟨d, d, by simp [effective, ho, hv, he], by simp [effective, ho, hv', he], kept x fun a e => ?_, .inr ⟨v, v, h1 _, h1 _, h2⟩⟩
          rw [e, hn.line a] at he; cases he
  · rcases hr with ⟨rfl, -⟩ | ⟨a, -, rfl, rfl⟩
    · exact .inl rfl
    · refine .inr ⟨?_, ?_⟩
      · show (sc.variables _).or ((sheetVars s₁ _).or (ext _)) = none
        rw [hn.own, free, hn.line]; rfl
      · show (sc.variables _).or ((sheetVars t₁ _).or (ext _)) = none
        rw [hn.own, hvars, free, hn.line]; rfl

/-- C112, one formula.  Insert columns into a sheet.  Every outcome of a formula in a cell is one of the same formula in the cell where it is then, except that
references by name follow their cells. -/
theorem C112_formula (h : List.Forall₂ (Widened k n) rows rows') (hs : evalFills ⟨rows, false⟩ = some s₁) (ht : evalFills ⟨rows', false⟩ = some t₁) (hn : NotLikeCells sc ext rows)
    {f : Ast} (hf : ∃ q ∈ rows, ∃ c ∈ q.cells, c.ast = some f) (x y : Nat) :
    (∀ o, Eval (effective sc ext s₁) (some ⟨x, y⟩) f o →
      ∃ o', Eval (effective sc ext t₁) (some ⟨lowered k n x, y⟩) f o' ∧ MovedOut (FollowsCol sc ext rows (lowered k n) ⟨x, y⟩) o o') ∧
    ∀ o', Eval (effective sc ext t₁) (some ⟨lowered k n x, y⟩) f o' →
      ∃ o, Eval (effective sc ext s₁) (some ⟨x, y⟩) f o ∧ MovedOut (FollowsCol sc ext rows (lowered k n) ⟨x, y⟩) o o' := by
  have hsc := widened_scope h hs ht hn ⟨x, y⟩
  obtain ⟨q, q1, c, c1, c2⟩ := hf
  have hm : Moved (FollowsCol sc ext rows (lowered k n) ⟨x, y⟩) f f := .refl fun r hr => .inl ⟨rfl, .inl ⟨q, q1, c, c1, f, c2, hr⟩⟩
  refine ⟨fun o ho => hsc.Eval hm ho, fun o' ho' => ?_⟩
  obtain ⟨o, h1, h2⟩ := hsc.symm.Eval hm.symm ho'
  exact ⟨o, h1, h2.symm⟩

/-! ## The sheet -/

theorem lowered_inj {k n x y : Nat} (h : lowered k n x = lowered k n y) : x = y := by unfold lowered at h; split at h <;> split at h <;> omega

/-- The cells of the two rows. -/
theorem Widened.at {r r' : Row} (h : Widened k n r r') :
    ((r.cells.length ≤ k ∧ r'.cells.length = r.cells.length) ∨ (k ≤ r.cells.length ∧ r'.cells.length = r.cells.length + n)) ∧
    (∀ (x : Nat) c, r.cells[x]? = some c → ∃ c', r'.cells[lowered k n x]? = some c' ∧ contents c' = contents c) ∧
    ∀ (x' : Nat) c', r'.cells[x']? = some c' → (∃ x c, x' = lowered k n x ∧ r.cells[x]? = some c ∧ contents c' = contents c) ∨ (k ≤ x' ∧ x' < k + n) := by
  rcases h.cells with ⟨h1, h2⟩ | ⟨a, b, a', m, b', h1, h2, h3, h4, h5, h6, h7⟩
  · have l := contents_length h2
    refine ⟨.inl ⟨h1, l⟩, fun x c hc => ?_, fun x' c' hc' => ?_⟩
    · have := (List.getElem?_eq_some_iff.mp hc).1
      rw [lowered, if_pos (by omega)]
      exact contents_get h2 hc
    · have := (List.getElem?_eq_some_iff.mp hc').1
      obtain ⟨c, e1, e2⟩ := contents_get h2.symm hc'
      exact .inl ⟨x', c, by rw [lowered, if_pos (by omega)], e1, e2.symm⟩
  · have l := contents_length h5
    have l' := contents_length h6
    rw [h1, h2]
    refine ⟨.inr ⟨by rw [List.length_append]; omega, by simp only [List.length_append]; omega⟩, fun x c hc => ?_, fun x' c' hc' => ?_⟩
    · by_cases hx : x < k
      · rw [List.getElem?_append_left (by omega)] at hc
        rw [lowered, if_pos hx, List.append_assoc, List.getElem?_append_left (by omega)]
        exact contents_get h5 hc
      · rw [List.getElem?_append_right (by omega)] at hc
        obtain ⟨c', e1, e2⟩ := contents_get h6 hc
        refine ⟨c', ?_, e2⟩
        rw [lowered, if_neg hx, List.getElem?_append_right (by rw [List.length_append]; omega), ← e1]
        congr 1
        rw [List.length_append]; omega
    · by_cases hx : x' < k
      · rw [List.append_assoc, List.getElem?_append_left (by omega)] at hc'
        obtain ⟨c, e1, e2⟩ := contents_get h5.symm hc'
        exact .inl ⟨x', c, by rw [lowered, if_pos hx], by rw [List.getElem?_append_left (by omega)]; exact e1, e2.symm⟩
      · by_cases hx' : x' < k + n
        · exact .inr ⟨by omega, hx'⟩
        · rw [List.getElem?_append_right (by rw [List.length_append]; omega)] at hc'
          obtain ⟨c, e1, e2⟩ := contents_get h6.symm hc'
          refine .inl ⟨x' - n, c, by rw [lowered, if_neg (by omega)]; omega, ?_, e2.symm⟩
          rw [List.getElem?_append_right (by omega), ← e1]
          congr 1
          rw [List.length_append]; omega

/-- C112.  Insert columns into a sheet.  For every outcome of the sheet, if the formulas of the inserted cells have results, the sheet with the inserted columns has an
outcome with the same other cells, in which every reference by name follows its cell. -/
theorem C112_insert (h : List.Forall₂ (Widened k n) rows rows') (hs : evalFills ⟨rows, false⟩ = some s₁) (ht : evalFills ⟨rows', false⟩ = some t₁) (hn : NotLikeCells sc ext rows)
    {s' : Sheet} (he : EvalSheet sc ext ⟨rows, false⟩ (.ok s'))
    (hnew : ∀ (y x : Nat) r c f, k ≤ x → x < k + n → t₁.rows[y]? = some r → r.cells[x]? = some c → c.ast = some f → ∃ b, Eval (effective sc ext t₁) (some ⟨x, y⟩) f (.ok b)) :
    ∃ t', EvalSheet sc ext ⟨rows', false⟩ (.ok t') ∧ SameColumns (FollowsCol sc ext rows (lowered k n)) k n s' t' := by
  obtain ⟨h1, h2, s₂, hs₂, hcc⟩ := (C103_cell_by_cell ..).mp he
  rw [hs] at hs₂; cases hs₂
  obtain ⟨t₂, ht₂, hw⟩ := widened_fills h hs
  rw [ht] at ht₂; cases ht₂
  have hrow : ∀ (y : Nat) q', t₁.rows[y]? = some q' → ∃ r' : Row, r'.opts = q'.opts ∧ r'.fill = q'.fill ∧ r'.cells.length = q'.cells.length ∧
      ∀ (x' : Nat) c' d', q'.cells[x']? = some c' → r'.cells[x']? = some d' → CellEval (effective sc ext t₁) ⟨x', y⟩ c' d' ∧
        ∀ x, x' = lowered k n x → ∀ r d, s'.rows[y]? = some r → r.cells[x]? = some d → SameCell (FollowsCol sc ext rows (lowered k n) ⟨x, y⟩) d d' := by
    intro y q' hq'
    obtain ⟨q, hq, hat⟩ := forall₂_get' hw hq'
    obtain ⟨-, -, hback⟩ := hat.at
    refine cells_ex fun x' c' hc' => ?_
    rcases hback x' c' hc' with ⟨x, c, rfl, hc, hcon⟩ | ⟨b1, b2⟩
    · simp only [contents, Prod.mk.injEq] at hcon
      obtain ⟨r0, r1, r2, r3⟩ := evalFills_of hs (List.mem_of_getElem? hq)
      have hy : y < s'.rows.length := by rw [hcc.rows]; exact (List.getElem?_eq_some_iff.mp hq).1
      have hx : x < s'.rows[y].cells.length := by rw [(hcc.row y q _ hq (List.getElem?_eq_getElem hy)).2.2]; exact (List.getElem?_eq_some_iff.mp hc).1
      have hce := hcc.cell y x q _ c _ hq (List.getElem?_eq_getElem hy) hc (List.getElem?_eq_getElem hx)
      have hsame : ∀ d' : Cell, SameCell (FollowsCol sc ext rows (lowered k n) ⟨x, y⟩) s'.rows[y].cells[x] d' → ∀ x₂, lowered k n x = lowered k n x₂ → ∀ r d, s'.rows[y]? = some r →
          r.cells[x₂]? = some d → SameCell (FollowsCol sc ext rows (lowered k n) ⟨x₂, y⟩) d d' := by
        intro d' hd' x₂ e r d hr hd
        cases lowered_inj e
        rw [List.getElem?_eq_getElem hy] at hr; cases hr
        rw [List.getElem?_eq_getElem hx] at hd; cases hd
        exact hd'
      cases ha : c.ast with
      | none =>
        have ha' : c'.ast = none := by rw [hcon.2.2, ha]
        refine ⟨c', ⟨rfl, rfl, rfl, fun h => h, (fun f hf => by rw [ha'] at hf; cases hf)⟩, hsame c' ⟨?_, ?_, .inl ⟨hce.text ha, ha'⟩⟩⟩
        · rw [hce.value, hcon.2.1]
        · rw [hce.opts, hcon.1]
      | some f =>
        have ha' : c'.ast = some f := by rw [hcon.2.2, ha]
        obtain ⟨b, hb, hev⟩ := hce.formula f ha
        obtain ⟨o', ho', hmo⟩ := (C112_formula h hs ht hn ⟨r0, r1, c, by rw [← r3]; exact List.mem_of_getElem? hc, ha⟩ x y).1 _ hev
        cases hmo with
        | @ok _ b' hm =>
          refine ⟨{ c' with ast := some b' }, ⟨rfl, rfl, rfl, (fun h => by rw [ha'] at h; cases h), fun g hg => ⟨b', rfl, ?_⟩⟩, hsame _ ⟨?_, ?_, .inr ⟨b, b', hb, rfl, hm⟩⟩⟩
          · rw [ha'] at hg; cases hg; exact ho'
          · show c'.value = _; rw [hce.value, hcon.2.1]
          · show c'.opts = _; rw [hce.opts, hcon.1]
    · have hvac : ∀ (d' : Cell), ∀ x, x' = lowered k n x → ∀ r d, s'.rows[y]? = some r → r.cells[x]? = some d →
          SameCell (FollowsCol sc ext rows (lowered k n) ⟨x, y⟩) d d' := by
        intro d' x e
        unfold lowered at e
        split at e <;> omega
      cases ha : c'.ast with
      | none => exact ⟨c', ⟨rfl, rfl, rfl, fun h => h, (fun f hf => by rw [ha] at hf; cases hf)⟩, hvac c'⟩
      | some f =>
        obtain ⟨b, hb⟩ := hnew y x' q' c' f b1 b2 hq' hc' ha
        refine ⟨{ c' with ast := some b }, ⟨rfl, rfl, rfl, (fun h => by rw [ha] at h; cases h), fun g hg => ⟨b, rfl, ?_⟩⟩, hvac _⟩
        rw [ha] at hg; cases hg; exact hb
  obtain ⟨rs, k1, k2⟩ := exists_list t₁.rows hrow
  refine ⟨⟨rs, t₁.expanded⟩, (C103_cell_by_cell ..).mpr ⟨h1, h2, t₁, ht, rfl, k1, fun y r r' hr hr' => ?_, fun y x r r' c c' hr hr' hc hc' => ?_⟩, ?_, ?_⟩
  · obtain ⟨m1, m2, m3, -⟩ := k2 y r r' hr hr'
    exact ⟨m1, m2, m3⟩
  · exact ((k2 y r r' hr hr').2.2.2 x c c' hc hc').1
  · show rs.length = _
    rw [k1, hcc.rows, hw.length_eq]
  · intro y r hr
    have hy : y < s₁.rows.length := by rw [← hcc.rows]; exact (List.getElem?_eq_some_iff.mp hr).1
    obtain ⟨q', hq', hat⟩ := forall₂_get hw (List.getElem?_eq_getElem hy)
    have hy' : y < rs.length := by rw [k1, ← hw.length_eq]; exact hy
    obtain ⟨m1, -, m3, m4⟩ := k2 _ _ _ hq' (List.getElem?_eq_getElem hy')
    obtain ⟨n1, -, n3⟩ := hcc.row y _ _ (List.getElem?_eq_getElem hy) hr
    obtain ⟨hlen, hfwd, -⟩ := hat.at
    refine ⟨_, List.getElem?_eq_getElem hy', by rw [m1, n1, hat.opts], by rw [m3, n3]; exact hlen, fun x d hd => ?_⟩
    have hx : x < s₁.rows[y].cells.length := by rw [← n3]; exact (List.getElem?_eq_some_iff.mp hd).1
    obtain ⟨c', hc', -⟩ := hfwd x _ (List.getElem?_eq_getElem hx)
    have hx' : lowered k n x < rs[y].cells.length := by rw [m3]; exact (List.getElem?_eq_some_iff.mp hc').1
    exact ⟨_, List.getElem?_eq_getElem hx', (m4 _ _ _ hc' (List.getElem?_eq_getElem hx')).2 x rfl r d hr hd⟩

/-- C112, the other way round: every outcome of the sheet with the inserted columns is, but for those columns, one of the sheet, in which every reference by name
follows its cell. -/
theorem C112_remove (h : List.Forall₂ (Widened k n) rows rows') (hs : evalFills ⟨rows, false⟩ = some s₁) (ht : evalFills ⟨rows', false⟩ = some t₁) (hn : NotLikeCells sc ext rows)
    {t' : Sheet} (he : EvalSheet sc ext ⟨rows', false⟩ (.ok t')) :
    ∃ s', EvalSheet sc ext ⟨rows, false⟩ (.ok s') ∧ SameColumns (FollowsCol sc ext rows (lowered k n)) k n s' t' := by
  obtain ⟨h1, h2, t₂, ht₂, hcc⟩ := (C103_cell_by_cell ..).mp he
  rw [ht] at ht₂; cases ht₂
  obtain ⟨t₂, ht₂, hw⟩ := widened_fills h hs
  rw [ht] at ht₂; cases ht₂
  have hrow : ∀ (y : Nat) q, s₁.rows[y]? = some q → ∃ r : Row, r.opts = q.opts ∧ r.fill = q.fill ∧ r.cells.length = q.cells.length ∧
      ∀ (x : Nat) c d, q.cells[x]? = some c → r.cells[x]? = some d → CellEval (effective sc ext s₁) ⟨x, y⟩ c d ∧
        ∀ r' d', t'.rows[y]? = some r' → r'.cells[lowered k n x]? = some d' → SameCell (FollowsCol sc ext rows (lowered k n) ⟨x, y⟩) d d' := by
    intro y q hq
    obtain ⟨q', hq', hat⟩ := forall₂_get hw hq
    obtain ⟨-, hfwd, -⟩ := hat.at
    refine cells_ex fun x c hc => ?_
    obtain ⟨c', hc', hcon⟩ := hfwd x c hc
    simp only [contents, Prod.mk.injEq] at hcon
    obtain ⟨r0, r1, r2, r3⟩ := evalFills_of hs (List.mem_of_getElem? hq)
    have hy : y < t'.rows.length := by rw [hcc.rows]; exact (List.getElem?_eq_some_iff.mp hq').1
    have hx : lowered k n x < t'.rows[y].cells.length := by rw [(hcc.row _ q' _ hq' (List.getElem?_eq_getElem hy)).2.2]; exact (List.getElem?_eq_some_iff.mp hc').1
    have hce := hcc.cell y _ q' _ c' _ hq' (List.getElem?_eq_getElem hy) hc' (List.getElem?_eq_getElem hx)
    have hsame : ∀ d : Cell, SameCell (FollowsCol sc ext rows (lowered k n) ⟨x, y⟩) d t'.rows[y].cells[lowered k n x] → ∀ r' d', t'.rows[y]? = some r' →
        r'.cells[lowered k n x]? = some d' → SameCell (FollowsCol sc ext rows (lowered k n) ⟨x, y⟩) d d' := by
      intro d hd r' d' hr' hd'
      rw [List.getElem?_eq_getElem hy] at hr'; cases hr'
      rw [List.getElem?_eq_getElem hx] at hd'; cases hd'
      exact hd
    cases ha : c.ast with
    | none =>
      have ha' : c'.ast = none := by rw [hcon.2.2, ha]
      refine ⟨c, ⟨rfl, rfl, rfl, fun h => h, (fun f hf => by rw [ha] at hf; cases hf)⟩, hsame c ⟨?_, ?_, .inl ⟨ha, hce.text ha'⟩⟩⟩
      · rw [hce.value, hcon.2.1]
      · rw [hce.opts, hcon.1]
    | some f =>
      have ha' : c'.ast = some f := by rw [hcon.2.2, ha]
      obtain ⟨b', hb', hev⟩ := hce.formula f ha'
      obtain ⟨o, ho, hmo⟩ := (C112_formula h hs ht hn ⟨r0, r1, c, by rw [← r3]; exact List.mem_of_getElem? hc, ha⟩ x y).2 _ hev
      cases hmo with
      | @ok b _ hm =>
        refine ⟨{ c with ast := some b }, ⟨rfl, rfl, rfl, (fun h => by rw [ha] at h; cases h), fun g hg => ⟨b, rfl, ?_⟩⟩, hsame _ ⟨?_, ?_, .inr ⟨b, b', rfl, hb', hm⟩⟩⟩
        · rw [ha] at hg; cases hg; exact ho
        · show _ = c.value; rw [hce.value, hcon.2.1]
        · show _ = c.opts; rw [hce.opts, hcon.1]
  obtain ⟨rs, k1, k2⟩ := exists_list s₁.rows hrow
  refine ⟨⟨rs, s₁.expanded⟩, (C103_cell_by_cell ..).mpr ⟨h1, h2, s₁, hs, rfl, k1, fun y r r' hr hr' => ?_, fun y x r r' c c' hr hr' hc hc' => ?_⟩, ?_, ?_⟩
  · obtain ⟨m1, m2, m3, -⟩ := k2 y r r' hr hr'
    exact ⟨m1, m2, m3⟩
  · exact ((k2 y r r' hr hr').2.2.2 x c c' hc hc').1
  · show _ = rs.length
    rw [k1, hcc.rows, hw.length_eq]
  · intro y r hr
    change rs[y]? = some r at hr
    have hy : y < s₁.rows.length := by rw [← k1]; exact (List.getElem?_eq_some_iff.mp hr).1
    obtain ⟨q', hq', hat⟩ := forall₂_get hw (List.getElem?_eq_getElem hy)
    have hy' : y < t'.rows.length := by rw [hcc.rows]; exact (List.getElem?_eq_some_iff.mp hq').1
    obtain ⟨m1, -, m3, m4⟩ := k2 _ _ _ (List.getElem?_eq_getElem hy) hr
    obtain ⟨n1, -, n3⟩ := hcc.row _ _ _ hq' (List.getElem?_eq_getElem hy')
    obtain ⟨hlen, hfwd, -⟩ := hat.at
    refine ⟨_, List.getElem?_eq_getElem hy', by rw [m1, n1, hat.opts], by rw [m3, n3]; exact hlen, fun x d hd => ?_⟩
    have hx : x < s₁.rows[y].cells.length := by rw [← m3]; exact (List.getElem?_eq_some_iff.mp hd).1
    obtain ⟨c', hc', -⟩ := hfwd x _ (List.getElem?_eq_getElem hx)
    have hx' : lowered k n x < t'.rows[y].cells.length := by rw [n3]; exact (List.getElem?_eq_some_iff.mp hc').1
    exact ⟨_, List.getElem?_eq_getElem hx', (m4 x _ _ (List.getElem?_eq_getElem hx) hd).2 _ _ (List.getElem?_eq_getElem hy') (List.getElem?_eq_getElem hx')⟩

end

end Verif.Cli
