import Verif.Cli.InsertProgram
import Verif.Target.Excel
import Verif.Target.Google
/-
A fill is an abbreviation for writing the row as often as it says (C106).
-/
namespace Verif.Cli
open Verif.Ast Verif.Loader Verif.Sheet Verif.Cache Verif.Csvp.Spec
open Verif.Cell hiding Target
open Verif.Target hiding MPath

/-! ## Specification -/

/-- The two rows have the same options and the same cells. -/
structure Equal (r r' : Row) : Prop where
  opts : r'.opts = r.opts
  cells : r'.cells.map contents = r.cells.map contents

/-- `rows'` is `rows` with some of the fills, of rows that have no names, written out: instead of the row with the fill there are as many rows without one.
A fill without an amount stands for `n` rows. -/
inductive WrittenOut (n : Nat) : List Row → List Row → Prop
  | nil : WrittenOut n [] []
  | kept {r r' : Row} {rs rs' : List Row} : Alike r r' → WrittenOut n rs rs' → WrittenOut n (r :: rs) (r' :: rs')
  | out {r : Row} {f : Fill} {rs rs' part : List Row} : r.fill = some f → names r = [] → part.length = f.amount.getD n → (∀ c ∈ part, Equal r c ∧ c.fill = none) →
      WrittenOut n rs rs' → WrittenOut n (r :: rs) (part ++ rs')

/-- The same outcome: the same options and contents in all cells, or the same error at the same place. -/
inductive SameOut : Out Sheet → Out Sheet → Prop
  | ok {s s' : Sheet} : List.Forall₂ Equal s.rows s'.rows → SameOut (.ok s) (.ok s')
  | err {pos : Addr} {e : EvalError} : SameOut (.err pos e) (.err pos e)
  | panic : SameOut .panic .panic

/-- The same for the rows of a source file. -/
inductive WrittenOutSrc (n : Nat) : List RowSrc → List RowSrc → Prop
  | nil : WrittenOutSrc n [] []
  | kept {r : RowSrc} {rs rs' : List RowSrc} : WrittenOutSrc n rs rs' → WrittenOutSrc n (r :: rs) (r :: rs')
  | out {r : RowSrc} {a : Option Nat} {rs rs' part : List RowSrc} : fillGiven r = some a → NoNames r → part.length = a.getD n →
      (∀ c ∈ part, fillGiven c = none ∧ settings c.entries = settings r.entries ∧ c.cells = r.cells) →
      WrittenOutSrc n rs rs' → WrittenOutSrc n (r :: rs) (part ++ rs')

/-! ## Evaluating equal rows -/

theorem Equal.symm {r r' : Row} (h : Equal r r') : Equal r' r := ⟨h.opts.symm, h.cells.symm⟩

theorem SameOut.symm {o o' : Out Sheet} (h : SameOut o o') : SameOut o' o := by
  cases h with
  | ok h => exact .ok (h.flip.imp fun _ _ => Equal.symm)
  | err => exact .err
  | panic => exact .panic

/-- Outcomes with results that are related. -/
inductive OutRel {α : Type} (R : α → α → Prop) : Out α → Out α → Prop
  | ok {a a' : α} : R a a' → OutRel R (.ok a) (.ok a')
  | err {pos : Addr} {e : EvalError} : OutRel R (.err pos e) (.err pos e)
  | panic : OutRel R .panic .panic

theorem OutRel.map {α β : Type} {R : α → α → Prop} {S : β → β → Prop} {f g : α → β} {o o' : Out α} (h : OutRel R o o') (hf : ∀ a a', R a a' → S (f a) (g a')) :
    OutRel S (o.map f) (o'.map g) := by
  cases h with
  | ok h => exact .ok (hf _ _ h)
  | err => exact .err
  | panic => exact .panic

theorem evalCells_equal {sc : Scope} {y x : Nat} {cs cs' : List Cell} {o : Out (List Cell)} (h : EvalCells sc y x cs o) (hc : cs'.map contents = cs.map contents) :
    ∃ o', EvalCells sc y x cs' o' ∧ OutRel (fun a b => b.map contents = a.map contents) o o' := by
  induction h generalizing cs' with
  | nil =>
    cases cs' with
    | nil => exact ⟨_, .nil, .ok rfl⟩
    | cons c cs => cases hc
  | value ha _ ih =>
    cases cs' with
    | nil => cases hc
    | cons c cs =>
      rw [List.map_cons, List.map_cons, List.cons.injEq] at hc
      obtain ⟨h1, h2⟩ := hc
      simp only [contents, Prod.mk.injEq] at h1
      obtain ⟨o', k1, k2⟩ := ih h2
      refine ⟨_, .value (by rw [h1.2.2, ha]) k1, k2.map fun a a' e => ?_⟩
      rw [List.map_cons, List.map_cons, e]
      simp only [contents, h1.1, h1.2.1]
  | formula ha he _ ih =>
    cases cs' with
    | nil => cases hc
    | cons c cs =>
      rw [List.map_cons, List.map_cons, List.cons.injEq] at hc
      obtain ⟨h1, h2⟩ := hc
      simp only [contents, Prod.mk.injEq] at h1
      obtain ⟨o', k1, k2⟩ := ih h2
      refine ⟨_, .formula (by rw [h1.2.2, ha]) he k1, k2.map fun a a' e => ?_⟩
      rw [List.map_cons, List.map_cons, e]
      simp only [contents, h1.1, h1.2.1]
  | err ha he =>
    cases cs' with
    | nil => cases hc
    | cons c cs =>
      rw [List.map_cons, List.map_cons, List.cons.injEq] at hc
      have h1 := hc.1
      simp only [contents, Prod.mk.injEq] at h1
      exact ⟨_, .err (by rw [h1.2.2, ha]) he, .err⟩
  | panic ha he =>
    cases cs' with
    | nil => cases hc
    | cons c cs =>
      rw [List.map_cons, List.map_cons, List.cons.injEq] at hc
      have h1 := hc.1
      simp only [contents, Prod.mk.injEq] at h1
      exact ⟨_, .panic (by rw [h1.2.2, ha]) he, .panic⟩

theorem evalRow_equal {sc : Scope} {y : Nat} {r r' : Row} {o : Out Row} (h : EvalRow sc y r o) (hr : Equal r r') : ∃ o', EvalRow sc y r' o' ∧ OutRel Equal o o' := by
  obtain ⟨o1, h1, rfl⟩ := h
  obtain ⟨o2, h2, h3⟩ := evalCells_equal h1 hr.cells
  exact ⟨_, ⟨o2, h2, rfl⟩, h3.map fun a a' e => ⟨hr.opts, e⟩⟩

theorem evalAll_equal {sc : Scope} {y : Nat} {rs out : List Row} (h : EvalAll sc y rs out) {rs' : List Row} (hr : List.Forall₂ Equal rs rs') :
    ∃ out', EvalAll sc y rs' out' ∧ List.Forall₂ Equal out out' := by
  induction h generalizing rs' with
  | nil => cases hr; exact ⟨[], .nil, .nil⟩
  | cons h1 _ ih =>
    cases hr with
    | cons e er =>
      obtain ⟨o', k1, k2⟩ := evalRow_equal h1 e
      obtain ⟨out', k3, k4⟩ := ih er
      cases k2 with
      | ok k2 => exact ⟨_, .cons k1 k3, .cons k2 k4⟩

theorem evalRows_equal {sc : Scope} {rs rs' : List Row} {o : Out (List Row)} (h : EvalRows sc rs o) (hr : List.Forall₂ Equal rs rs') :
    ∃ o', EvalRows sc rs' o' ∧ OutRel (List.Forall₂ Equal) o o' := by
  cases h with
  | ok h =>
    obtain ⟨out', k1, k2⟩ := evalAll_equal h hr
    exact ⟨_, .ok k1, .ok k2⟩
  | err h1 h2 =>
    obtain ⟨r', k1, k2⟩ := forall₂_get hr h1
    obtain ⟨o', k3, k4⟩ := evalRow_equal h2 k2
    cases k4
    exact ⟨_, .err k1 k3, .err⟩
  | panic h1 h2 =>
    obtain ⟨r', k1, k2⟩ := forall₂_get hr h1
    obtain ⟨o', k3, k4⟩ := evalRow_equal h2 k2
    cases k4
    exact ⟨_, .panic k1 k3, .panic⟩

/-- Sheets whose expanded rows are equal and define the same names have the same outcomes. -/
theorem evalSheet_equal {sc : Scope} {ext : Text → Option Ast} {s s₁ t t₁ : Sheet} (hs : evalFills s = some s₁) (ht : evalFills t = some t₁)
    (hr : List.Forall₂ Equal s₁.rows t₁.rows) (hv : sheetVars t₁ = sheetVars s₁) {o : Out Sheet} (h : EvalSheet sc ext s o) :
    ∃ o', EvalSheet sc ext t o' ∧ SameOut o o' := by
  obtain ⟨h1, h2, s₂, o1, e1, e2, rfl⟩ := evalSheet_iff.mp h
  rw [hs] at e1; cases e1
  obtain ⟨o2, k1, k2⟩ := evalRows_equal e2 hr
  have heff : effective sc ext t₁ = effective sc ext s₁ := by simp only [effective, hv]
  refine ⟨_, evalSheet_iff.mpr ⟨h1, h2, t₁, o2, ht, by rw [heff]; exact k1, rfl⟩, ?_⟩
  cases k2 with
  | ok k => exact .ok k
  | err => exact .err
  | panic => exact .panic

/-! ## Expanding -/

/-- Equal rows that name the same cells, or none. -/
structure EqualNamed (r r' : Row) : Prop extends Equal r r' where
  named : r'.fill = r.fill ∨ names r = []

theorem cellVars_none {y : Nat} {fill : Option Fill} {cs : List Cell} (h : cs.filterMap (·.opts.var) = []) (x : Nat) : cellVars y fill x cs = [] := by
  induction cs generalizing x with
  | nil => rfl
  | cons c cs ih =>
    rw [List.filterMap_eq_nil_iff] at h
    rw [cellVars, ih (by rw [List.filterMap_eq_nil_iff]; exact fun a ha => h a (by simp [ha])), cellVar, h c (by simp)]
    rfl

theorem rowInsertions_unnamed {r : Row} (h : names r = []) (y : Nat) : rowVar y r ++ cellVars y r.fill 0 r.cells = [] := by
  rw [names, List.append_eq_nil_iff] at h
  rw [cellVars_none h.2, rowVar, h.1]
  rfl

theorem names_equal {r r' : Row} (h : Equal r r') : names r' = names r := by
  have e : ∀ cs : List Cell, cs.filterMap (·.opts.var) = (cs.map contents).filterMap (·.1.var) := by
    intro cs; rw [List.filterMap_map]; rfl
  rw [names, names, h.opts, e, e, h.cells]

theorem rowInsertions_equal {r r' : Row} (h : EqualNamed r r') (y : Nat) : rowVar y r' ++ cellVars y r'.fill 0 r'.cells = rowVar y r ++ cellVars y r.fill 0 r.cells := by
  rcases h.named with e | e
  · rw [rowVar, rowVar, h.opts, e, cellVars_contents h.cells]
  · rw [rowInsertions_unnamed e, rowInsertions_unnamed (by rw [names_equal h.toEqual]; exact e)]

theorem insertions_equal {rs rs' : List Row} (h : List.Forall₂ EqualNamed rs rs') (y : Nat) : insertions y rs' = insertions y rs := by
  induction h generalizing y with
  | nil => rfl
  | cons h _ ih => rw [insertions, insertions, rowInsertions_equal h, ih]

theorem alike_amount {r r' : Row} (h : Alike r r') : (r.fill = none ∧ r'.fill = none) ∨ ∃ f f' : Fill, r.fill = some f ∧ r'.fill = some f' ∧ f'.amount = f.amount := by
  have := h.fill
  cases e : r.fill with
  | none => rw [e] at this; exact .inl ⟨rfl, by simpa using this⟩
  | some f =>
    rw [e] at this
    obtain ⟨f', h1, h2⟩ := Option.map_eq_some_iff.mp this
    exact .inr ⟨f, f', rfl, h1, h2⟩

theorem forall₂_part {r : Row} {part : List Row} (h : ∀ c ∈ part, EqualNamed r c) : List.Forall₂ EqualNamed (List.replicate part.length r) part := by
  induction part with
  | nil => exact .nil
  | cons c part ih =>
    rw [List.length_cons, List.replicate_succ]
    exact .cons (h c (by simp)) (ih fun c hc => h c (by simp [hc]))

theorem expand_out {n n' : Nat} {rows rows' : List Row} (h : WrittenOut n rows rows') (hn : n' = n ∨ ∀ q ∈ rows', ¬ Unbounded q) (y : Nat) :
    List.Forall₂ EqualNamed (expandLoop n y rows) (expandLoop n' y rows') := by
  induction h generalizing y with
  | nil => exact .nil
  | kept ha hw ih =>
    rename_i r r' rs rs'
    have ih := fun y => ih (hn.imp id fun h q hq => h q (by simp [hq])) y
    rcases alike_amount ha with ⟨e1, e2⟩ | ⟨f, f', e1, e2, e3⟩
    · simp only [expandLoop, e1, e2]
      exact .cons ⟨⟨ha.opts, ha.cells⟩, .inl (by rw [e1, e2])⟩ (ih _)
    · have hk : f'.amount.getD n' = f.amount.getD n := by
        rw [e3]
        rcases hn with rfl | hn
        · rfl
        · cases e : f.amount with
          | some a => rfl
          | none => exact absurd ⟨f'.startRow, by rw [e2, ← e, ← e3]⟩ (hn r' (by simp))
      simp only [expandLoop, e1, e2, hk]
      refine List.rel_append ?_ (ih _)
      refine forall₂_replicate ⟨⟨ha.opts, ha.cells⟩, .inl ?_⟩ _
      simp only [Fill.cloneToRow, e3]
  | out hf hnm hl hp hw ih =>
    rename_i r f rs rs' part
    have ih := fun y => ih (hn.imp id fun h q hq => h q (by simp [hq])) y
    have hplain : ∀ z, expandLoop n' z (part ++ rs') = part ++ expandLoop n' (z + part.length) rs' := by
      intro z
      clear hl hn ih
      induction part generalizing z with
      | nil => rfl
      | cons c part ihp =>
        rw [List.cons_append, expandLoop]
        simp only [(hp c (by simp)).2]
        rw [ihp (fun c hc => hp c (by simp [hc])), List.length_cons, show z + 1 + part.length = z + (part.length + 1) by omega]
        rfl
    rw [hplain]
    simp only [expandLoop, hf]
    rw [← hl]
    exact List.rel_append (forall₂_part (r := { r with fill := some (f.cloneToRow y) }) fun c hc => ⟨⟨(hp c hc).1.opts, (hp c hc).1.cells⟩, .inr hnm⟩) (ih _)

/-- The fills without an amount. -/
def unboundeds (rows : List Row) : Nat := (rows.filter (fun r => decide (Unbounded r))).length

theorem out_counts {n : Nat} {rows rows' : List Row} (h : WrittenOut n rows rows') : ∃ k, unboundeds rows = unboundeds rows' + k ∧ bounded rows' = bounded rows + k * n := by
  induction h with
  | nil => exact ⟨0, rfl, by simp⟩
  | kept ha hw ih =>
    rename_i r r' rs rs'
    obtain ⟨k, h1, h2⟩ := ih
    refine ⟨k, ?_, by rw [bounded_cons, bounded_cons, alike_copies ha, h2]; omega⟩
    have : Unbounded r ↔ Unbounded r' := by
      rcases alike_amount ha with ⟨e1, e2⟩ | ⟨f, f', e1, e2, e3⟩
      · simp only [Unbounded, e1, e2]
      · cases f; cases f'; cases e3
        simp only [Unbounded, e1, e2, Option.some.injEq, Fill.mk.injEq]
        constructor <;> rintro ⟨y, h, -⟩ <;> exact ⟨_, h, rfl⟩
    unfold unboundeds at h1 ⊢
    rw [List.filter_cons, List.filter_cons]
    by_cases hu : Unbounded r
    · rw [if_pos (by simpa using hu), if_pos (by simpa using this.mp hu), List.length_cons, List.length_cons]; omega
    · rw [if_neg (by simpa using hu), if_neg (by simpa using fun h => hu (this.mpr h))]; exact h1
  | out hf hnm hl hp hw ih =>
    rename_i r f rs rs' part
    obtain ⟨k, h1, h2⟩ := ih
    have hb : ∀ part : List Row, (∀ c ∈ part, c.fill = none) → bounded part = part.length ∧ unboundeds part = 0 := by
      intro part hp
      induction part with
      | nil => exact ⟨rfl, rfl⟩
      | cons c part ihp =>
        obtain ⟨i1, i2⟩ := ihp fun c hc => hp c (by simp [hc])
        have hc := hp c (by simp)
        refine ⟨by rw [bounded_cons, i1, List.length_cons, boundedCopies, hc]; exact Nat.add_comm .., ?_⟩
        unfold unboundeds at i2 ⊢
        rw [List.filter_cons, if_neg (by simp [Unbounded, hc]), i2]
    obtain ⟨b1, b2⟩ := hb part fun c hc => (hp c hc).2
    have u : unboundeds (part ++ rs') = unboundeds rs' := by
      unfold unboundeds at b2 ⊢
      rw [List.filter_append, List.length_append, b2, Nat.zero_add]
    rw [u, bounded_append, b1, hl, bounded_cons]
    obtain ⟨a, y⟩ := f
    cases a with
    | some a =>
      refine ⟨k, ?_, by rw [boundedCopies, hf, h2]; simp only [Option.getD_some]; omega⟩
      unfold unboundeds at h1 ⊢
      rw [List.filter_cons, if_neg (by simp [Unbounded, hf]), h1]
    | none =>
      refine ⟨k + 1, ?_, by rw [boundedCopies, hf, h2, Nat.add_mul]; simp only [Option.getD_none]; omega⟩
      unfold unboundeds at h1 ⊢
      rw [List.filter_cons, if_pos (by simp [Unbounded, hf]), List.length_cons, h1]
      omega

section
variable {rows rows' : List Row}

theorem evalFills_two (h : ¬ 2 ≤ unboundeds rows) : evalFills ⟨rows, false⟩ = some ⟨expandLoop (1000 - bounded rows) 0 rows, true⟩ := by
  cases e : evalFills ⟨rows, false⟩ with
  | none => exact absurd ((C25_rejected_iff rows).mp e) h
  | some s =>
    rw [evalFills] at e
    simp only [Bool.false_eq_true, if_false] at e
    split at e
    · cases e
    · cases e
      rw [rowsLeftOver_eq]

/-- The expanded sheets. -/
theorem out_expand (h : WrittenOut (1000 - bounded rows) rows rows') (h2 : ¬ 2 ≤ unboundeds rows) :
    ∃ A B, evalFills ⟨rows, false⟩ = some ⟨A, true⟩ ∧ evalFills ⟨rows', false⟩ = some ⟨B, true⟩ ∧ List.Forall₂ EqualNamed A B := by
  obtain ⟨k, k1, k2⟩ := out_counts h
  refine ⟨_, _, evalFills_two h2, evalFills_two (by omega), expand_out h ?_ 0⟩
  by_cases hk : k = 0
  · subst hk; left; rw [k2]; omega
  · right
    intro q hq hu
    have : 0 < unboundeds rows' := List.length_pos_of_mem (List.mem_filter.mpr ⟨hq, by simpa using hu⟩)
    omega

/-- C106.  Writing out fills of rows without names does not change the outcomes of a sheet: the same cells, or the same error at the same place. -/
theorem C106_sheet (sc : Scope) (ext : Text → Option Ast) (h : WrittenOut (1000 - bounded rows) rows rows') (h2 : ¬ 2 ≤ unboundeds rows) :
    (∀ o, EvalSheet sc ext ⟨rows, false⟩ o → ∃ o', EvalSheet sc ext ⟨rows', false⟩ o' ∧ SameOut o o') ∧
    ∀ o', EvalSheet sc ext ⟨rows', false⟩ o' → ∃ o, EvalSheet sc ext ⟨rows, false⟩ o ∧ SameOut o o' := by
  obtain ⟨A, B, e1, e2, e3⟩ := out_expand h h2
  have hv : sheetVars ⟨B, true⟩ = sheetVars ⟨A, true⟩ := by simp only [sheetVars, insertions_equal e3]
  have hr : List.Forall₂ Equal A B := e3.imp fun _ _ h => h.toEqual
  refine ⟨fun o ho => evalSheet_equal e1 e2 hr hv ho, fun o' ho => ?_⟩
  obtain ⟨o, k1, k2⟩ := evalSheet_equal e2 e1 (hr.flip.imp fun _ _ => Equal.symm) hv.symm ho
  exact ⟨o, k1, k2.symm⟩

end

/-! ## What is written -/

section
variable {s t : Sheet} (h : List.Forall₂ Equal s.rows t.rows)

theorem mergeRows_equal {V W : Type} {g : Merged V → W} (hg : ∀ c c' : Cell, contents c' = contents c → g (.new c') = g (.new c)) {cs cs' : List Cell}
    (hc : cs'.map contents = cs.map contents) (overwrite : Bool) (old : List (Existing V)) : (mergeRows overwrite old cs').map g = (mergeRows overwrite old cs).map g := by
  have hl : cs'.length = cs.length := by simpa using congrArg List.length hc
  rw [mergeRows, mergeRows, List.map_map, List.map_map, hl]
  refine List.map_congr_left fun i _ => ?_
  show g (mergeCell _ _ _) = g (mergeCell _ _ _)
  cases e : cs[i]? with
  | none =>
    have e' : cs'[i]? = none := by rw [List.getElem?_eq_none_iff] at e ⊢; omega
    rw [e']
  | some c =>
    obtain ⟨c', h1, h2⟩ := contents_get hc e
    rw [h1]
    cases old[i]?.getD .empty with
    | value v => cases overwrite <;> first | rfl | exact hg _ _ h2
    | empty => exact hg _ _ h2

theorem equal_parts {c c' : Cell} (h : contents c' = contents c) : c'.opts = c.opts ∧ c'.value = c.value ∧ c'.ast = c.ast := by
  simpa only [contents, Prod.mk.injEq] using h

include h in
theorem widest_equal : widestRow t = widestRow s := by
  rw [widestRow, widestRow]
  congr 1
  revert h
  generalize s.rows = A, t.rows = B
  intro h
  induction h with
  | nil => rfl
  | cons h _ ih =>
    have e := congrArg List.length h.cells
    rw [List.length_map, List.length_map] at e
    rw [List.map_cons, List.map_cons, ih, e]

include h in
/-- The file that is written. -/
theorem writeCsv_equal (overwrite : Bool) (file : Option Text) : writeCsv overwrite t file = writeCsv overwrite s file := by
  rw [writeCsv, writeCsv, widest_equal h]
  congr 1
  revert h
  generalize widestRow s = n, readExisting file = old, 0 = i, s.rows = A, t.rows = B
  intro h
  induction h generalizing i with
  | nil => rfl
  | cons h _ ih =>
    rw [outputRows, outputRows, ih, outputRow, outputRow, mergeRows_equal (fun c c' hc => ?_) h.cells]
    obtain ⟨-, h2, h3⟩ := equal_parts hc
    rw [mergedText, mergedText, Cell.display, Cell.display, h2, h3]

theorem placeCell_equal {c c' : Cell} (hc : contents c' = contents c) (overwrite : Bool) (st : Worksheet × Pending) (x y : Nat) :
    placeCell overwrite st x y c' = placeCell overwrite st x y c := by
  obtain ⟨h1, h2, h3⟩ := equal_parts hc
  have e1 : styleOf c' = styleOf c := by
    unfold styleOf borderOf Cell.sideHasBorder
    rw [h1]
  have e2 : ∀ old, setValue old c' = setValue old c := by intro old; simp only [setValue, h2, h3]
  rw [placeCell, placeCell]
  cases existingCell st.1 x y with
  | empty => simp only [mergeCell, e1, e2, h1]
  | value v => cases overwrite <;> simp [mergeCell, e1, e2, h1]

include h in
/-- The workbook that is written. -/
theorem writeExcel_equal (den : Text → DateVal) (overwrite : Bool) (name : Text) (file : Option Workbook) :
    writeExcel den overwrite name t file = writeExcel den overwrite name s file := by
  have hp : ∀ st, placeRows overwrite 0 t.rows st = placeRows overwrite 0 s.rows st := by
    revert h
    generalize 0 = y, s.rows = A, t.rows = B
    intro h
    induction h generalizing y with
    | nil => intro st; rfl
    | cons h _ ih =>
      intro st
      rw [placeRows, placeRows, ih]
      congr 1
      have hc := h.cells
      generalize 0 = x
      rename_i r r' _ _ _
      generalize r'.cells = cs' at hc ⊢
      generalize r.cells = cs at hc ⊢
      induction cs generalizing x cs' st with
      | nil =>
        cases cs' with
        | nil => rfl
        | cons c cs => cases hc
      | cons c cs ihc =>
        cases cs' with
        | nil => cases hc
        | cons c' cs' =>
          rw [List.map_cons, List.map_cons, List.cons.injEq] at hc
          rw [placeCells, placeCells, placeCell_equal hc.1]
          exact ihc _ _ _ hc.2
  have : buildWorksheet den overwrite t = buildWorksheet den overwrite s := by
    funext ws
    simp only [buildWorksheet, hp]
  rw [writeExcel, writeExcel, this]

include h in
/-- The requests that are sent. -/
theorem requests_equal (overwrite : Bool) (offset : Nat × Nat) (rows : List (List GData)) : requests overwrite offset t rows = requests overwrite offset s rows := by
  have : rowData overwrite (readGoogle rows) 0 t.rows = rowData overwrite (readGoogle rows) 0 s.rows := by
    revert h
    generalize readGoogle rows = old, 0 = i, s.rows = A, t.rows = B
    intro h
    induction h generalizing i with
    | nil => rfl
    | cons h _ ih =>
      rw [rowData, rowData, ih, mergeRows_equal (fun c c' hc => ?_) h.cells]
      obtain ⟨h1, h2, h3⟩ := equal_parts hc
      rw [cellData, cellData, gNew, gNew, gValue, gValue, h1, h2, h3]
  rw [requests, requests, this]

/-- C106, the targets: from the same outcomes the same is written to every kind of target. -/
theorem C106_written {s t : Sheet} (h : SameOut (.ok s) (.ok t)) :
    (∀ overwrite file, writeCsv overwrite t file = writeCsv overwrite s file) ∧
    (∀ den overwrite name file, writeExcel den overwrite name t file = writeExcel den overwrite name s file) ∧
    ∀ overwrite offset rows, requests overwrite offset t rows = requests overwrite offset s rows := by
  cases h with
  | ok h => exact ⟨writeCsv_equal h, writeExcel_equal h, requests_equal h⟩

end

/-! ## The program -/

theorem writtenOut_src {E : Env} {n : Nat} {rs rs' : List RowSrc} (h : WrittenOutSrc n rs rs') {rows rows' : List Row} (o o' : Nat) (hl : rows.length = rs.length) (hl' : rows'.length = rs'.length)
    (hr : ∀ (i : Nat) r row, rs[i]? = some r → rows[i]? = some row → IsRow E (o + i) r row)
    (hr' : ∀ (i : Nat) r row, rs'[i]? = some r → rows'[i]? = some row → IsRow E (o' + i) r row) : WrittenOut n rows rows' := by
  induction h generalizing rows rows' o o' with
  | nil => cases List.length_eq_zero_iff.mp hl; cases List.length_eq_zero_iff.mp hl'; exact .nil
  | kept _ ih =>
    cases rows with
    | nil => cases hl
    | cons row rows =>
      cases rows' with
      | nil => cases hl'
      | cons row' rows' =>
        refine .kept (isRow_alike (hr 0 _ row rfl rfl) (hr' 0 _ row' rfl rfl)) (ih (o + 1) (o' + 1) (by simpa using hl) (by simpa using hl') (fun i q q' hq hq' => ?_) fun i q q' hq hq' => ?_)
        · have := hr (i + 1) q q' (by simpa using hq) (by simpa using hq')
          rwa [show o + (i + 1) = o + 1 + i by omega] at this
        · have := hr' (i + 1) q q' (by simpa using hq) (by simpa using hq')
          rwa [show o' + (i + 1) = o' + 1 + i by omega] at this
  | out hf hn hlen hp _ ih =>
    rename_i r a rs rs' part _
    cases rows with
    | nil => cases hl
    | cons row rows =>
      have h0 := hr 0 _ row rfl rfl
      rw [List.length_append] at hl'
      rw [← List.take_append_drop part.length rows']
      have hfill : row.fill = some ⟨a, o + 0⟩ := by rw [isRow_fill h0, hf]; rfl
      refine .out hfill (isRow_noNames h0 hn) (by rw [List.length_take, ← hlen]; omega) (fun c hc => ?_)
        (ih (o + 1) (o' + part.length) (by simpa using hl) (by rw [List.length_drop]; omega) (fun i q q' hq hq' => ?_) fun i q q' hq hq' => ?_)
      · obtain ⟨i, hi, rfl⟩ := List.getElem_of_mem hc
        rw [List.length_take] at hi
        have hi' : i < part.length := by omega
        have k := hr' i part[i] ((rows'.take part.length)[i]'(by rw [List.length_take]; exact hi))
          (by rw [List.getElem?_append_left hi']; exact List.getElem?_eq_getElem hi') (by rw [List.getElem_take]; exact List.getElem?_eq_getElem _)
        obtain ⟨p1, p2, p3⟩ := hp _ (List.getElem_mem hi')
        have ho : (rows'.take part.length)[i].opts = row.opts := by rw [k.opts, h0.opts, p2]
        refine ⟨⟨ho, ?_⟩, by rw [isRow_fill k, p1]; rfl⟩
        have e := h0.cells
        have e' := k.cells
        rw [ho, p3, ← e] at e'
        exact e'
      · have := hr (i + 1) q q' (by simpa using hq) (by simpa using hq')
        rwa [show o + (i + 1) = o + 1 + i by omega] at this
      · have := hr' (part.length + i) q q' (by rw [List.getElem?_append_right (by omega), Nat.add_sub_cancel_left]; exact hq) (by rw [List.getElem?_drop] at hq'; exact hq')
        rwa [show o' + (part.length + i) = o' + part.length + i by omega] at this

/-- The rows with a fill without an amount. -/
def srcUnbounded (rs : List RowSrc) : Nat := (rs.filter fun r => decide (fillGiven r = some none)).length

theorem areRows_unboundeds {E : Env} {rs : List RowSrc} {rows : List Row} (o : Nat) (hl : rows.length = rs.length)
    (h : ∀ (i : Nat) r row, rs[i]? = some r → rows[i]? = some row → IsRow E (o + i) r row) : unboundeds rows = srcUnbounded rs := by
  induction rs generalizing rows o with
  | nil => cases List.length_eq_zero_iff.mp hl; rfl
  | cons r rs ih =>
    cases rows with
    | nil => cases hl
    | cons row rows =>
      have ih := ih (o + 1) (rows := rows) (by simpa using hl) fun i q q' hq hq' => by
        have := h (i + 1) q q' (by simpa using hq) (by simpa using hq')
        rwa [show o + (i + 1) = o + 1 + i by omega] at this
      have e := isRow_fill (h 0 r row rfl rfl)
      have : Unbounded row ↔ fillGiven r = some none := by
        rw [Unbounded, e]
        cases fillGiven r with
        | none => simp
        | some n => simp
      unfold unboundeds srcUnbounded at ih ⊢
      rw [List.filter_cons, List.filter_cons]
      by_cases hu : Unbounded row
      · rw [if_pos (by simpa using hu), if_pos (by simpa using this.mp hu), List.length_cons, List.length_cons, ih]
      · rw [if_neg (by simpa using hu), if_neg (by simpa using fun h => hu (this.mpr h)), ih]

section
variable {E : Env} {a : Args} {fs fs' : FS Text} {files : Files Text} {mp : MPath} {p : Path} {kv : Text → Option Ast}
  {ls : List Parser.Line} {csv csv' src src' : Text} {rs rs' : List RowSrc}

/-- C106, the program.  Write out some fills, of rows that have no names, in a source file.  Exactly the same contents can be written to the target. -/
theorem C106_program (version : Nat) (ts : List Text) (partials : Text → List Text) (cuts : List Nat) (hs : Setup E a mp p kv)
    (hb : CanBackup ts a files p) (hsrc : SourceFile E ls csv src) (hf : Fresh fs mp src) (hc : CellsSection E csv rs)
    (hsrc' : SourceFile E ls csv' src') (hf' : Fresh fs' mp src') (hc' : CellsSection E csv' rs')
    (hw : WrittenOutSrc (1000 - (rs.map srcCopies).sum) rs rs') (h2 : ¬ 2 ≤ srcUnbounded rs) (out : Text) :
    (∃ states w final, Main E version ts partials cuts a fs files (some .success) states w ∧ states.getLast? = some final ∧ Wrote files final p out) ↔
    ∃ states w final, Main E version ts partials cuts a fs' files (some .success) states w ∧ states.getLast? = some final ∧ Wrote files final p out := by
  obtain ⟨c1, c2⟩ := hsrc.split
  obtain ⟨c1', c2'⟩ := hsrc'.split
  obtain ⟨sc, s1, -⟩ := Parser.C48_code_section_partial E.uni E.f64 ls hsrc.lines (usesFirst_of hsrc.uses)
  rw [modules_of hsrc.uses] at s1
  obtain ⟨⟨g, hg, ht⟩, hform⟩ := hc
  obtain ⟨⟨g', hg', ht'⟩, hform'⟩ := hc'
  rw [Csvp.values_parse] at hg hg'
  obtain ⟨rows, e1, r1⟩ := sheet_parse (E := E) (csv := (Source.SourceCode.new src).csv) (n := (Source.SourceCode.new src).lenCode) (by rw [c2, Csvp.values_parse]; exact hg) ht hform
  obtain ⟨rows', e1', r1'⟩ := sheet_parse (E := E) (csv := (Source.SourceCode.new src').csv) (n := (Source.SourceCode.new src').lenCode) (by rw [c2', Csvp.values_parse]; exact hg') ht' hform'
  have hp : parseModule E src = .ok ⟨[], sc, ⟨rows, false⟩⟩ := by rw [parseModule, c1, show parseScope E (some _) = _ from s1]; simp only [e1]
  have hp' : parseModule E src' = .ok ⟨[], sc, ⟨rows', false⟩⟩ := by rw [parseModule, c1', show parseScope E (some _) = _ from s1]; simp only [e1']
  have get : ∀ {rs rows}, AreRows E rs rows → ∀ (i : Nat) r row, rs[i]? = some r → rows[i]? = some row → IsRow E (0 + i) r row := by
    intro rs rows h i r row h1 h2
    obtain ⟨r', k1, k2⟩ := areRows_row h h2
    rw [h1] at k1; cases k1; rw [Nat.zero_add]; exact k2
  have hW : WrittenOut (1000 - bounded rows) rows rows' := by
    rw [part_copies 0 r1.1 (get r1)]
    exact writtenOut_src hw 0 0 r1.1 r1'.1 (get r1) (get r1')
  obtain ⟨k1, k2⟩ := C106_sheet sc kv hW (by rw [areRows_unboundeds 0 r1.1 (get r1)]; exact h2)
  have wrote_eq : ∀ {final x y}, Wrote files final p x → Wrote files final p y → x = y := by
    intro final x y hx hy
    exact Option.some.inj (hx.1.symm.trans hy.1)
  constructor
  · rintro ⟨states, w, final, h, m1, m2⟩
    obtain ⟨-, ⟨s, final', hev, -, n2, n3⟩ | ⟨n1, -⟩⟩ := main_alone hs hb hf hp rfl h
    · rw [m1] at n2; cases n2
      obtain ⟨o', q1, q2⟩ := k1 _ hev
      cases q2 with
      | ok q2 =>
        obtain ⟨states', w', final', u1, u2, u3⟩ := main_alone_with (version := version) (partials := partials) (cuts := cuts) hs hb hf' hp' rfl q1
        rw [writeCsv_equal q2, ← wrote_eq m2 n3] at u3
        exact ⟨states', w', final', u1, u2, u3⟩
    · rcases n1 with n1 | n1 <;> cases n1
  · rintro ⟨states, w, final, h, m1, m2⟩
    obtain ⟨-, ⟨s, final', hev, -, n2, n3⟩ | ⟨n1, -⟩⟩ := main_alone hs hb hf' hp' rfl h
    · rw [m1] at n2; cases n2
      obtain ⟨o', q1, q2⟩ := k2 _ hev
      cases q2 with
      | ok q2 =>
        obtain ⟨states', w', final', u1, u2, u3⟩ := main_alone_with (version := version) (partials := partials) (cuts := cuts) hs hb hf hp rfl q1
        rw [← writeCsv_equal q2, ← wrote_eq m2 n3] at u3
        exact ⟨states', w', final', u1, u2, u3⟩
    · rcases n1 with n1 | n1 <;> cases n1
end

/-! ## An example -/

namespace WriteOutExample

/-- A text. -/
def word (t : Text) : Cell := ⟨none, ⟨⟨0, 0⟩, [], []⟩, t, {}⟩

/-- A row with a text and a formula. -/
def plain (fill : Option Fill) : Row := ⟨{}, fill, [word "Item".toList, ⟨some (.ref "rate".toList), ⟨⟨1, 0⟩, [], []⟩, "=rate".toList, {}⟩]⟩

/-- A row with a name. -/
def total : Row := ⟨{}, none, [⟨none, ⟨⟨0, 0⟩, [], []⟩, "5".toList, { var := some "rate".toList }⟩]⟩

/-- A fill of two rows, and one of the rest of the sheet. -/
def rows : List Row := [plain (some ⟨some 2, 0⟩), total, plain (some ⟨none, 2⟩)]

/-- The first fill is written out. -/
example : WrittenOut (1000 - bounded rows) rows [plain none, plain none, total, plain (some ⟨none, 3⟩)] :=
  .out (part := [plain none, plain none]) rfl rfl rfl (by intro c hc; simp at hc; subst hc; exact ⟨⟨rfl, rfl⟩, rfl⟩)
    (.kept ⟨rfl, rfl, rfl⟩ (.kept ⟨rfl, rfl, rfl⟩ .nil))

/-- The second is: it stands for the other 997 rows. -/
example : WrittenOut (1000 - bounded rows) rows ([plain (some ⟨some 2, 0⟩), total] ++ List.replicate 997 (plain none)) :=
  .kept ⟨rfl, rfl, rfl⟩ (.kept ⟨rfl, rfl, rfl⟩ (by
    have := WrittenOut.out (n := 1000 - bounded rows) (r := plain (some ⟨none, 2⟩)) (part := List.replicate 997 (plain none)) rfl rfl (by rw [List.length_replicate]; rfl)
      (by intro c hc; rw [List.mem_replicate] at hc; obtain ⟨-, rfl⟩ := hc; exact ⟨⟨rfl, rfl⟩, rfl⟩) .nil
    rwa [List.append_nil] at this))

example : ¬ 2 ≤ unboundeds rows := by decide

/-- In the source: `![[fill=2]]Item` is `Item` twice. -/
example (n : Nat) : WrittenOutSrc n [⟨[.inr (some 2)], [([], "Item".toList)]⟩] [⟨[], [([], "Item".toList)]⟩, ⟨[], [([], "Item".toList)]⟩] :=
  .out (part := [_, _]) (a := some 2) rfl ⟨by simp [settings], by simp⟩ rfl (by intro c hc; simp at hc; subst hc; exact ⟨rfl, rfl, rfl⟩) .nil

end WriteOutExample

end Verif.Cli
