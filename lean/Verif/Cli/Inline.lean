import Verif.Cli.WriteOut
import Verif.Cli.Meaning
import Verif.Ast.Inline
/-
Replacing uses of definitions by the definitions, in the whole program (C107).
-/
namespace Verif.Cli
open Verif.Ast Verif.Loader Verif.Sheet Verif.Cache Verif.Csvp.Spec
open Verif.Cell hiding Target
open Verif.Target hiding MPath

/-! ## Specification -/

/-- What a target can show of a cell: the options, and the formula or else the text. -/
def visible (c : Cell) : Opts × Option Ast × Text := (c.opts, c.ast, if c.ast.isSome then [] else c.value)

/-- The two rows show the same (the options of a row show in its cells only). -/
structure Seen (r r' : Row) : Prop where
  cells : r'.cells.map visible = r.cells.map visible

/-- The definitions `sc'` are those of `sc`, under the same names, with some uses of definitions replaced by the definitions. -/
structure InlinedCode (sc sc' : Scope) : Prop where
  sameVars : ∀ x, (sc'.variables x).isSome ↔ (sc.variables x).isSome
  sameFns : ∀ g, (sc'.functions g).isSome ↔ (sc.functions g).isSome
  vars : ∀ x n a, sc.variables x = some (.var n a) → ∃ a', sc'.variables x = some (.var n a') ∧ Inlined sc none [] a a'
  fns : ∀ g n ps b, sc.functions g = some (.fn n ps b) → ∃ b', sc'.functions g = some (.fn n ps b') ∧ Inlined sc none ps b b'

/-- The cells have the same options and the same text, or formulas of which the second is the first with some uses of definitions replaced. -/
structure InlinedCell (sc : Scope) (c c' : Cell) : Prop where
  opts : c'.opts = c.opts
  same : (c.ast = none ∧ c'.ast = none ∧ c'.value = c.value) ∨ ∃ f f', c.ast = some f ∧ c'.ast = some f' ∧ Inlined sc none [] f f'

/-- The same for rows. -/
structure InlinedRow (sc : Scope) (r r' : Row) : Prop where
  opts : r'.opts = r.opts
  fill : r'.fill = r.fill
  cells : List.Forall₂ (InlinedCell sc) r.cells r'.cells

/-- The same for rows of a source file. -/
structure InlinedSrcRow (E : Env) (sc : Scope) (r r' : RowSrc) : Prop where
  entries : r'.entries = r.entries
  cells : List.Forall₂ (fun c c' => c'.1 = c.1 ∧ (c'.2 = c.2 ∨ ∃ f f', formulaOf E c.2 = some f ∧ formulaOf E c'.2 = some f' ∧ Inlined sc none [] f f')) r.cells r'.cells

/-! ## Evaluating cells with formulas that have the same outcomes -/

/-- The cells show the same after evaluation. -/
structure TwinCell (K L : Scope) (pos : Addr) (c c' : Cell) : Prop where
  opts : c'.opts = c.opts
  same : (c.ast = none ∧ c'.ast = none ∧ c'.value = c.value) ∨ ∃ f f', c.ast = some f ∧ c'.ast = some f' ∧ ∀ o, Eval K (some pos) f o ↔ Eval L (some pos) f' o

theorem evalCells_seen {K L : Scope} {y x : Nat} {cs cs' : List Cell} {o : Out (List Cell)} (h : EvalCells K y x cs o) (hl : cs'.length = cs.length)
    (hc : ∀ (i : Nat) c c', cs[i]? = some c → cs'[i]? = some c' → TwinCell K L ⟨x + i, y⟩ c c') :
    ∃ o', EvalCells L y x cs' o' ∧ OutRel (fun a b => b.map visible = a.map visible) o o' := by
  induction h generalizing cs' with
  | nil =>
    cases cs' with
    | nil => exact ⟨_, .nil, .ok rfl⟩
    | cons c cs => cases hl
  | value ha _ ih =>
    cases cs' with
    | nil => cases hl
    | cons c cs =>
      have h0 := hc 0 _ c rfl rfl
      obtain ⟨o', k1, k2⟩ := ih (by simpa using hl) fun i c c' h1 h2 => by
        have := hc (i + 1) c c' (by simpa using h1) (by simpa using h2)
        rwa [Nat.add_comm i 1, ← Nat.add_assoc] at this
      rcases h0.same with ⟨e1, e2, e3⟩ | ⟨f, f', e1, -⟩
      · refine ⟨_, .value e2 k1, k2.map fun a a' e => ?_⟩
        rw [List.map_cons, List.map_cons, e]
        simp only [visible, h0.opts, e1, e2, e3]
      · rw [ha] at e1; cases e1
  | formula ha he _ ih =>
    cases cs' with
    | nil => cases hl
    | cons c cs =>
      have h0 := hc 0 _ c rfl rfl
      obtain ⟨o', k1, k2⟩ := ih (by simpa using hl) fun i c c' h1 h2 => by
        have := hc (i + 1) c c' (by simpa using h1) (by simpa using h2)
        rwa [Nat.add_comm i 1, ← Nat.add_assoc] at this
      rcases h0.same with ⟨e1, -⟩ | ⟨f, f', e1, e2, e3⟩
      · rw [ha] at e1; cases e1
      · rw [ha] at e1; cases e1
        refine ⟨_, .formula e2 ((e3 _).mp he) k1, k2.map fun a a' e => ?_⟩
        rw [List.map_cons, List.map_cons, e]
        simp only [visible, h0.opts]
        rfl
  | err ha he =>
    cases cs' with
    | nil => cases hl
    | cons c cs =>
      rcases (hc 0 _ c rfl rfl).same with ⟨e1, -⟩ | ⟨f, f', e1, e2, e3⟩
      · rw [ha] at e1; cases e1
      · rw [ha] at e1; cases e1
        exact ⟨_, .err e2 ((e3 _).mp he), .err⟩
  | panic ha he =>
    cases cs' with
    | nil => cases hl
    | cons c cs =>
      rcases (hc 0 _ c rfl rfl).same with ⟨e1, -⟩ | ⟨f, f', e1, e2, e3⟩
      · rw [ha] at e1; cases e1
      · rw [ha] at e1; cases e1
        exact ⟨_, .panic e2 ((e3 _).mp he), .panic⟩

/-- The rows show the same after evaluation. -/
structure TwinRow (K L : Scope) (y : Nat) (r r' : Row) : Prop where
  len : r'.cells.length = r.cells.length
  cells : ∀ (i : Nat) c c', r.cells[i]? = some c → r'.cells[i]? = some c' → TwinCell K L ⟨i, y⟩ c c'

theorem evalRow_seen {K L : Scope} {y : Nat} {r r' : Row} {o : Out Row} (h : EvalRow K y r o) (hr : TwinRow K L y r r') :
    ∃ o', EvalRow L y r' o' ∧ OutRel Seen o o' := by
  obtain ⟨o1, h1, rfl⟩ := h
  obtain ⟨o2, h2, h3⟩ := evalCells_seen h1 hr.len (fun i c c' h1 h2 => by rw [Nat.zero_add]; exact hr.cells i c c' h1 h2)
  exact ⟨_, ⟨o2, h2, rfl⟩, h3.map fun a a' e => ⟨e⟩⟩

theorem evalAll_seen {K L : Scope} {y : Nat} {rs out : List Row} (h : EvalAll K y rs out) {rs' : List Row} (hl : rs'.length = rs.length)
    (hr : ∀ (i : Nat) r r', rs[i]? = some r → rs'[i]? = some r' → TwinRow K L (y + i) r r') : ∃ out', EvalAll L y rs' out' ∧ List.Forall₂ Seen out out' := by
  induction h generalizing rs' with
  | nil => cases List.length_eq_zero_iff.mp hl; exact ⟨[], .nil, .nil⟩
  | cons h1 _ ih =>
    cases rs' with
    | nil => cases hl
    | cons r' rs' =>
      obtain ⟨o', k1, k2⟩ := evalRow_seen h1 (hr 0 _ r' rfl rfl)
      obtain ⟨out', k3, k4⟩ := ih (by simpa using hl) fun i c c' h1 h2 => by
        have := hr (i + 1) c c' (by simpa using h1) (by simpa using h2)
        rwa [Nat.add_comm i 1, ← Nat.add_assoc] at this
      cases k2 with
      | ok k2 => exact ⟨_, .cons k1 k3, .cons k2 k4⟩

theorem evalRows_seen {K L : Scope} {rs rs' : List Row} {o : Out (List Row)} (h : EvalRows K rs o) (hl : rs'.length = rs.length)
    (hr : ∀ (i : Nat) r r', rs[i]? = some r → rs'[i]? = some r' → TwinRow K L i r r') : ∃ o', EvalRows L rs' o' ∧ OutRel (List.Forall₂ Seen) o o' := by
  have get : ∀ {i : Nat} {r : Row}, rs[i]? = some r → ∃ r', rs'[i]? = some r' ∧ TwinRow K L i r r' := by
    intro i r h
    have hi : i < rs'.length := by rw [hl]; exact (List.getElem?_eq_some_iff.mp h).1
    exact ⟨_, List.getElem?_eq_getElem hi, hr i r _ h (List.getElem?_eq_getElem hi)⟩
  cases h with
  | ok h =>
    obtain ⟨out', k1, k2⟩ := evalAll_seen h hl (fun i c c' h1 h2 => by rw [Nat.zero_add]; exact hr i c c' h1 h2)
    exact ⟨_, .ok k1, .ok k2⟩
  | err h1 h2 =>
    obtain ⟨r', k1, k2⟩ := get h1
    obtain ⟨o', k3, k4⟩ := evalRow_seen h2 k2
    cases k4
    exact ⟨_, .err k1 k3, .err⟩
  | panic h1 h2 =>
    obtain ⟨r', k1, k2⟩ := get h1
    obtain ⟨o', k3, k4⟩ := evalRow_seen h2 k2
    cases k4
    exact ⟨_, .panic k1 k3, .panic⟩

theorem TwinRow.symm {K L : Scope} {y : Nat} {r r' : Row} (h : TwinRow K L y r r') : TwinRow L K y r' r :=
  ⟨h.len.symm, fun i c c' h1 h2 => ⟨(h.cells i c' c h2 h1).opts.symm, by
    rcases (h.cells i c' c h2 h1).same with ⟨e1, e2, e3⟩ | ⟨f, f', e1, e2, e3⟩
    · exact .inl ⟨e2, e1, e3.symm⟩
    · exact .inr ⟨f', f, e2, e1, fun o => (e3 o).symm⟩⟩⟩

/-! ## What is written -/

section
variable {s t : Sheet} (h : List.Forall₂ Seen s.rows t.rows)

theorem visible_get {cs cs' : List Cell} (h : cs'.map visible = cs.map visible) {i : Nat} {c : Cell} (hc : cs[i]? = some c) :
    ∃ c', cs'[i]? = some c' ∧ visible c' = visible c := by
  have := congrArg (·[i]?) h
  simp only [List.getElem?_map, hc, Option.map_some] at this
  obtain ⟨c', h1, h2⟩ := Option.map_eq_some_iff.mp this
  exact ⟨c', h1, h2⟩

theorem mergeRows_seen {V W : Type} {g : Merged V → W} (hg : ∀ c c' : Cell, visible c' = visible c → g (.new c') = g (.new c)) {cs cs' : List Cell}
    (hc : cs'.map visible = cs.map visible) (overwrite : Bool) (old : List (Existing V)) : (mergeRows overwrite old cs').map g = (mergeRows overwrite old cs).map g := by
  have hl : cs'.length = cs.length := by simpa using congrArg List.length hc
  rw [mergeRows, mergeRows, List.map_map, List.map_map, hl]
  refine List.map_congr_left fun i _ => ?_
  show g (mergeCell _ _ _) = g (mergeCell _ _ _)
  cases e : cs[i]? with
  | none =>
    have e' : cs'[i]? = none := by rw [List.getElem?_eq_none_iff] at e ⊢; omega
    rw [e']
  | some c =>
    obtain ⟨c', h1, h2⟩ := visible_get hc e
    rw [h1]
    cases old[i]?.getD .empty with
    | value v => cases overwrite <;> first | rfl | exact hg _ _ h2
    | empty => exact hg _ _ h2

theorem seen_parts {c c' : Cell} (h : visible c' = visible c) : c'.opts = c.opts ∧ c'.ast = c.ast ∧ (c.ast = none → c'.value = c.value) := by
  simp only [visible, Prod.mk.injEq] at h
  obtain ⟨h1, h2, h3⟩ := h
  refine ⟨h1, h2, fun e => ?_⟩
  rw [h2, e] at h3
  simpa using h3

include h in
theorem widest_seen : widestRow t = widestRow s := by
  rw [widestRow, widestRow]
  congr 1
  revert h
  generalize s.rows = A, t.rows = B
  intro h
  induction h with
  | nil => rfl
  | cons h _ ih =>
    have e := congrArg List.length h.cells
    rw [List.length_map, List.length_map] at e
    rw [List.map_cons, List.map_cons, ih, e]

theorem display_seen {c c' : Cell} (h : visible c' = visible c) : c'.display = c.display := by
  obtain ⟨-, h2, h3⟩ := seen_parts h
  rw [Cell.display, Cell.display, h2]
  cases e : c.ast with
  | none => simp only [h3 e]
  | some f => rfl

include h in
/-- The file that is written. -/
theorem writeCsv_seen (overwrite : Bool) (file : Option Text) : writeCsv overwrite t file = writeCsv overwrite s file := by
  rw [writeCsv, writeCsv, widest_seen h]
  congr 1
  revert h
  generalize widestRow s = n, readExisting file = old, 0 = i, s.rows = A, t.rows = B
  intro h
  induction h generalizing i with
  | nil => rfl
  | cons h _ ih =>
    rw [outputRows, outputRows, ih, outputRow, outputRow, mergeRows_seen (fun c c' hc => ?_) h.cells]
    rw [mergedText, mergedText, display_seen hc]

theorem placeCell_seen {c c' : Cell} (hc : visible c' = visible c) (overwrite : Bool) (st : Worksheet × Pending) (x y : Nat) :
    placeCell overwrite st x y c' = placeCell overwrite st x y c := by
  obtain ⟨h1, h2, h3⟩ := seen_parts hc
  have e1 : styleOf c' = styleOf c := by
    unfold styleOf borderOf Cell.sideHasBorder
    rw [h1]
  have e2 : ∀ old, setValue old c' = setValue old c := by
    intro old
    rw [setValue, setValue, h2]
    cases e : c.ast with
    | none => simp only [h3 e]
    | some f => cases f <;> rfl
  rw [placeCell, placeCell]
  cases existingCell st.1 x y with
  | empty => simp only [mergeCell, e1, e2, h1]
  | value v => cases overwrite <;> simp [mergeCell, e1, e2, h1]

include h in
/-- The workbook that is written. -/
theorem writeExcel_seen (den : Text → DateVal) (overwrite : Bool) (name : Text) (file : Option Workbook) :
    writeExcel den overwrite name t file = writeExcel den overwrite name s file := by
  have hp : ∀ st, placeRows overwrite 0 t.rows st = placeRows overwrite 0 s.rows st := by
    revert h
    generalize 0 = y, s.rows = A, t.rows = B
    intro h
    induction h generalizing y with
    | nil => intro st; rfl
    | cons h _ ih =>
      intro st
      rw [placeRows, placeRows, ih]
      congr 1
      have hc := h.cells
      generalize 0 = x
      rename_i r r' _ _ _
      generalize r'.cells = cs' at hc ⊢
      generalize r.cells = cs at hc ⊢
      induction cs generalizing x cs' st with
      | nil =>
        cases cs' with
        | nil => rfl
        | cons c cs => cases hc
      | cons c cs ihc =>
        cases cs' with
        | nil => cases hc
        | cons c' cs' =>
          rw [List.map_cons, List.map_cons, List.cons.injEq] at hc
          rw [placeCells, placeCells, placeCell_seen hc.1]
          exact ihc _ _ _ hc.2
  have : buildWorksheet den overwrite t = buildWorksheet den overwrite s := by
    funext ws
    simp only [buildWorksheet, hp]
  rw [writeExcel, writeExcel, this]

include h in
/-- The requests that are sent. -/
theorem requests_seen (overwrite : Bool) (offset : Nat × Nat) (rows : List (List GData)) : requests overwrite offset t rows = requests overwrite offset s rows := by
  have : rowData overwrite (readGoogle rows) 0 t.rows = rowData overwrite (readGoogle rows) 0 s.rows := by
    revert h
    generalize readGoogle rows = old, 0 = i, s.rows = A, t.rows = B
    intro h
    induction h generalizing i with
    | nil => rfl
    | cons h _ ih =>
      rw [rowData, rowData, ih, mergeRows_seen (fun c c' hc => ?_) h.cells]
      obtain ⟨h1, h2, h3⟩ := seen_parts hc
      have : gValue c' = gValue c := by
        rw [gValue, gValue, h2]
        cases e : c.ast with
        | none => simp only [h3 e]
        | some f => cases f <;> rfl
      rw [cellData, cellData, gNew, gNew, h1, this]
  rw [requests, requests, this]

/-- C107, the targets: sheets that show the same are written the same way to every kind of target. -/
theorem C107_written (h : List.Forall₂ Seen s.rows t.rows) :
    (∀ overwrite file, writeCsv overwrite t file = writeCsv overwrite s file) ∧
    (∀ den overwrite name file, writeExcel den overwrite name t file = writeExcel den overwrite name s file) ∧
    ∀ overwrite offset rows, requests overwrite offset t rows = requests overwrite offset s rows :=
  ⟨writeCsv_seen h, writeExcel_seen h, requests_seen h⟩

end

/-! ## The sheet -/

section
variable {E : Env} {sc sc' : Scope}

/-- Code definitions stay what they are in the evaluation of the cells. -/
theorem inlined_effective (hps : ParsedScope E sc) {ext : Text → Option Ast} {s₁ : Sheet} {pos : Addr} {ps : List Text} {a a' : Ast} (h : Inlined sc none ps a a') :
    Inlined (effective sc ext s₁) (some pos) ps a a' := by
  induction h with
  | same => exact .same
  | @value x d v v' hx h1 h2 _ ih =>
    obtain ⟨a, rfl, -⟩ := hps.vars x d h1
    cases h2
    exact .value (d := .var x v) hx (show (sc.variables x).or _ = _ by rw [h1]; rfl) rfl ih
  | body h1 hl _ ih => exact .body (sc := effective sc ext s₁) h1 hl ih
  | call hl _ ih => exact .call hl ih
  | «infix» _ _ h1 h2 => exact .infix h1 h2
  | var _ ih => exact .var ih

theorem inlined_scope (hps : ParsedScope E sc) (hc : InlinedCode sc sc') {ext : Text → Option Ast} {s₁ t₁ : Sheet} (hv : sheetVars t₁ = sheetVars s₁) {pos : Addr}
    (hw : Wf (effective sc ext s₁) (some pos)) : InlinedScope (effective sc ext s₁) (effective sc' ext t₁) (some pos) := by
  have hd : ∀ m, Defined (effective sc ext s₁) m → Defined (effective sc' ext t₁) m := by
    intro m hm
    cases m with
    | v x =>
      simp only [Defined, effective, Option.isSome_or, Bool.or_eq_true, hv] at hm ⊢
      exact hm.imp_left (hc.sameVars x).mpr
    | f g => exact (hc.sameFns g).mpr hm
  constructor
  · intro x d' hx
    change (sc'.variables x).or ((sheetVars t₁ x).or (ext x)) = some d' at hx
    cases e : sc.variables x with
    | none =>
      have e' : sc'.variables x = none := by
        have := (hc.sameVars x).not
        rw [e] at this
        simpa using this
      rw [e', hv] at hx
      have hx' : (effective sc ext s₁).variables x = some d' := by
        show (sc.variables x).or _ = _
        rw [e]; exact hx
      obtain ⟨a, k1, -⟩ := hw.vars x d' hx'
      exact ⟨d', a, a, hx', k1, k1, .same, fun m _ => hd m⟩
    | some d =>
      obtain ⟨a, rfl, -⟩ := hps.vars x d e
      obtain ⟨a', k1, k2⟩ := hc.vars x x a e
      rw [k1] at hx; cases hx
      exact ⟨.var x a, a, a', by show (sc.variables x).or _ = _; rw [e]; rfl, rfl, rfl, inlined_effective hps k2, fun m _ => hd m⟩
  · intro g d' hg
    cases e : sc.functions g with
    | none =>
      have := (hc.sameFns g).mp (by rw [show sc'.functions g = some d' from hg]; rfl)
      rw [e] at this; cases this
    | some d =>
      obtain ⟨ps, b, rfl, -⟩ := hps.fns g d e
      obtain ⟨b', k1, k2⟩ := hc.fns g g ps b e
      rw [show sc'.functions g = some d' from hg] at k1; cases k1
      exact ⟨g, ps, b, b', e, rfl, inlined_effective hps k2, fun m _ _ => hd m⟩

theorem InlinedRow.bare {r r' : Row} (h : InlinedRow sc r r') : bare r' = bare r := by
  have : r'.cells.map bareCell = r.cells.map bareCell := by
    have := h.cells
    revert this
    generalize r.cells = A, r'.cells = B
    intro hc
    induction hc with
    | nil => rfl
    | cons h _ ih => rw [List.map_cons, List.map_cons, ih, bareCell, bareCell, h.opts]
  cases r; cases r'
  have h1 := h.opts
  have h2 := h.fill
  simp only at h1 h2
  subst h1 h2
  show Cell.Row.mk _ _ _ = Cell.Row.mk _ _ _
  exact congrArg _ this

theorem bare_rows {rows rows' : List Row} (h : List.Forall₂ (InlinedRow sc) rows rows') : rows'.map bare = rows.map bare := by
  induction h with
  | nil => rfl
  | cons h _ ih => rw [List.map_cons, List.map_cons, ih, h.bare]

theorem expand_inlined {rows rows' : List Row} (h : List.Forall₂ (InlinedRow sc) rows rows') (n y : Nat) :
    List.Forall₂ (InlinedRow sc) (expandLoop n y rows) (expandLoop n y rows') := by
  induction h generalizing y with
  | nil => exact .nil
  | cons h _ ih =>
    rename_i r r' rs rs' _
    rw [expandLoop, expandLoop, h.fill]
    cases e : r.fill with
    | none => exact .cons h (ih _)
    | some f => exact List.rel_append (forall₂_replicate ⟨h.opts, rfl, h.cells⟩ _) (ih _)

/-- The expanded sheets. -/
theorem fills_inlined {rows rows' : List Row} (h : List.Forall₂ (InlinedRow sc) rows rows') :
    (evalFills ⟨rows, false⟩ = none ∧ evalFills ⟨rows', false⟩ = none) ∨ ∃ s₁ t₁, evalFills ⟨rows, false⟩ = some s₁ ∧ evalFills ⟨rows', false⟩ = some t₁ ∧
      List.Forall₂ (InlinedRow sc) s₁.rows t₁.rows ∧ sheetVars t₁ = sheetVars s₁ := by
  have hb := bare_rows h
  have hm : multipleInfinite false rows' = multipleInfinite false rows := by rw [← multipleInfinite_bare, ← multipleInfinite_bare rows, hb]
  have hl : rowsLeftOver rows' = rowsLeftOver rows := by rw [← rowsLeftOver_bare, ← rowsLeftOver_bare rows, hb]
  simp only [evalFills, Bool.false_eq_true, if_false, hm, hl]
  split
  · exact .inl ⟨rfl, rfl⟩
  · refine .inr ⟨_, _, rfl, rfl, expand_inlined h _ _, ?_⟩
    have := bare_rows (expand_inlined h (rowsLeftOver rows) 0)
    simp only [sheetVars]
    rw [← insertions_bare, ← insertions_bare (expandLoop _ _ rows), this]

/-- C107, the sheet.  Replace some uses of definitions of the code section by the definitions, in the formulas and in the definitions themselves.  If the
definitions and formulas are free of trouble, the outcomes show the same. -/
theorem C107_sheet (hps : ParsedScope E sc) (hps' : ParsedScope E sc') (hcode : InlinedCode sc sc') {kvs : List (Text × Ast)}
    (hk : ∀ d ∈ kvs, Parser.Parsed E.uni E.f64 d.2) {rows rows' : List Row} (hrows : List.Forall₂ (InlinedRow sc) rows rows')
    (hpl : ∀ r ∈ rows, ∀ c ∈ r.cells, ∀ f, c.ast = some f → plain f)
    (hclear : ∀ s₁, evalFills ⟨rows, false⟩ = some s₁ → AllClear (effective sc (collect kvs) s₁) rows) :
    (∀ o, EvalSheet sc (collect kvs) ⟨rows, false⟩ o → ∃ o', EvalSheet sc' (collect kvs) ⟨rows', false⟩ o' ∧ OutRel (fun s t => List.Forall₂ Seen s.rows t.rows) o o') ∧
    ∀ o', EvalSheet sc' (collect kvs) ⟨rows', false⟩ o' → ∃ o, EvalSheet sc (collect kvs) ⟨rows, false⟩ o ∧ OutRel (fun s t => List.Forall₂ Seen t.rows s.rows) o' o := by
  rcases fills_inlined hrows with ⟨e1, e2⟩ | ⟨s₁, t₁, e1, e2, e3, e4⟩
  · constructor
    · intro o h
      obtain ⟨-, -, s₁, _, k, -⟩ := evalSheet_iff.mp h
      rw [e1] at k; cases k
    · intro o h
      obtain ⟨-, -, s₁, _, k, -⟩ := evalSheet_iff.mp h
      rw [e2] at k; cases k
  · have hlen := e3.length_eq
    have hrow : ∀ (i : Nat) r r', s₁.rows[i]? = some r → t₁.rows[i]? = some r' → TwinRow (effective sc (collect kvs) s₁) (effective sc' (collect kvs) t₁) i r r' := by
      intro y r r' h1 h2
      obtain ⟨r'', k1, k2⟩ := forall₂_get e3 h1
      rw [h2] at k1; cases k1
      refine ⟨k2.cells.length_eq.symm, fun x c c' g1 g2 => ?_⟩
      obtain ⟨c'', m1, m2⟩ := forall₂_get k2.cells g1
      rw [g2] at m1; cases m1
      refine ⟨m2.opts, m2.same.imp_right ?_⟩
      rintro ⟨f, f', n1, n2, n3⟩
      refine ⟨f, f', n1, n2, ?_⟩
      obtain ⟨before, q, after, i, f1, f2, f3, f4⟩ := expanded_row e1 h1
      subst f4 f3
      obtain ⟨order, isParam, hcl⟩ := hclear s₁ e1 before q after i x c f f1 f2 g1 n1
      have hw := effective_wf hps hk s₁ ⟨x, total rows before + i⟩
      have hL := inlined_scope (ext := collect kvs) hps hcode e4 hw
      have hp := inlined_effective (ext := collect kvs) (s₁ := s₁) (pos := ⟨x, total rows before + i⟩) hps n3
      obtain ⟨b, -, -, b1, b2⟩ := C107_formula hw ⟨hcl.acyclic, hcl.hygienic, hcl.apart, hcl.arityVars, hcl.arityFns⟩ hL
        (hpl q (by rw [f1]; simp) c (List.mem_of_getElem? g1) f n1) hcl.params hcl.formula hcl.arity hp (fun m _ hm => by
          cases m with
          | v x =>
            simp only [Defined, effective, Option.isSome_or, Bool.or_eq_true, e4] at hm ⊢
            exact hm.imp_left (hcode.sameVars x).mpr
          | f g => exact (hcode.sameFns g).mpr hm)
      intro o
      rw [b1, b2]
    constructor
    · intro o h
      obtain ⟨-, he, s₂, o1, k1, k2, rfl⟩ := evalSheet_iff.mp h
      rw [e1] at k1; cases k1
      obtain ⟨o2, g1, g2⟩ := evalRows_seen k2 hlen.symm hrow
      exact ⟨_, evalSheet_iff.mpr ⟨hps'.finite, he, t₁, o2, e2, g1, rfl⟩, g2.map fun _ _ h => h⟩
    · intro o h
      obtain ⟨-, he, s₂, o1, k1, k2, rfl⟩ := evalSheet_iff.mp h
      rw [e2] at k1; cases k1
      obtain ⟨o2, g1, g2⟩ := evalRows_seen k2 hlen (fun i r r' h1 h2 => (hrow i r' r h2 h1).symm)
      refine ⟨_, evalSheet_iff.mpr ⟨hps.finite, he, s₁, o2, e1, g1, rfl⟩, g2.map fun a b h => h.flip.imp fun _ _ h => ⟨h.cells.symm⟩⟩

end

/-! ## The program -/

theorem inlined_rows {E : Env} {sc : Scope} {rs rs' : List RowSrc} {rows rows' : List Row} (h : List.Forall₂ (InlinedSrcRow E sc) rs rs') (hr : AreRows E rs rows)
    (hr' : AreRows E rs' rows') : List.Forall₂ (InlinedRow sc) rows rows' := by
  refine forall₂_of (by rw [hr.1, hr'.1, h.length_eq]) fun i r r' h1 h2 => ?_
  obtain ⟨q, k1, k2⟩ := areRows_row hr h1
  obtain ⟨q', k1', k2'⟩ := areRows_row hr' h2
  obtain ⟨q'', k3, k4⟩ := forall₂_get h k1
  rw [k1'] at k3; cases k3
  have ho : r'.opts = r.opts := by rw [k2.opts, k2'.opts, k4.entries]
  refine ⟨ho, by rw [k2.fill, k2'.fill, k4.entries], forall₂_of (by rw [isRow_length k2, isRow_length k2', k4.cells.length_eq]) fun x c c' g1 g2 => ?_⟩
  obtain ⟨d, m1, m2, m3, m4⟩ := isRow_cell k2 g1
  obtain ⟨d', m1', m2', m3', m4'⟩ := isRow_cell k2' g2
  obtain ⟨d'', n1, n2, n3⟩ := forall₂_get k4.cells m1
  rw [m1'] at n1; cases n1
  refine ⟨by rw [m2, m2', n2, ho], ?_⟩
  rcases n3 with n3 | ⟨f, f', n3, n4, n5⟩
  · rw [n3] at m3' m4'
    rw [m4, m4', m3, m3']
    cases formulaOf E d.2 with
    | none => exact .inl ⟨rfl, rfl, rfl⟩
    | some f => exact .inr ⟨f, f, rfl, rfl, .same⟩
  · exact .inr ⟨f, f', by rw [m4, n3], by rw [m4', n4], n5⟩

section
variable {E : Env} {a : Args} {fs fs' : FS Text} {files : Files Text} {mp : MPath} {p : Path} {kv : Text → Option Ast}
  {ls ls' : List Parser.Line} {csv csv' src src' : Text} {rs rs' : List RowSrc}

/-- C107, the program.  Replace, in a source file, some uses of definitions by the definitions, in formulas and in the code section.  If the definitions,
together with the named cells and `-k`, and the formulas are free of trouble, exactly the same contents can be written to the target. -/
theorem C107_program (version : Nat) (ts : List Text) (partials : Text → List Text) (cuts : List Nat) (hs : Setup E a mp p kv)
    (hb : CanBackup ts a files p) (hsrc : SourceFile E ls csv src) (hf : Fresh fs mp src) (hc : CellsSection E csv rs)
    (hsrc' : SourceFile E ls' csv' src') (hf' : Fresh fs' mp src') (hc' : CellsSection E csv' rs') :
    ∃ sc sc', Defines (Parser.stmts ls) sc ∧ Defines (Parser.stmts ls') sc' ∧ (InlinedCode sc sc' → List.Forall₂ (InlinedSrcRow E sc) rs rs' →
      (∀ rows s₁, AreRows E rs rows → evalFills ⟨rows, false⟩ = some s₁ → AllClear (effective sc kv s₁) rows) → ∀ out,
      ((∃ states w final, Main E version ts partials cuts a fs files (some .success) states w ∧ states.getLast? = some final ∧ Wrote files final p out) ↔
        ∃ states w final, Main E version ts partials cuts a fs' files (some .success) states w ∧ states.getLast? = some final ∧ Wrote files final p out)) := by
  obtain ⟨c1, c2⟩ := hsrc.split
  obtain ⟨c1', c2'⟩ := hsrc'.split
  obtain ⟨sc, s1, s2, s3, -⟩ := Parser.C48_code_section_partial E.uni E.f64 ls hsrc.lines (usesFirst_of hsrc.uses)
  obtain ⟨sc', s1', s2', s3', -⟩ := Parser.C48_code_section_partial E.uni E.f64 ls' hsrc'.lines (usesFirst_of hsrc'.uses)
  rw [modules_of hsrc.uses] at s1
  rw [modules_of hsrc'.uses] at s1'
  obtain ⟨⟨g, hg, ht⟩, hform⟩ := hc
  obtain ⟨⟨g', hg', ht'⟩, hform'⟩ := hc'
  rw [Csvp.values_parse] at hg hg'
  obtain ⟨rows, e1, r1⟩ := sheet_parse (E := E) (csv := (Source.SourceCode.new src).csv) (n := (Source.SourceCode.new src).lenCode) (by rw [c2, Csvp.values_parse]; exact hg) ht hform
  obtain ⟨rows', e1', r1'⟩ := sheet_parse (E := E) (csv := (Source.SourceCode.new src').csv) (n := (Source.SourceCode.new src').lenCode) (by rw [c2', Csvp.values_parse]; exact hg') ht' hform'
  have hp : parseModule E src = .ok ⟨[], sc, ⟨rows, false⟩⟩ := by rw [parseModule, c1, show parseScope E (some _) = _ from s1]; simp only [e1]
  have hp' : parseModule E src' = .ok ⟨[], sc', ⟨rows', false⟩⟩ := by rw [parseModule, c1', show parseScope E (some _) = _ from s1']; simp only [e1']
  refine ⟨sc, sc', ⟨s2, s3⟩, ⟨s2', s3'⟩, fun hcode hrows hclear out => ?_⟩
  obtain ⟨kvs, hk1, rfl⟩ := hs.values
  obtain ⟨k1, k2⟩ := C107_sheet (defines_parsed hsrc.lines ⟨s2, s3⟩) (defines_parsed hsrc'.lines ⟨s2', s3'⟩) hcode (keyValues_parsed hk1) (inlined_rows hrows r1 r1')
    (fun r hr c hc f hf => (parsed_plain (areRows_parsed r1 r hr c hc f hf)).1) (fun s₁ h => hclear rows s₁ r1 h)
  have wrote_eq : ∀ {final x y}, Wrote files final p x → Wrote files final p y → x = y := by
    intro final x y hx hy
    exact Option.some.inj (hx.1.symm.trans hy.1)
  constructor
  · rintro ⟨states, w, final, h, m1, m2⟩
    obtain ⟨-, ⟨s, final', hev, -, n2, n3⟩ | ⟨n1, -⟩⟩ := main_alone hs hb hf hp rfl h
    · rw [m1] at n2; cases n2
      obtain ⟨o', q1, q2⟩ := k1 _ hev
      cases q2 with
      | ok q2 =>
        obtain ⟨states', w', final', u1, u2, u3⟩ := main_alone_with (version := version) (partials := partials) (cuts := cuts) hs hb hf' hp' rfl q1
        rw [writeCsv_seen q2, ← wrote_eq m2 n3] at u3
        exact ⟨states', w', final', u1, u2, u3⟩
    · rcases n1 with n1 | n1 <;> cases n1
  · rintro ⟨states, w, final, h, m1, m2⟩
    obtain ⟨-, ⟨s, final', hev, -, n2, n3⟩ | ⟨n1, -⟩⟩ := main_alone hs hb hf' hp' rfl h
    · rw [m1] at n2; cases n2
      obtain ⟨o', q1, q2⟩ := k2 _ hev
      cases q2 with
      | ok q2 =>
        obtain ⟨states', w', final', u1, u2, u3⟩ := main_alone_with (version := version) (partials := partials) (cuts := cuts) hs hb hf hp rfl q1
        rw [← writeCsv_seen q2, ← wrote_eq m2 n3] at u3
        exact ⟨states', w', final', u1, u2, u3⟩
    · rcases n1 with n1 | n1 <;> cases n1
end

end Verif.Cli
