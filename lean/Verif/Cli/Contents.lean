import Verif.Cli.Rearranged
import Verif.Cli.Compiled
import Verif.Target.GoogleRun
import Verif.Target.Excel
/-
C113 for all targets: what is written depends on the formulas, texts and options of the compiled cells only.
-/
namespace Verif.Cli
open Verif.Ast Verif.Loader Verif.Sheet Verif.Cache Verif.Csvp.Spec
open Verif.Cell hiding Target
open Verif.Target hiding MPath
open Verif.Parser (Stmt Line codeText stmts)

/-! ## Specification -/

/-- The formulas, texts and options of the cells of a sheet. -/
def cellContents (s : Sheet) : List (List (Option Ast × Text × Opts)) := s.rows.map fun r => r.cells.map fun c => (c.ast, c.value, c.opts)

/-! ## What is written -/

/-- Only what counts. -/
def strip (s : Sheet) : Sheet := { s with expanded := true, rows := s.rows.map fun r => ⟨{}, none, r.cells.map eraseCell⟩ }

theorem strip_contents {s s' : Sheet} (h : cellContents s = cellContents s') : strip s = strip s' := by
  have key : ∀ {l l' : List Cell}, (l.map fun c => (c.ast, c.value, c.opts)) = (l'.map fun c => (c.ast, c.value, c.opts)) → l.map eraseCell = l'.map eraseCell := by
    intro l
    induction l with
    | nil => intro l' h; cases l' with
      | nil => rfl
      | cons => cases h
    | cons c l ih =>
      intro l' h
      cases l' with
      | nil => cases h
      | cons c' l' =>
        rw [List.map_cons, List.map_cons, List.cons.injEq] at h
        obtain ⟨h1, h2⟩ := h
        simp only [Prod.mk.injEq] at h1
        rw [List.map_cons, List.map_cons, ih h2, eraseCell, eraseCell, h1.1, h1.2.1, h1.2.2]
  have : ∀ {l l' : List Row}, (l.map fun r => r.cells.map fun c => (c.ast, c.value, c.opts)) = (l'.map fun r => r.cells.map fun c => (c.ast, c.value, c.opts)) →
      (l.map fun r => (⟨{}, none, r.cells.map eraseCell⟩ : Row)) = l'.map fun r => ⟨{}, none, r.cells.map eraseCell⟩ := by
    intro l
    induction l with
    | nil => intro l' h; cases l' with
      | nil => rfl
      | cons => cases h
    | cons r l ih =>
      intro l' h
      cases l' with
      | nil => cases h
      | cons r' l' =>
        rw [List.map_cons, List.map_cons, List.cons.injEq] at h
        rw [List.map_cons, List.map_cons, ih h.2, key h.1]
  rw [strip, strip, this h]

/-- A merged cell without its field. -/
def eraseMerged {V : Type} : Merged V → Merged V
  | .new c => .new (eraseCell c)
  | m => m

theorem mergeCell_erase {V : Type} (ov : Bool) (e : Existing V) (c : Option Cell) : mergeCell ov e (c.map eraseCell) = eraseMerged (mergeCell ov e c) := by
  cases c with
  | none => cases e <;> rfl
  | some c => cases e with
    | empty => rfl
    | value v => cases ov <;> rfl

theorem mergeRows_erase {V : Type} (ov : Bool) (ex : List (Existing V)) (cs : List Cell) : mergeRows ov ex (cs.map eraseCell) = (mergeRows ov ex cs).map eraseMerged := by
  rw [mergeRows, mergeRows, List.map_map, List.length_map]
  refine List.map_congr_left fun i _ => ?_
  rw [List.getElem?_map, mergeCell_erase]; rfl

theorem outputRows_strip {ov w ex} (rows : List Row) (i : Nat) :
    outputRows ov w ex i (rows.map fun r => ⟨{}, none, r.cells.map eraseCell⟩) = outputRows ov w ex i rows := by
  induction rows generalizing i with
  | nil => rfl
  | cons r rows ih =>
    rw [List.map_cons, outputRows, outputRows, ih, outputRow, outputRow, mergeRows_erase, List.map_map]
    congr 3
    funext m
    cases m <;> rfl

theorem writeCsv_strip (ov : Bool) (s : Sheet) (file : Option Text) : writeCsv ov (strip s) file = writeCsv ov s file := by
  rw [writeCsv, writeCsv, strip, outputRows_strip]
  congr 2
  simp [widestRow, Function.comp_def]

theorem placeCell_erase (ov : Bool) (st : Worksheet × Pending) (x y : Nat) (c : Cell) : placeCell ov st x y (eraseCell c) = placeCell ov st x y c := by
  have h := mergeCell_erase ov (existingCell st.1 x y) (some c)
  simp only [Option.map_some] at h
  rw [placeCell, placeCell, h]
  cases mergeCell ov (existingCell st.1 x y) (some c) <;> rfl

theorem placeCells_erase (ov : Bool) (y : Nat) (cs : List Cell) (x : Nat) (st : Worksheet × Pending) : placeCells ov y x (cs.map eraseCell) st = placeCells ov y x cs st := by
  induction cs generalizing x st with
  | nil => rfl
  | cons c cs ih => rw [List.map_cons, placeCells, placeCells, placeCell_erase, ih]

theorem placeRows_strip (ov : Bool) (rows : List Row) (y : Nat) (st : Worksheet × Pending) :
    placeRows ov y (rows.map fun r => ⟨{}, none, r.cells.map eraseCell⟩) st = placeRows ov y rows st := by
  induction rows generalizing y st with
  | nil => rfl
  | cons r rows ih => rw [List.map_cons, placeRows, placeRows, placeCells_erase, ih]

theorem buildWorksheet_strip (den : Text → DateVal) (ov : Bool) (s : Sheet) : buildWorksheet den ov (strip s) = buildWorksheet den ov s := by
  funext ws
  rw [buildWorksheet, buildWorksheet, strip, placeRows_strip]

theorem rowData_strip {ov ex} (rows : List Row) (i : Nat) : rowData ov ex i (rows.map fun r => ⟨{}, none, r.cells.map eraseCell⟩) = rowData ov ex i rows := by
  induction rows generalizing i with
  | nil => rfl
  | cons r rows ih =>
    rw [List.map_cons, rowData, rowData, ih, mergeRows_erase, List.map_map]
    congr 1
    refine List.map_congr_left fun m _ => ?_
    cases m <;> rfl

theorem requests_strip (ov : Bool) (off : Nat × Nat) (s : Sheet) (rows : List (List GData)) : requests ov off (strip s) rows = requests ov off s rows := by
  rw [requests, requests, strip, rowData_strip]

/-- C113, the targets: two compiled sheets whose cells have the same formulas, texts and options are written alike, to every target: the same CSV file,
the same workbook, the same conversation with Google Sheets. -/
theorem C113_targets {s s' : Sheet} (h : cellContents s = cellContents s') :
    (∀ ov file, writeCsv ov s file = writeCsv ov s' file) ∧ (∀ den ov name wb, writeExcel den ov name s wb = writeExcel den ov name s' wb) ∧
    ∀ e cfg id, googleRun e cfg id (some s) = googleRun e cfg id (some s') := by
  have hs := strip_contents h
  refine ⟨fun ov file => ?_, fun den ov name wb => ?_, fun e cfg id => ?_⟩
  · rw [← writeCsv_strip ov s, hs, writeCsv_strip]
  · rw [writeExcel, writeExcel, ← buildWorksheet_strip den ov s, hs, buildWorksheet_strip]
  · have hr : ∀ rows, requests cfg.overwrite cfg.offset s rows = requests cfg.overwrite cfg.offset s' rows := by
      intro rows; rw [← requests_strip _ _ s, hs, requests_strip]
    have hw : writeSheet cfg.overwrite cfg.offset id s = writeSheet cfg.overwrite cfg.offset id s' := by
      rw [writeSheet, writeSheet]
      simp only [hr]
    rw [googleRun, googleRun, hw]

/-! ## What is compiled -/

theorem split_total {rows : List Row} : ∀ {part : List Row} {y : Nat}, y < total rows part → ∃ before r after i, part = before ++ r :: after ∧
    y = total rows before + i ∧ i < copies rows r
  | [], y, h => by simp [total] at h
  | r :: part, y, h => by
    by_cases hy : y < copies rows r
    · exact ⟨[], r, part, y, rfl, by simp [total], hy⟩
    · rw [total_cons] at h
      obtain ⟨before, r', after, i, h1, h2, h3⟩ := split_total (rows := rows) (part := part) (y := y - copies rows r) (by omega)
      exact ⟨r :: before, r', after, i, by rw [h1]; rfl, by rw [total_cons]; omega, h3⟩

theorem means_contents {sc : Scope} {rows rows' : List Row} {s s' : Sheet} (h : rows.map erase = rows'.map erase) (h1 : SheetMeans sc rows s)
    (h2 : SheetMeans sc rows' s') : cellContents s = cellContents s' := by
  have hlen : s.rows.length = s'.rows.length := by rw [h1.length, h2.length, ← total_erase rows rows, ← total_erase rows' rows', h]
  refine List.ext_getElem? fun y => ?_
  rw [cellContents, cellContents, List.getElem?_map, List.getElem?_map]
  by_cases hy : y < s.rows.length
  · obtain ⟨before, r, after, i, e1, rfl, e3⟩ := split_total (by rw [← h1.length]; exact hy)
    obtain ⟨q, q1, q2, q3⟩ := h1.rows before r after e1 i e3
    have hr' : rows'.map erase = before.map erase ++ erase r :: after.map erase := by rw [← h, e1, List.map_append, List.map_cons]
    obtain ⟨before', l, f1, f2, f3⟩ := List.map_eq_append_iff.mp hr'
    obtain ⟨r', after', f4, f5, -⟩ := List.map_eq_cons_iff.mp f3
    subst f4
    have ht : total rows' before' = total rows before := by rw [← total_erase rows' before', f2, ← h, total_erase]
    have hc : copies rows' r' = copies rows r := by rw [← copies_erase rows' r', f5, ← h, copies_erase]
    obtain ⟨q', q1', q2', q3'⟩ := h2.rows before' r' after' f1 i (by rw [hc]; exact e3)
    rw [ht] at q1' q3'
    rw [q1, q1', Option.map_some, Option.map_some]
    congr 1
    have hcells : r'.cells.map eraseCell = r.cells.map eraseCell := congrArg Row.cells f5
    refine List.ext_getElem? fun x => ?_
    rw [List.getElem?_map, List.getElem?_map]
    by_cases hx : x < r.cells.length
    · have g1 := List.getElem?_eq_getElem hx
      have g2 := congrArg (·[x]?) hcells
      simp only [List.getElem?_map, g1, Option.map_some] at g2
      cases g3 : r'.cells[x]? with
      | none => rw [g3] at g2; cases g2
      | some c' =>
        rw [g3] at g2
        simp only [Option.map_some, Option.some.injEq] at g2
        obtain ⟨d, d1, d2⟩ := q3 x _ g1
        obtain ⟨d', d1', d2'⟩ := q3' x _ g3
        have ha : c'.ast = r.cells[x].ast := by have := congrArg Cell.ast g2; exact this
        have hv : c'.value = r.cells[x].value := by have := congrArg Cell.value g2; exact this
        have ho : c'.opts = r.cells[x].opts := by have := congrArg Cell.opts g2; exact this
        rw [d1, d1', Option.map_some, Option.map_some, d2.value, d2'.value, d2.opts, d2'.opts, hv, ho]
        congr 2
        cases hast : r.cells[x].ast with
        | none => rw [d2.text hast, d2'.text (by rw [ha]; exact hast)]
        | some f =>
          obtain ⟨b, b1, b2, b3⟩ := d2.formula f hast
          obtain ⟨b', b1', b2', b3'⟩ := d2'.formula f (by rw [ha]; exact hast)
          rw [b1, b1', b3 b' b2']
    · have hl : r'.cells.length = r.cells.length := by simpa using congrArg List.length hcells
      rw [List.getElem?_eq_none (by omega), List.getElem?_eq_none (by omega)]
  · rw [List.getElem?_eq_none (by omega), List.getElem?_eq_none (by omega)]

section
variable {E : Env} {fs fs' : FS Text} {mp : MPath} {kv : Text → Option Ast} {noCache : Bool}
  {ls ls' : List Line} {csv src src' : Text} {rs : List RowSrc} {lib lib' : List (MPath × List Stmt)}

/-- C113, all targets.  Two programs with the same cells section, whose modules have together the same definitions, in any arrangement in which everything is
used only where it is seen: compiling either always succeeds, and the compiled sheets have the same contents, so that they are written alike (`C113_targets`). -/
theorem C113_compile_partial (version : Nat) (hv : ∃ l kvs, Parser.parseKeyValues E.uni E.f64 kvs = some l ∧ kv = collect l)
    (hsrc : ModuleFile E ls csv src) (hf : Fresh fs mp src) (hc : CellsSection E csv rs) (hlib : Program E version fs noCache mp (stmts ls) lib)
    (hsrc' : ModuleFile E ls' csv src') (hf' : Fresh fs' mp src') (hlib' : Program E version fs' noCache mp (stmts ls') lib') :
    ∃ fetch main fetch' main' rows rows', IsModule (stmts ls) main ∧ (∀ e ∈ lib, ∃ m, fetch e.1 = .ok m ∧ IsModule e.2 m) ∧
      IsModule (stmts ls') main' ∧ (∀ e ∈ lib', ∃ m, fetch' e.1 = .ok m ∧ IsModule e.2 m) ∧ AreRows E rs rows ∧ AreRows E rs rows' ∧
      ∀ s₁ s₁' K order isParam, evalFills ⟨rows, false⟩ = some s₁ → evalFills ⟨rows', false⟩ = some s₁' → IsUnion fetch main K → IsUnion fetch' main' K → Tidy K none order isParam →
        AllClear (effective K kv s₁) rows → AllSeen fetch main K kv s₁ rows → AllSeen fetch' main' K kv s₁' rows' →
        ∀ o w o' w', Compile (parseModule E) version (!noCache) kv fs mp o w → Compile (parseModule E) version (!noCache) kv fs' mp o' w' →
          ∃ s s', o = .ok s ∧ o' = .ok s' ∧ cellContents s = cellContents s' := by
  obtain ⟨fetch, main, rows, i1, i2, i3, i4⟩ := C84_compile_partial version hv hsrc hf hc hlib
  obtain ⟨fetch', main', rows', i1', i2', i3', i4'⟩ := C84_compile_partial version hv hsrc' hf' hc hlib'
  refine ⟨fetch, main, fetch', main', rows, rows', i1, i2, i1', i2', i3, i3', fun s₁ s₁' K order isParam hs₁ hs₁' hu hu' hT hclear hseen hseen' o w o' w' h h' => ?_⟩
  have her := areRows_erase i3 i3'
  obtain ⟨s₂, l1, l2⟩ := fills_erase her hs₁
  rw [hs₁'] at l1; cases l1
  have hsc : effective K kv s₁' = effective K kv s₁ := by simp only [effective, l2]
  obtain ⟨-, s, j1, j2⟩ := (i4 s₁ K order isParam hs₁ hu hT hclear hseen).2 o w h
  obtain ⟨-, s', m1, m2⟩ := (i4' s₁' K order isParam hs₁' hu' hT (by rw [hsc]; exact allClear_erase her hclear) hseen').2 o' w' h'
  rw [hsc] at m2
  exact ⟨s, s', j1, m1, means_contents her j2 m2⟩

/-- C113, all targets, for the order of the `use` lines and the names of the modules. -/
theorem C113_compile_names_partial (version : Nat) (hv : ∃ l kvs, Parser.parseKeyValues E.uni E.f64 kvs = some l ∧ kv = collect l)
    (hsrc : ModuleFile E ls csv src) (hf : Fresh fs mp src) (hc : CellsSection E csv rs) (hlib : Program E version fs noCache mp (stmts ls) lib)
    (hsrc' : ModuleFile E ls' csv src') (hf' : Fresh fs' mp src') (hlib' : Program E version fs' noCache mp (stmts ls') lib')
    {ρ : MPath → MPath} (hmain : Relabelled ρ (stmts ls) (stmts ls')) (hmods : ∀ e ∈ lib, ∃ ss', (ρ e.1, ss') ∈ lib' ∧ Relabelled ρ e.2 ss') :
    ∃ fetch main rows, IsModule (stmts ls) main ∧ (∀ e ∈ lib, ∃ m, fetch e.1 = .ok m ∧ IsModule e.2 m) ∧ AreRows E rs rows ∧
      ∀ s₁ K order isParam, evalFills ⟨rows, false⟩ = some s₁ → IsUnion fetch main K → Tidy K none order isParam →
        AllClear (effective K kv s₁) rows → AllSeen fetch main K kv s₁ rows →
        ∀ o w o' w', Compile (parseModule E) version (!noCache) kv fs mp o w → Compile (parseModule E) version (!noCache) kv fs' mp o' w' →
          ∃ s s', o = .ok s ∧ o' = .ok s' ∧ cellContents s = cellContents s' := by
  obtain ⟨fetch, main, fetch', main', rows, rows', i1, i2, i1', i2', i3, i3', i4⟩ := C113_compile_partial version hv hsrc hf hc hlib hsrc' hf' hlib'
  refine ⟨fetch, main, rows, i1, i2, i3, fun s₁ K order isParam hs₁ hu hT hclear hseen => ?_⟩
  have hm := hmain.same i1 i1'
  have hp : Paired fetch fetch' ρ fun q => ∃ ss, (q, ss) ∈ lib := by
    rintro q ⟨ss, hss⟩
    obtain ⟨m, e1, e2⟩ := i2 _ hss
    obtain ⟨ss', k1, k2⟩ := hmods _ hss
    obtain ⟨m', e1', e2'⟩ := i2' _ k1
    exact ⟨m, m', e1, e1', k2.same e2 e2', fun r hr => hlib.closed r (.inr ⟨_, hss, by rw [← e2.required]; exact hr⟩)⟩
  have hQ : ∀ r ∈ main.required, ∃ ss, (r, ss) ∈ lib := fun r hr => hlib.closed r (.inl (by rw [← i1.required]; exact hr))
  have her := areRows_erase i3 i3'
  obtain ⟨s₁', l1, l2⟩ := fills_erase her hs₁
  exact i4 s₁ s₁' K order isParam hs₁ l1 hu (isUnion_to hp hm hQ hu) hT hclear hseen (allSeen_to hp hm hQ her l2 hseen)

end

/-- C113 on the example, for all targets: with the library called `tax` instead of `lib` the compiled sheet has the same contents. -/
example (E : Env) (version : Nat) (o o' : COut) (w w' : List (MPath × Module Text))
    (h : Compile (parseModule E) version (!false) (collect []) Lib.files ["sheet".toList] o w)
    (h' : Compile (parseModule E) version (!false) (collect []) Lib.files' ["sheet".toList] o' w') :
    ∃ s s', o = .ok s ∧ o' = .ok s' ∧ cellContents s = cellContents s' := by
  obtain ⟨fetch, main, rows, d1, d2, d3, hmain⟩ := C113_compile_names_partial version ⟨[], [], rfl, rfl⟩
    (Lib.main_file E) (fs := Lib.files) ⟨7, rfl, by intro o t h; cases h⟩ (Lib.main_cells E) (Lib.program E) (Lib.main_file' E) (fs' := Lib.files')
    ⟨7, rfl, by intro o t h; cases h⟩ (Lib.program' E)
    (ρ := fun q => if q = ["lib".toList] then ["tax".toList] else q)
    ⟨rfl, fun q' => ⟨fun hq => ⟨["lib".toList], List.mem_singleton.mpr rfl, List.mem_singleton.mp hq⟩, by
      rintro ⟨q, hq, rfl⟩
      obtain rfl : q = ["lib".toList] := List.mem_singleton.mp hq
      exact List.mem_singleton.mpr rfl⟩⟩
    (by
      intro e he
      obtain rfl := List.mem_singleton.mp he
      exact ⟨_, List.mem_singleton.mpr rfl, rfl, fun q' => ⟨fun hq => (by cases hq), by rintro ⟨q, hq, -⟩; cases hq⟩⟩)
  obtain ⟨r, c, s₁, order, isParam, rfl, m2, m3, m4, m5, m6, m7, m8, m9, -⟩ := Lib.met d1 d2 d3
  exact hmain s₁ Lib.K order isParam m5 m6 m7 m8 m9 o w o' w' h h'

end Verif.Cli
