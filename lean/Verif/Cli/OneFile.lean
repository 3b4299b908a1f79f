import Verif.Cli.Modules
/-
End to end: a program of several modules and the same program in one file (C82).
-/
namespace Verif.Cli
open Verif.Ast Verif.Loader Verif.Sheet Verif.Cache Verif.Csvp.Spec
open Verif.Cell hiding Target
open Verif.Target hiding MPath
open Verif.Parser (Stmt Line codeText stmts)

/-- Two targets show the same in the cells of the rows. -/
def SameCells (rows : List Row) (out out' : Text) : Prop :=
  (csvRead out).length = (csvRead out').length ∧
  ∀ before r after, rows = before ++ r :: after → ∀ i, i < copies rows r → ∀ x, x < r.cells.length →
    cellAt (csvRead out) (total rows before + i) x = cellAt (csvRead out') (total rows before + i) x

/-! ## Where the cells are in the source does not matter -/

def eraseCell (c : Cell) : Cell := { c with field := ⟨⟨0, 0⟩, [], []⟩ }

def erase (r : Row) : Row := { r with cells := r.cells.map eraseCell }

def eraseSheet (s : Sheet) : Sheet := { s with rows := s.rows.map erase }

theorem fill_erase (r : Row) : (erase r).fill = r.fill := rfl

theorem expandLoop_erase (left : Nat) (rows : List Row) (n : Nat) : expandLoop left n (rows.map erase) = (expandLoop left n rows).map erase := by
  induction rows generalizing n with
  | nil => rfl
  | cons r rows ih =>
    rw [List.map_cons, expandLoop, expandLoop, fill_erase]
    cases r.fill with
    | none => simp only [List.map_cons, ih]
    | some f => simp only [List.map_append, List.map_replicate, ih]; rfl

theorem multipleInfinite_erase (rows : List Row) (b : Bool) : multipleInfinite b (rows.map erase) = multipleInfinite b rows := by
  induction rows generalizing b with
  | nil => rfl
  | cons r rows ih =>
    rw [List.map_cons, multipleInfinite.eq_def, multipleInfinite.eq_def b (r :: rows)]
    simp only [fill_erase, ih]

theorem rowsLeftOver_erase (rows : List Row) : rowsLeftOver (rows.map erase) = rowsLeftOver rows := by
  rw [rowsLeftOver, rowsLeftOver, List.foldl_map]
  rfl

theorem evalFills_erase (rows : List Row) : evalFills ⟨rows.map erase, false⟩ = (evalFills ⟨rows, false⟩).map eraseSheet := by
  rw [evalFills, evalFills]
  simp only [Bool.false_eq_true, if_false, multipleInfinite_erase, rowsLeftOver_erase, expandLoop_erase]
  split <;> rfl

theorem cellVars_erase (y : Nat) (fill : Option Fill) (cs : List Cell) (x : Nat) : cellVars y fill x (cs.map eraseCell) = cellVars y fill x cs := by
  induction cs generalizing x with
  | nil => rfl
  | cons c cs ih => rw [List.map_cons, cellVars, cellVars, ih]; rfl

theorem insertions_erase (rows : List Row) (y : Nat) : insertions y (rows.map erase) = insertions y rows := by
  induction rows generalizing y with
  | nil => rfl
  | cons r rows ih =>
    rw [List.map_cons, insertions, insertions, ih]
    congr 1
    show rowVar y r ++ cellVars y r.fill 0 (r.cells.map eraseCell) = _
    rw [cellVars_erase]

theorem sheetVars_erase (s : Sheet) : sheetVars (eraseSheet s) = sheetVars s := by
  rw [sheetVars, sheetVars, eraseSheet, insertions_erase]

theorem copies_erase (rows : List Row) (r : Row) : copies (rows.map erase) (erase r) = copies rows r := by
  have : bounded (rows.map erase) = bounded rows := by rw [bounded, bounded, List.map_map]; rfl
  rw [copies, copies, this]
  rfl

theorem total_erase (rows part : List Row) : total (rows.map erase) (part.map erase) = total rows part := by
  rw [total, total, List.map_map]
  congr 1
  exact List.map_congr_left fun r _ => copies_erase rows r

theorem areRows_erase {E : Env} {rs : List RowSrc} {rows rows' : List Row} (h : AreRows E rs rows) (h' : AreRows E rs rows') :
    rows.map erase = rows'.map erase := by
  apply List.ext_getElem?
  intro y
  rw [List.getElem?_map, List.getElem?_map]
  by_cases hy : y < rs.length
  · obtain ⟨r, e1, e2⟩ := h.2 y _ (List.getElem?_eq_getElem hy)
    obtain ⟨r', e1', e2'⟩ := h'.2 y _ (List.getElem?_eq_getElem hy)
    rw [e1, e1']
    have hc : r.cells.map (fun c => (c.opts, c.value, c.ast)) = r'.cells.map (fun c => (c.opts, c.value, c.ast)) := by
      rw [e2.cells, e2'.cells, e2.opts, e2'.opts]
    have hmap := congrArg (List.map fun t : Opts × Text × Option Ast => (⟨t.2.2, ⟨⟨0, 0⟩, [], []⟩, t.2.1, t.1⟩ : Cell)) hc
    simp only [List.map_map] at hmap
    simp only [Option.map_some, Option.some.injEq]
    show Row.mk r.opts r.fill (r.cells.map eraseCell) = Row.mk r'.opts r'.fill (r'.cells.map eraseCell)
    rw [e2.opts, e2'.opts, e2.fill, e2'.fill]
    congr 1
  · rw [List.getElem?_eq_none (by rw [h.1]; omega), List.getElem?_eq_none (by rw [h'.1]; omega)]

/-- Rows that differ only in where they are in the source correspond. -/
theorem erase_split {rows rows' : List Row} (h : rows.map erase = rows'.map erase) {before after : List Row} {r : Row} (hr : rows = before ++ r :: after) :
    ∃ before' r' after', rows' = before' ++ r' :: after' ∧ total rows' before' = total rows before ∧ copies rows' r' = copies rows r ∧
      r'.cells.length = r.cells.length ∧
      ∀ (x : Nat) (c : Cell), r.cells[x]? = some c → ∃ c' : Cell, r'.cells[x]? = some c' ∧ c'.ast = c.ast ∧ c'.value = c.value := by
  have hr' : rows'.map erase = before.map erase ++ erase r :: after.map erase := by rw [← h, hr, List.map_append, List.map_cons]
  obtain ⟨before', l, e1, e2, e3⟩ := List.map_eq_append_iff.mp hr'
  obtain ⟨r', after', e4, e5, -⟩ := List.map_eq_cons_iff.mp e3
  subst e4
  have hcells : r'.cells.map eraseCell = r.cells.map eraseCell := congrArg Row.cells e5
  refine ⟨before', r', after', e1, ?_, ?_, ?_, fun x c hc => ?_⟩
  · rw [← total_erase rows' before', e2, ← h, total_erase]
  · rw [← copies_erase rows' r', e5, ← h, copies_erase]
  · have := congrArg List.length hcells
    simpa using this
  · have := congrArg (·[x]?) hcells
    simp only [List.getElem?_map, hc, Option.map_some] at this
    cases hc' : r'.cells[x]? with
    | none => rw [hc'] at this; cases this
    | some c' =>
      rw [hc'] at this
      simp only [Option.map_some, Option.some.injEq] at this
      have h1 := congrArg Cell.ast this
      have h2 := congrArg Cell.value this
      exact ⟨c', rfl, h1, h2⟩

theorem allClear_erase {sc : Scope} {rows rows' : List Row} (h : rows.map erase = rows'.map erase) (hc : AllClear sc rows) : AllClear sc rows' := by
  intro before r after i x c f e1 e2 e3 e4
  obtain ⟨before', r', after', f1, f2, f3, f4, f5⟩ := erase_split h.symm e1
  obtain ⟨c', g1, g2, g3⟩ := f5 x c e3
  have := hc before' r' after' i x c' f f1 (by rw [f3]; exact e2) g1 (by rw [g2]; exact e4)
  rw [f2] at this
  exact this

theorem fills_erase {rows rows' : List Row} (h : rows.map erase = rows'.map erase) {s₁ : Sheet} (hs : evalFills ⟨rows, false⟩ = some s₁) :
    ∃ s₁', evalFills ⟨rows', false⟩ = some s₁' ∧ sheetVars s₁' = sheetVars s₁ := by
  have := evalFills_erase rows'
  rw [← h, evalFills_erase, hs] at this
  cases hs' : evalFills ⟨rows', false⟩ with
  | none => rw [hs'] at this; cases this
  | some s₁' =>
    rw [hs'] at this
    simp only [Option.map_some, Option.some.injEq] at this
    exact ⟨s₁', rfl, by rw [← sheetVars_erase s₁', ← this, sheetVars_erase]⟩

theorem shows_same {sc : Scope} {safe : Bool} {rows rows' : List Row} {old : List (List Text)} {out out' : Text} (h : rows.map erase = rows'.map erase)
    (h1 : ShowsMeaning sc safe rows old (csvRead out)) (h2 : ShowsMeaning sc safe rows' old (csvRead out')) : SameCells rows out out' := by
  refine ⟨by rw [h1.1, h2.1, ← total_erase rows rows, ← total_erase rows' rows', h], fun before r after e1 i e2 x hx => ?_⟩
  obtain ⟨before', r', after', f1, f2, f3, f4, f5⟩ := erase_split h e1
  have e3 := List.getElem?_eq_getElem hx
  obtain ⟨c', g1, g2, g3⟩ := f5 x _ e3
  obtain ⟨t, t1, t2, t3⟩ := h1.2 before r after e1 i e2 x _ e3
  obtain ⟨t', t1', t2', t3'⟩ := h2.2 before' r' after' f1 i (by rw [f3]; exact e2) x c' g1
  rw [f2] at t1' t3'
  rw [t1, t1']
  congr 1
  cases hast : r.cells[x].ast with
  | none => rw [t2 hast, t2' (by rw [g2]; exact hast), g3]
  | some f =>
    obtain ⟨⟨b, hb⟩, hb'⟩ := t3 f hast
    rw [hb' b hb, (t3' f (by rw [g2]; exact hast)).2 b hb]

section
variable {E : Env} {a : Args} {fs fs' : FS Text} {files : Files Text} {mp : MPath} {p : Path} {kv : Text → Option Ast}
  {ls ls' : List Line} {csv src src' : Text} {rs : List RowSrc} {lib : List (MPath × List Stmt)}

/-- C82, one file.  If a program of several modules is as in `C82_modules_partial`, and another program has the same cells section, no `use`, and the
definitions of all modules in its code section, every run of either succeeds, and the targets show the same. -/
theorem C82_one_file_partial (version : Nat) (ts : List Text) (partials : Text → List Text) (cuts : List Nat) (hs : Setup E a mp p kv) (hb : CanBackup ts a files p)
    (hsrc : ModuleFile E ls csv src) (hf : Fresh fs mp src) (hc : CellsSection E csv rs) (hlib : Program E version fs a.noCache mp (stmts ls) lib)
    (h0 : NoMark (cellAt (rowsOf (files p)) 0 0)) (h1 : ∀ r ∈ rs, ∀ c ∈ r.cells, NoMark c.2)
    (hsrc' : SourceFile E ls' csv src') (hf' : Fresh fs' mp src') :
    ∃ fetch main rows K, IsModule (stmts ls) main ∧ (∀ e ∈ lib, ∃ m, fetch e.1 = .ok m ∧ IsModule e.2 m) ∧ AreRows E rs rows ∧ Defines (stmts ls') K ∧
      ∀ s₁ order isParam, evalFills ⟨rows, false⟩ = some s₁ → IsUnion fetch main K → Tidy K none order isParam →
        AllClear (effective K kv s₁) rows → AllSeen fetch main K kv s₁ rows →
        ∀ e states w e' states' w', Main E version ts partials cuts a fs files e states w → Main E version ts partials cuts a fs' files e' states' w' →
          e = some .success ∧ e' = some .success ∧ ∃ final out final' out', states.getLast? = some final ∧ Wrote files final p out ∧
            states'.getLast? = some final' ∧ Wrote files final' p out' ∧ SameCells rows out out' := by
  obtain ⟨fetch, main, rows, i1, i2, i3, i4⟩ := C82_modules_partial version ts partials cuts hs hb hsrc hf hc hlib h0 h1
  obtain ⟨⟨g, hg, ht⟩, hform⟩ := hc
  obtain ⟨K, rows', k1, k2, k3⟩ := C80_meaning version ts partials cuts hs hb hsrc' hf' hg ht hform h0 h1
  refine ⟨fetch, main, rows, K, i1, i2, i3, k1, fun s₁ order isParam hs₁ hu hT hclear hseen e states w e' states' w' h h' => ?_⟩
  obtain ⟨j1, -, final, out, j2, j3, j4⟩ := (i4 s₁ K order isParam hs₁ hu hT hclear hseen).2 e states w h
  have her := areRows_erase i3 k2
  obtain ⟨s₁', l1, l2⟩ := fills_erase her hs₁
  have hsc : effective K kv s₁' = effective K kv s₁ := by simp only [effective, l2]
  obtain ⟨m1, -, final', out', m2, m3, m4⟩ := (k3 s₁' l1 (by rw [hsc]; exact allClear_erase her hclear)).2 e' states' w' h'
  rw [hsc] at m4
  exact ⟨j1, m1, final, out, final', out', j2, j3, m2, m3, shows_same her j4 m4⟩

end
end Verif.Cli
