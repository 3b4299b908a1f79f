import Verif.Cli.InsertColumns
import Verif.Cli.InsertProgram
/-
Inserting columns into a source file (C112).
-/
namespace Verif.Cli
open Verif.Ast Verif.Loader Verif.Sheet Verif.Cache Verif.Csvp.Spec
open Verif.Cell hiding Target
open Verif.Target hiding MPath

/-- The row `r'` is written like `r`, with `n` cells without names inserted after the first `k`; a row that ends before is left as it is. -/
structure WidenedSrc (k n : Nat) (r r' : RowSrc) : Prop where
  entries : r'.entries = r.entries
  cells : (r.cells.length ≤ k ∧ r'.cells = r.cells) ∨
    ∃ a m b, r.cells = a ++ b ∧ r'.cells = a ++ m ++ b ∧ a.length = k ∧ m.length = n ∧ ∀ c ∈ m, ∀ v, Setting.var v ∉ c.1

theorem isRow_widened {E : Env} {k n y : Nat} {r r' : RowSrc} {row row' : Row} (h : WidenedSrc k n r r') (h1 : IsRow E y r row) (h2 : IsRow E y r' row') : Widened k n row row' := by
  have ho : row'.opts = row.opts := by rw [h1.opts, h2.opts, h.entries]
  have e1 := h1.cells
  have e2 := h2.cells
  change row.cells.map contents = _ at e1
  change row'.cells.map contents = _ at e2
  rw [ho] at e2
  refine ⟨ho, by rw [h1.fill, h2.fill, h.entries], ?_⟩
  rcases h.cells with ⟨k1, k2⟩ | ⟨a, m, b, k1, k2, k3, k4, k5⟩
  · refine .inl ⟨?_, by rw [e1, e2, k2]⟩
    have := congrArg List.length e1
    rw [List.length_map, List.length_map] at this
    omega
  · rw [k1, List.map_append] at e1
    rw [k2, List.map_append, List.map_append] at e2
    obtain ⟨A, B, f1, f2, f3⟩ := List.map_eq_append_iff.mp e1
    obtain ⟨AM, B', g1, g2, g3⟩ := List.map_eq_append_iff.mp e2
    obtain ⟨A', M, g4, g5, g6⟩ := List.map_eq_append_iff.mp g2
    have l1 := congrArg List.length f2
    have l2 := congrArg List.length g6
    rw [List.length_map, List.length_map] at l1 l2
    refine .inr ⟨A, B, A', M, B', f1, by rw [g1, g4], by omega, by omega, by rw [g5, f2], by rw [g3, f3], fun c hc => ?_⟩
    have : contents c ∈ M.map contents := List.mem_map_of_mem hc
    rw [g6] at this
    obtain ⟨q, hq, e⟩ := List.mem_map.mp this
    simp only [contents, Prod.mk.injEq] at e
    rw [← e.1, settled_noVar (k5 q hq)]
    rfl

theorem areRows_widened {E : Env} {k n : Nat} {rs rs' : List RowSrc} {rows rows' : List Row} (h : List.Forall₂ (WidenedSrc k n) rs rs') (h1 : AreRows E rs rows) (h2 : AreRows E rs' rows') :
    List.Forall₂ (Widened k n) rows rows' := by
  refine forall₂_of (by rw [h1.1, h2.1, h.length_eq]) fun y row row' e1 e2 => ?_
  obtain ⟨r, k1, k2⟩ := areRows_row h1 e1
  obtain ⟨r', k1', k2'⟩ := areRows_row h2 e2
  obtain ⟨r'', k3, k4⟩ := forall₂_get h k1
  rw [k1'] at k3; cases k3
  exact isRow_widened k4 k2 k2'

section
variable {E : Env} {a : Args} {fs fs' : FS Text} {files : Files Text} {mp : MPath} {p : Path} {kv : Text → Option Ast}
  {ls : List Parser.Line} {csv csv' src src' : Text} {rs rs' : List RowSrc} {k n : Nat}

/-- C112, the program.  Insert columns without names into a source file.  For every run on the file that writes its target, if the formulas of the inserted cells have
results, there is a run on the other file that writes a target with the same cells, further right by the number of inserted columns if they are behind them: texts are
the same, and formulas too, except that references by name follow their cells. -/
theorem C112_program (version : Nat) (ts : List Text) (partials : Text → List Text) (cuts : List Nat) (hs : Setup E a mp p kv)
    (hb : CanBackup ts a files p) (hsrc : SourceFile E ls csv src) (hf : Fresh fs mp src) (hc : CellsSection E csv rs)
    (hsrc' : SourceFile E ls csv' src') (hf' : Fresh fs' mp src') (hc' : CellsSection E csv' rs') (hsafe : a.safe = false) (hw : List.Forall₂ (WidenedSrc k n) rs rs')
    (h0 : NoMark (cellAt (rowsOf (files p)) 0 0)) (h1 : ∀ r ∈ rs, ∀ c ∈ r.cells, NoMark c.2) (h1' : ∀ r ∈ rs', ∀ c ∈ r.cells, NoMark c.2) :
    ∃ sc rows rows', Defines (Parser.stmts ls) sc ∧ AreRows E rs rows ∧ AreRows E rs' rows' ∧ (NotLikeCells sc kv rows →
      ∀ e states w, Main E version ts partials cuts a fs files e states w →
        (e ≠ some .success ∧ states = [files]) ∨ (e = some .success ∧ ∃ s₁ t₁ final out, evalFills ⟨rows, false⟩ = some s₁ ∧ evalFills ⟨rows', false⟩ = some t₁ ∧
          states.getLast? = some final ∧ Wrote files final p out ∧
          ((∀ (y x : Nat) r c f, k ≤ x → x < k + n → t₁.rows[y]? = some r → r.cells[x]? = some c → c.ast = some f → ∃ b, Eval (effective sc kv t₁) (some ⟨x, y⟩) f (.ok b)) →
            ∃ states' w' final' out', Main E version ts partials cuts a fs' files (some .success) states' w' ∧ states'.getLast? = some final' ∧
              Wrote files final' p out' ∧ (csvRead out').length = (csvRead out).length ∧
              ∀ (y x : Nat) q c, s₁.rows[y]? = some q → q.cells[x]? = some c →
                (c.ast = none → cellAt (csvRead out) y x = c.value ∧ cellAt (csvRead out') y (lowered k n x) = c.value) ∧
                ∀ f, c.ast = some f → ∃ b b', Eval (effective sc kv s₁) (some ⟨x, y⟩) f (.ok b) ∧ cellAt (csvRead out) y x = Parser.displayFormula b ∧
                  cellAt (csvRead out') y (lowered k n x) = Parser.displayFormula b' ∧ Moved (FollowsCol sc kv rows (lowered k n) ⟨x, y⟩) b b'))) := by
  obtain ⟨c1, c2⟩ := hsrc.split
  obtain ⟨c1', c2'⟩ := hsrc'.split
  obtain ⟨sc, s1, s2, s3, -⟩ := Parser.C48_code_section_partial E.uni E.f64 ls hsrc.lines (usesFirst_of hsrc.uses)
  rw [modules_of hsrc.uses] at s1
  obtain ⟨⟨g, hg, ht⟩, hform⟩ := hc
  obtain ⟨⟨g', hg', ht'⟩, hform'⟩ := hc'
  obtain ⟨rows, r1, hpm, -⟩ := main_cells (version := version) (partials := partials) (cuts := cuts) hs hb hf (sc := sc)
    (by rw [c1]; exact s1) (by rw [c2, Csvp.values_parse]; rw [Csvp.values_parse] at hg; exact hg) ht hform h0 h1
  obtain ⟨rows', r1', hpm', -⟩ := main_cells (version := version) (partials := partials) (cuts := cuts) hs hb hf' (sc := sc)
    (by rw [c1']; exact s1) (by rw [c2', Csvp.values_parse]; rw [Csvp.values_parse] at hg'; exact hg') ht' hform' h0 h1'
  have hins := areRows_widened hw r1 r1'
  refine ⟨sc, rows, rows', ⟨s2, s3⟩, r1, r1', fun hn e states w h => ?_⟩
  obtain ⟨-, ⟨s, final, hev, k1, k2, k3⟩ | ⟨k1, k2, -⟩⟩ := main_alone hs hb hf hpm rfl h
  · obtain ⟨s₁, _, _, _, _, _, hfill, -⟩ := id hev
    obtain ⟨t₁, hfill', -⟩ := widened_fills hins hfill
    refine .inr ⟨k1, s₁, t₁, final, _, hfill, hfill', k2, k3, fun hnew => ?_⟩
    obtain ⟨t, ht1, ht2⟩ := C112_insert hins hfill hfill' hn hev hnew
    obtain ⟨states', w', final', o1, o2, o3⟩ := main_alone_with (version := version) (partials := partials) (cuts := cuts) hs hb hf' hpm' rfl ht1
    have hmk := written_mark (safe := a.safe) h0 (sheet_mark r1 h1 hev)
    have hmk' := written_mark (safe := a.safe) h0 (sheet_mark r1' h1' ht1)
    refine ⟨states', w', final', _, o1, o2, o3, ?_, fun y x q c hq hcx => ?_⟩
    · rw [(C42_rectangular hmk).1, (C42_rectangular hmk').1, ht2.len]
    · obtain ⟨-, -, s₂, hs₂, hcc⟩ := (C103_cell_by_cell ..).mp hev
      rw [hfill] at hs₂; cases hs₂
      have hy : y < s.rows.length := by rw [hcc.rows]; exact (List.getElem?_eq_some_iff.mp hq).1
      have hx : x < s.rows[y].cells.length := by rw [(hcc.row y q _ hq (List.getElem?_eq_getElem hy)).2.2]; exact (List.getElem?_eq_some_iff.mp hcx).1
      have hce := hcc.cell y x q _ c _ hq (List.getElem?_eq_getElem hy) hcx (List.getElem?_eq_getElem hx)
      obtain ⟨r', n1, -, -, n3⟩ := ht2.row y _ (List.getElem?_eq_getElem hy)
      obtain ⟨d', n4, n5⟩ := n3 x _ (List.getElem?_eq_getElem hx)
      have z1 : sheetCell s y x = some s.rows[y].cells[x] := by rw [sheetCell, List.getElem?_eq_getElem hy, Option.bind_some, List.getElem?_eq_getElem hx]
      have z2 : sheetCell t y (lowered k n x) = some d' := by rw [sheetCell, n1, Option.bind_some, n4]
      have sh : ∀ o n, shown a.safe o n = n := by intro o n; rw [hsafe]; rfl
      rw [new_at hmk, new_at hmk', records_at, records_at, z1, z2]
      simp only [sh]
      refine ⟨fun hnone => ?_, fun f hsome => ?_⟩
      · have q1 := hce.text hnone
        rcases n5.ast with ⟨-, q2⟩ | ⟨b, _, q2, -⟩
        · rw [Cell.display, Cell.display, q1, q2]
          exact ⟨hce.value, by show d'.value = _; rw [n5.value, hce.value]⟩
        · rw [q1] at q2; cases q2
      · obtain ⟨b, q1, q2⟩ := hce.formula f hsome
        rcases n5.ast with ⟨q3, -⟩ | ⟨b₂, b', q3, q4, q5⟩
        · rw [q1] at q3; cases q3
        · rw [q1] at q3; cases q3
          rw [Cell.display, Cell.display, q1, q4]
          exact ⟨b, b', q2, rfl, rfl, q5⟩
  · refine .inl ⟨?_, k2⟩
    rcases k1 with k1 | k1 <;> rw [k1] <;> intro h <;> cases h
end

/-! ## References -/

section
variable {sc : Scope} {ext : Text → Option Ast} {rows : List Row} {g : Nat → Nat} {pos : Addr}

/-- C112: a reference in a result that is not written anywhere in the source becomes exactly the one that follows its cells. -/
theorem C112_reference {a : A1} (h : ¬ WrittenRef sc ext rows a.text) {r' : Text} (hr : FollowsCol sc ext rows g pos a.text r') : r' = (moveCol g a).text := by
  rcases hr with ⟨rfl, hw⟩ | ⟨b, -, h1, h2⟩
  · exact absurd hw h
  · rw [h2, a1_inj h1]

/-- C112: a reference in a result that no name stands for is left as it is. -/
theorem C112_written {r r' : Text} (h : ¬ NameStands rows pos r) (hr : FollowsCol sc ext rows g pos r r') : r' = r := by
  rcases hr with ⟨rfl, -⟩ | ⟨a, ha, rfl, -⟩
  · rfl
  · exact absurd ha h

/-- C112: in a program without names for cells or rows nothing changes. -/
theorem C112_unnamed (h : ∀ q ∈ rows, names q = []) {r r' : Text} (hr : FollowsCol sc ext rows g pos r r') : r' = r := by
  refine C112_written ?_ hr
  rintro ⟨s, x, v, h1, h2, -⟩
  obtain ⟨q, h3, h4⟩ := sheetVars_named h1 h2
  rw [h q h3] at h4; cases h4
end

/-! ## An example -/

namespace InsertColumnsExample
open InsertExample

/-- The row of the example of C105 with a cell in front. -/
def row' : Row := ⟨{}, none, [⟨none, ⟨⟨0, 0⟩, [], []⟩, "Total".toList, {}⟩, ⟨none, ⟨⟨1, 0⟩, [], []⟩, "5".toList, { var := some "a".toList }⟩,
  ⟨some (.ref "a".toList), ⟨⟨2, 0⟩, [], []⟩, "=a".toList, {}⟩]⟩

theorem widened : List.Forall₂ (Widened 0 1) [row] [row'] :=
  .cons ⟨rfl, rfl, .inr ⟨[], _, [], [_], _, rfl, rfl, rfl, rfl, rfl, rfl, by simp⟩⟩ .nil

/-- The formula `=a` is `A1` before and `B1` after a column was inserted in front. -/
example : ∃ o', Eval (effective .empty (fun _ => none) ⟨[row'], true⟩) (some ⟨2, 0⟩) (.ref "a".toList) o' ∧ o' = .ok (.ref "B1".toList) := by
  obtain ⟨o', h1, h2⟩ := (C112_formula widened (s₁ := ⟨[row], true⟩) (t₁ := ⟨[row'], true⟩) rfl rfl notLike ⟨row, by simp, _, List.mem_cons_of_mem _ (List.mem_cons_self ..), rfl⟩ 1 0).1 _ before
  refine ⟨o', h1, ?_⟩
  cases h2 with
  | ok h =>
    cases h with
    | ref h =>
      have ha : "A1".toList = (A1.cell ⟨0, 0⟩).text := by decide +kernel
      have ha' : "B1".toList = (A1.cell ⟨1, 0⟩).text := by decide +kernel
      rw [ha] at h
      rw [C112_reference (a := .cell ⟨0, 0⟩) ?_ h, ha']
      · rfl
      · rintro (⟨q, q1, c, c1, f, q2, q3⟩ | ⟨x, d, h | h | h, -⟩)
        · obtain rfl := List.mem_singleton.mp q1
          simp only [row, List.mem_cons, List.not_mem_nil, or_false] at c1
          rcases c1 with rfl | rfl
          · cases q2
          · cases q2; revert q3; decide +kernel
        · cases h
        · cases h
        · cases h

/-- The written rows of a file `[[var=a]]5,=a` and of `Total,[[var=a]]5,=a`. -/
example : List.Forall₂ (WidenedSrc 0 1) [⟨[], [([.var "a".toList], "5".toList), ([], "=a".toList)]⟩]
    [⟨[], [([], "Total".toList), ([.var "a".toList], "5".toList), ([], "=a".toList)]⟩] :=
  .cons ⟨rfl, .inr ⟨[], [_], _, rfl, rfl, rfl, rfl, by simp⟩⟩ .nil

end InsertColumnsExample

end Verif.Cli
