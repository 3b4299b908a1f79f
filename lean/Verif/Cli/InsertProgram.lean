import Verif.Cli.Insert
import Verif.Sheet.Formula
import Verif.Sheet.Refs
/-
Inserting rows into a source file (C105).
-/
namespace Verif.Cli
open Verif.Ast Verif.Loader Verif.Sheet Verif.Cache Verif.Csvp.Spec
open Verif.Cell hiding Target
open Verif.Target hiding MPath

/-- The amount of the last fill among the entries of a row, if there is one. -/
def fillGiven (r : RowSrc) : Option (Option Nat) := (r.entries.filterMap Sum.getRight?).getLast?

/-- The row names neither itself nor a cell. -/
def NoNames (r : RowSrc) : Prop := (∀ v, Setting.var v ∉ settings r.entries) ∧ ∀ c ∈ r.cells, ∀ v, Setting.var v ∉ c.1

/-- The number of rows that the row stands for. -/
def srcCopies (r : RowSrc) : Nat :=
  match fillGiven r with
  | none => 1
  | some n => n.getD 0

theorem isRow_fill {E : Env} {y : Nat} {r : RowSrc} {row : Row} (h : IsRow E y r row) : row.fill = (fillGiven r).map fun n => ⟨n, y⟩ := by
  rw [h.fill, filled, fillGiven]
  cases (r.entries.filterMap Sum.getRight?).getLast? <;> rfl

theorem isRow_alike {E : Env} {y y' : Nat} {r : RowSrc} {row row' : Row} (h : IsRow E y r row) (h' : IsRow E y' r row') : Alike row row' := by
  refine ⟨by rw [h.opts, h'.opts], by rw [isRow_fill h, isRow_fill h', Option.map_map, Option.map_map]; rfl, ?_⟩
  have e := h.cells
  have e' := h'.cells
  rw [h'.opts, ← h.opts, ← e] at e'
  exact e'

theorem lastOr_none {α : Type} {f : Setting → Option α} {d : α} {ss : List Setting} (h : ∀ s ∈ ss, f s = none) : lastOr f d ss = d := by
  induction ss with
  | nil => rfl
  | cons s ss ih =>
    have := ih fun s hs => h s (by simp [hs])
    rw [lastOr] at this ⊢
    rw [List.foldl_cons, h s (by simp)]
    exact this

theorem settled_noVar {ss : List Setting} {o : Opts} (h : ∀ v, Setting.var v ∉ ss) : (settled ss o).var = o.var := by
  show lastOr _ _ _ = _
  refine lastOr_none fun s hs => ?_
  cases s with
  | var v => exact absurd hs (h v)
  | _ => rfl

theorem isRow_noNames {E : Env} {y : Nat} {r : RowSrc} {row : Row} (h : IsRow E y r row) (hn : NoNames r) : names row = [] := by
  rw [names, h.opts, settled_noVar hn.1]
  show [] ++ _ = []
  rw [List.nil_append, List.filterMap_eq_nil_iff]
  intro c hc
  obtain ⟨x, hx, rfl⟩ := List.getElem_of_mem hc
  obtain ⟨q, h1, h2, -⟩ := isRow_cell h (List.getElem?_eq_getElem hx)
  rw [h2, settled_noVar (hn.2 q (List.mem_of_getElem? h1))]
  rfl

theorem areRows_row {E : Env} {rs : List RowSrc} {rows : List Row} (h : AreRows E rs rows) {y : Nat} {row : Row} (hr : rows[y]? = some row) : ∃ r, rs[y]? = some r ∧ IsRow E y r row := by
  have hy : y < rs.length := by rw [← h.1]; exact (List.getElem?_eq_some_iff.mp hr).1
  obtain ⟨row', k1, k2⟩ := h.2 y _ (List.getElem?_eq_getElem hy)
  rw [hr] at k1; cases k1
  exact ⟨_, List.getElem?_eq_getElem hy, k2⟩

theorem isRow_copies {E : Env} {y : Nat} {r : RowSrc} {row : Row} (h : IsRow E y r row) : boundedCopies row = srcCopies r := by
  rw [boundedCopies, isRow_fill h, srcCopies]
  cases fillGiven r with
  | none => rfl
  | some n => cases n <;> rfl

/-- The rows of a part of a cells section. -/
theorem part_copies {E : Env} {rs : List RowSrc} {rows : List Row} (o : Nat) (hl : rows.length = rs.length)
    (h : ∀ (i : Nat) r row, rs[i]? = some r → rows[i]? = some row → IsRow E (o + i) r row) : bounded rows = (rs.map srcCopies).sum := by
  induction rs generalizing rows o with
  | nil => cases List.length_eq_zero_iff.mp hl; rfl
  | cons r rs ih =>
    cases rows with
    | nil => cases hl
    | cons row rows =>
      rw [bounded_cons, isRow_copies (h 0 r row rfl rfl), ih (o + 1) (by simpa using hl) fun i q q' hq hq' => ?_]
      · rw [List.map_cons, List.sum_cons]
      · have := h (i + 1) q q' (by simpa using hq) (by simpa using hq')
        rwa [show o + (i + 1) = o + 1 + i by omega] at this

/-- Inserting rows into a cells section inserts them into the sheet. -/
theorem inserted_src {E : Env} {tops mids bottoms : List RowSrc} {rows rows' : List Row} (hr : AreRows E (tops ++ bottoms) rows) (hr' : AreRows E (tops ++ mids ++ bottoms) rows')
    (hu : ∀ r ∈ tops ++ bottoms, fillGiven r ≠ some none) (hm : ∀ r ∈ mids, fillGiven r = none ∧ NoNames r)
    (hfit : ((tops ++ bottoms).map srcCopies).sum + mids.length ≤ 1000) :
    ∃ mid, mid.length = mids.length ∧ (∀ (i : Nat), i < mid.length → mid[i]? = rows'[tops.length + i]?) ∧ Inserted ((tops.map srcCopies).sum) mid rows rows' := by
  have hl := hr.1
  have hl' := hr'.1
  simp only [List.length_append] at hl hl'
  have get : ∀ {y r row}, (tops ++ bottoms)[y]? = some r → rows[y]? = some row → IsRow E y r row := by
    intro y r row h1 h2
    obtain ⟨r', k1, k2⟩ := areRows_row hr h2
    rw [h1] at k1; cases k1; exact k2
  have get' : ∀ {y r row}, (tops ++ mids ++ bottoms)[y]? = some r → rows'[y]? = some row → IsRow E y r row := by
    intro y r row h1 h2
    obtain ⟨r', k1, k2⟩ := areRows_row hr' h2
    rw [h1] at k1; cases k1; exact k2
  have hmid : ∀ r ∈ (rows'.drop tops.length).take mids.length, ∃ q ∈ mids, ∃ y, IsRow E y q r := by
    intro r hr
    obtain ⟨i, hi, rfl⟩ := List.getElem_of_mem hr
    rw [List.length_take, List.length_drop] at hi
    have e : rows'[tops.length + i]? = some ((rows'.drop tops.length).take mids.length)[i] := by
      rw [List.getElem_take, List.getElem_drop]; exact List.getElem?_eq_getElem _
    obtain ⟨q, k1, k2⟩ := areRows_row hr' e
    rw [List.append_assoc, List.getElem?_append_right (by omega), Nat.add_sub_cancel_left, List.getElem?_append_left (by omega)] at k1
    exact ⟨q, List.mem_of_getElem? k1, _, k2⟩
  refine ⟨(rows'.drop tops.length).take mids.length, by rw [List.length_take, List.length_drop]; omega, fun i hi => ?_, ⟨rows.take tops.length, rows.drop tops.length, rows'.take tops.length,
    rows'.drop (tops.length + mids.length), (List.take_append_drop ..).symm, ?_, ?_, ?_, ?_⟩, ?_, ?_, ?_, ?_⟩
  · rw [List.length_take, List.length_drop] at hi
    rw [List.getElem?_take_of_lt (by omega), List.getElem?_drop]
  · rw [← List.drop_drop, List.append_assoc, List.take_append_drop, List.take_append_drop]
  · refine part_copies (E := E) 0 (by rw [List.length_take]; omega) fun i r row h1 h2 => ?_
    have hi := (List.getElem?_eq_some_iff.mp h1).1
    rw [List.getElem?_take_of_lt hi] at h2
    rw [Nat.zero_add]
    exact get (by rw [List.getElem?_append_left hi]; exact h1) h2
  · refine forall₂_of (by rw [List.length_take, List.length_take]; omega) fun i r row h1 h2 => ?_
    have hi := (List.getElem?_eq_some_iff.mp h1).1
    rw [List.length_take] at hi
    have hi : i < tops.length := by omega
    rw [List.getElem?_take_of_lt hi] at h1 h2
    exact isRow_alike (get (by rw [List.getElem?_append_left hi]; exact List.getElem?_eq_getElem hi) h1)
      (get' (by rw [List.append_assoc, List.getElem?_append_left hi]; exact List.getElem?_eq_getElem hi) h2)
  · refine forall₂_of (by rw [List.length_drop, List.length_drop]; omega) fun i r row h1 h2 => ?_
    have hi := (List.getElem?_eq_some_iff.mp h1).1
    rw [List.length_drop] at hi
    have hi : i < bottoms.length := by omega
    rw [List.getElem?_drop] at h1 h2
    exact isRow_alike (get (by rw [List.getElem?_append_right (by omega), Nat.add_sub_cancel_left]; exact List.getElem?_eq_getElem hi) h1)
      (get' (by rw [List.getElem?_append_right (by rw [List.length_append]; omega), List.length_append, Nat.add_sub_cancel_left]; exact List.getElem?_eq_getElem hi) h2)
  · rintro r hr1 ⟨y, hy⟩
    obtain ⟨i, hi, rfl⟩ := List.getElem_of_mem hr1
    obtain ⟨q, k1, k2⟩ := areRows_row hr (List.getElem?_eq_getElem hi)
    rw [isRow_fill k2] at hy
    refine hu q (List.mem_of_getElem? k1) ?_
    cases hf : fillGiven q with
    | none => rw [hf] at hy; cases hy
    | some n => rw [hf] at hy; cases hy; rfl
  · rw [part_copies (E := E) (rs := tops ++ bottoms) 0 hr.1 fun i r row h1 h2 => by rw [Nat.zero_add]; exact get h1 h2, List.length_take, List.length_drop]
    omega
  · intro r hr1
    obtain ⟨q, h1, y, h2⟩ := hmid r hr1
    rw [isRow_fill h2, (hm q h1).1]; rfl
  · intro r hr1
    obtain ⟨q, h1, y, h2⟩ := hmid r hr1
    exact isRow_noNames h2 (hm q h1).2

section
variable {E : Env} {a : Args} {fs fs' : FS Text} {files : Files Text} {mp : MPath} {p : Path} {kv : Text → Option Ast}
  {ls : List Parser.Line} {csv csv' src src' : Text} {tops mids bottoms : List RowSrc}

/-- C105, the program.  Insert rows without a fill and without names into a source file in which every fill has an amount.  For every run on the file that writes its
target, if the formulas of the inserted rows have results, there is a run on the other file that writes a target with the same cells, lower by the number of inserted
rows if they are below them: texts are the same, and formulas too, except that references by name follow their cells. -/
theorem C105_program (version : Nat) (ts : List Text) (partials : Text → List Text) (cuts : List Nat) (hs : Setup E a mp p kv)
    (hb : CanBackup ts a files p) (hsrc : SourceFile E ls csv src) (hf : Fresh fs mp src) (hc : CellsSection E csv (tops ++ bottoms))
    (hsrc' : SourceFile E ls csv' src') (hf' : Fresh fs' mp src') (hc' : CellsSection E csv' (tops ++ mids ++ bottoms)) (hsafe : a.safe = false)
    (hu : ∀ r ∈ tops ++ bottoms, fillGiven r ≠ some none) (hm : ∀ r ∈ mids, fillGiven r = none ∧ NoNames r)
    (hfit : ((tops ++ bottoms).map srcCopies).sum + mids.length ≤ 1000)
    (h0 : NoMark (cellAt (rowsOf (files p)) 0 0)) (h1 : ∀ r ∈ tops ++ bottoms, ∀ c ∈ r.cells, NoMark c.2) (h1' : ∀ r ∈ tops ++ mids ++ bottoms, ∀ c ∈ r.cells, NoMark c.2) :
    ∃ sc rows rows', Defines (Parser.stmts ls) sc ∧ AreRows E (tops ++ bottoms) rows ∧ AreRows E (tops ++ mids ++ bottoms) rows' ∧ (NotLikeCells sc kv rows →
      ∀ e states w, Main E version ts partials cuts a fs files e states w →
        (e ≠ some .success ∧ states = [files]) ∨ (e = some .success ∧ ∃ s₁ t₁ final out, evalFills ⟨rows, false⟩ = some s₁ ∧ evalFills ⟨rows', false⟩ = some t₁ ∧
          states.getLast? = some final ∧ Wrote files final p out ∧
          ((∀ (i x : Nat) r c f, i < mids.length → rows'[tops.length + i]? = some r → r.cells[x]? = some c → c.ast = some f →
              ∃ b, Eval (effective sc kv t₁) (some ⟨x, (tops.map srcCopies).sum + i⟩) f (.ok b)) →
            ∃ states' w' final' out', Main E version ts partials cuts a fs' files (some .success) states' w' ∧ states'.getLast? = some final' ∧
              Wrote files final' p out' ∧ (csvRead out').length = (csvRead out).length + mids.length ∧
              ∀ (y x : Nat) q c, s₁.rows[y]? = some q → q.cells[x]? = some c →
                (c.ast = none → cellAt (csvRead out) y x = c.value ∧ cellAt (csvRead out') (lowered (tops.map srcCopies).sum mids.length y) x = c.value) ∧
                ∀ f, c.ast = some f → ∃ b b', Eval (effective sc kv s₁) (some ⟨x, y⟩) f (.ok b) ∧ cellAt (csvRead out) y x = Parser.displayFormula b ∧
                  cellAt (csvRead out') (lowered (tops.map srcCopies).sum mids.length y) x = Parser.displayFormula b' ∧
                  Moved (FollowsRef sc kv rows (lowered (tops.map srcCopies).sum mids.length) ⟨x, y⟩) b b'))) := by
  obtain ⟨c1, c2⟩ := hsrc.split
  obtain ⟨c1', c2'⟩ := hsrc'.split
  obtain ⟨sc, s1, s2, s3, -⟩ := Parser.C48_code_section_partial E.uni E.f64 ls hsrc.lines (usesFirst_of hsrc.uses)
  rw [modules_of hsrc.uses] at s1
  obtain ⟨⟨g, hg, ht⟩, hform⟩ := hc
  obtain ⟨⟨g', hg', ht'⟩, hform'⟩ := hc'
  obtain ⟨rows, r1, hpm, -⟩ := main_cells (version := version) (partials := partials) (cuts := cuts) hs hb hf (sc := sc)
    (by rw [c1]; exact s1) (by rw [c2, Csvp.values_parse]; rw [Csvp.values_parse] at hg; exact hg) ht hform h0 h1
  obtain ⟨rows', r1', hpm', -⟩ := main_cells (version := version) (partials := partials) (cuts := cuts) hs hb hf' (sc := sc)
    (by rw [c1']; exact s1) (by rw [c2', Csvp.values_parse]; rw [Csvp.values_parse] at hg'; exact hg') ht' hform' h0 h1'
  obtain ⟨mid, m1, m2, hins⟩ := inserted_src r1 r1' hu hm hfit
  refine ⟨sc, rows, rows', ⟨s2, s3⟩, r1, r1', fun hn e states w h => ?_⟩
  obtain ⟨-, ⟨s, final, hev, k1, k2, k3⟩ | ⟨k1, k2, -⟩⟩ := main_alone hs hb hf hpm rfl h
  · obtain ⟨s₁, _, _, _, _, _, hfill, -⟩ := id hev
    obtain ⟨A, B, A', B', -, hfill', -⟩ := hins.expand
    refine .inr ⟨k1, s₁, _, final, _, hfill, hfill', k2, k3, fun hnew => ?_⟩
    obtain ⟨t, ht1, ht2⟩ := C105_insert hins hfill hfill' hn hev fun i x r c f e1 e2 e3 =>
      hnew i x r c f (by rw [← m1]; exact (List.getElem?_eq_some_iff.mp e1).1) (by rw [← m2 i (List.getElem?_eq_some_iff.mp e1).1]; exact e1) e2 e3
    obtain ⟨states', w', final', o1, o2, o3⟩ := main_alone_with (version := version) (partials := partials) (cuts := cuts) hs hb hf' hpm' rfl ht1
    have hmk := written_mark (safe := a.safe) h0 (sheet_mark r1 h1 hev)
    have hmk' := written_mark (safe := a.safe) h0 (sheet_mark r1' h1' ht1)
    refine ⟨states', w', final', _, o1, o2, o3, ?_, fun y x q c hq hcx => ?_⟩
    · rw [(C42_rectangular hmk).1, (C42_rectangular hmk').1, ht2.len, m1]
    · obtain ⟨-, -, s₂, hs₂, hcc⟩ := (C103_cell_by_cell ..).mp hev
      rw [hfill] at hs₂; cases hs₂
      have hy : y < s.rows.length := by rw [hcc.rows]; exact (List.getElem?_eq_some_iff.mp hq).1
      have hx : x < s.rows[y].cells.length := by rw [(hcc.row y q _ hq (List.getElem?_eq_getElem hy)).2.2]; exact (List.getElem?_eq_some_iff.mp hcx).1
      have hce := hcc.cell y x q _ c _ hq (List.getElem?_eq_getElem hy) hcx (List.getElem?_eq_getElem hx)
      obtain ⟨r', n1, -, nl, n3⟩ := ht2.row y _ (List.getElem?_eq_getElem hy)
      obtain ⟨d', n4⟩ : ∃ d', r'.cells[x]? = some d' := ⟨_, List.getElem?_eq_getElem (by rw [nl]; exact hx)⟩
      have n5 := n3 x _ d' (List.getElem?_eq_getElem hx) n4
      have z1 : sheetCell s y x = some s.rows[y].cells[x] := by rw [sheetCell, List.getElem?_eq_getElem hy, Option.bind_some, List.getElem?_eq_getElem hx]
      have z2 : sheetCell t (lowered (tops.map srcCopies).sum mids.length y) x = some d' := by rw [sheetCell, ← m1, n1, Option.bind_some, n4]
      have sh : ∀ o n, shown a.safe o n = n := by intro o n; rw [hsafe]; rfl
      rw [new_at hmk, new_at hmk', records_at, records_at, z1, z2]
      simp only [sh]
      refine ⟨fun hnone => ?_, fun f hsome => ?_⟩
      · have q1 := hce.text hnone
        rcases n5.ast with ⟨-, q2⟩ | ⟨b, _, q2, -⟩
        · rw [Cell.display, Cell.display, q1, q2]
          exact ⟨hce.value, by show d'.value = _; rw [n5.value, hce.value]⟩
        · rw [q1] at q2; cases q2
      · obtain ⟨b, q1, q2⟩ := hce.formula f hsome
        rcases n5.ast with ⟨q3, -⟩ | ⟨b₂, b', q3, q4, q5⟩
        · rw [q1] at q3; cases q3
        · rw [q1] at q3; cases q3
          rw [Cell.display, Cell.display, q1, q4]
          exact ⟨b, b', q2, rfl, rfl, by rw [← m1]; exact q5⟩
  · refine .inl ⟨?_, k2⟩
    rcases k1 with k1 | k1 <;> rw [k1] <;> intro h <;> cases h
end

/-! ## References -/

theorem a1_inj {a b : A1} (h : a.text = b.text) : a = b := by
  cases a with
  | cell p =>
    cases b with
    | cell q => rw [addr_inj p q h]
    | rows s e => exact absurd h (C53_kinds p.x p.y s e 0 0 0).1
    | colRows x s e => exact absurd h (C53_kinds p.x p.y 0 0 x s e).2.1
  | rows s e =>
    cases b with
    | cell q => exact absurd h.symm (C53_kinds q.x q.y s e 0 0 0).1
    | rows s' e' => obtain ⟨rfl, rfl⟩ := (C53_rows s e s' e').mp h; rfl
    | colRows x s' e' => exact absurd h (C53_kinds 0 0 s e x s' e').2.2
  | colRows x s e =>
    cases b with
    | cell q => exact absurd h.symm (C53_kinds q.x q.y 0 0 x s e).2.1
    | rows s' e' => exact absurd h.symm (C53_kinds 0 0 s' e' x s e).2.2
    | colRows x' s' e' => obtain ⟨rfl, rfl, rfl⟩ := (C53_columns x s e x' s' e').mp h; rfl

section
variable {sc : Scope} {ext : Text → Option Ast} {rows : List Row} {g : Nat → Nat} {pos : Addr}

/-- C105: a reference in a result that is not written anywhere in the source becomes exactly the one that follows its cells. -/
theorem C105_reference {a : A1} (h : ¬ WrittenRef sc ext rows a.text) {r' : Text} (hr : FollowsRef sc ext rows g pos a.text r') : r' = (moveA1 g a).text := by
  rcases hr with ⟨rfl, hw⟩ | ⟨b, -, h1, h2⟩
  · exact absurd hw h
  · rw [h2, a1_inj h1]

/-- C105: a reference in a result that no name stands for is left as it is. -/
theorem C105_written {r r' : Text} (h : ¬ NameStands rows pos r) (hr : FollowsRef sc ext rows g pos r r') : r' = r := by
  rcases hr with ⟨rfl, -⟩ | ⟨a, ha, rfl, -⟩
  · rfl
  · exact absurd ha h

/-- C105: in a program without names for cells or rows nothing changes. -/
theorem C105_unnamed (h : ∀ q ∈ rows, names q = []) {r r' : Text} (hr : FollowsRef sc ext rows g pos r r') : r' = r := by
  refine C105_written ?_ hr
  rintro ⟨s, x, v, h1, h2, -⟩
  obtain ⟨q, h3, h4⟩ := sheetVars_named h1 h2
  rw [h q h3] at h4; cases h4

/-- C105: what a name means (C23) is what it stands for. -/
theorem C105_means {v t : Text} {s : Sheet} (h : evalFills ⟨rows, false⟩ = some s) (hm : Means rows v pos t) : NameStands rows pos t := by
  obtain ⟨val, h1, h2⟩ := C23_means rows s h v pos t hm
  exact ⟨s, v, val, h, h1, h2⟩
end

/-! ## An example -/

namespace InsertExample

/-- A row with a cell that is called `a` and a formula that uses it. -/
def row : Row := ⟨{}, none, [⟨none, ⟨⟨0, 0⟩, [], []⟩, "5".toList, { var := some "a".toList }⟩, ⟨some (.ref "a".toList), ⟨⟨1, 0⟩, [], []⟩, "=a".toList, {}⟩]⟩

def title : Row := ⟨{}, none, [⟨none, ⟨⟨0, 0⟩, [], []⟩, "Title".toList, {}⟩]⟩

theorem inserted : Inserted 0 [title] [row] [title, row] :=
  ⟨⟨[], [row], [], [row], rfl, rfl, rfl, .nil, .cons ⟨rfl, rfl, rfl⟩ .nil⟩, by decide, by decide, by decide, by decide⟩

theorem notLike : NotLikeCells .empty (fun _ => none) [row] := by
  refine ⟨fun _ _ _ => ⟨nofun, nofun⟩, fun _ => rfl, fun _ => rfl, fun q hq a ha => ?_, nofun⟩
  obtain rfl := List.mem_singleton.mp hq
  have e : a.text = ['a'] := List.mem_singleton.mp ha
  have key : ∀ n : Nat, ∀ c ∈ natText n, c = 'a' → False := by
    rintro n c hc rfl
    have := (Parser.natText_digits n).2 _ hc
    revert this; decide
  have ne : ∀ n, ∃ c, c ∈ natText n := fun n => List.exists_mem_of_ne_nil _ (Parser.natText_digits n).1
  cases a with
  | cell p =>
    obtain ⟨c, hc⟩ := ne (p.y + 1)
    exact key _ c hc (List.mem_singleton.mp (e ▸ List.mem_append_right _ hc))
  | rows s t =>
    obtain ⟨c, hc⟩ := ne (s + 1)
    exact key _ c hc (List.mem_singleton.mp (e ▸ List.mem_append_left _ hc))
  | colRows x s t =>
    obtain ⟨c, hc⟩ := ne (s + 1)
    exact key _ c hc (List.mem_singleton.mp (e ▸ List.mem_append_left _ (List.mem_append_right _ hc)))

theorem before : Eval (effective .empty (fun _ => none) ⟨[row], true⟩) (some ⟨1, 0⟩) (.ref "a".toList) (.ok (.ref "A1".toList)) := by
  have ha : "A1".toList = (A1.cell ⟨0, 0⟩).text := by decide +kernel
  rw [ha]
  have h1 : refsOf (effective .empty (fun _ => none) ⟨[row], true⟩) (.ref "a".toList) = ⟨[], ["a".toList]⟩ := rfl
  refine Loop.again (a' := .ref (A1.cell ⟨0, 0⟩).text) ?_ ⟨["a".toList], [], ?_, ?_, ?_⟩ (.stop (.inl ?_))
  · rw [Stops, h1]
    rintro (⟨-, h⟩ | ⟨-, h⟩)
    · cases h
    · have := (h "a".toList).mp (by simp); cases this
  · exact ⟨by simp, fun n => by rfl⟩
  · exact ⟨by simp, fun n => by rfl⟩
  · rfl
  · rw [← ha]; constructor <;> rfl

/-- The formula `=a` is `A1` before and `A2` after a title was inserted above. -/
example : ∃ o', Eval (effective .empty (fun _ => none) ⟨[title, row], true⟩) (some ⟨1, 1⟩) (.ref "a".toList) o' ∧ o' = .ok (.ref "A2".toList) := by
  obtain ⟨o', h1, h2⟩ := (C105_formula inserted (s₁ := ⟨[row], true⟩) (t₁ := ⟨[title, row], true⟩) rfl rfl notLike ⟨row, by simp, _, List.mem_cons_of_mem _ (List.mem_cons_self ..), rfl⟩ 1 0).1 _ before
  refine ⟨o', h1, ?_⟩
  cases h2 with
  | ok h =>
    cases h with
    | ref h =>
      have ha : "A1".toList = (A1.cell ⟨0, 0⟩).text := by decide +kernel
      have ha' : "A2".toList = (A1.cell ⟨0, 1⟩).text := by decide +kernel
      rw [ha] at h
      rw [C105_reference (a := .cell ⟨0, 0⟩) ?_ h, ha']
      · rfl
      · rintro (⟨q, q1, c, c1, f, q2, q3⟩ | ⟨x, d, h | h | h, -⟩)
        · obtain rfl := List.mem_singleton.mp q1
          simp only [row, List.mem_cons, List.not_mem_nil, or_false] at c1
          rcases c1 with rfl | rfl
          · cases q2
          · cases q2; revert q3; decide +kernel
        · cases h
        · cases h
        · cases h

end InsertExample

end Verif.Cli
