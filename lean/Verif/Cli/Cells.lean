import Verif.Cli.Run
import Verif.Target.CsvProps
import Verif.Sheet.Props
/-
What a run of the program leaves in the cells of the target (C79, C80).
-/
namespace Verif.Cli
open Verif.Ast Verif.Loader Verif.Sheet Verif.Cache
open Verif.Cell hiding Target
open Verif.Target hiding MPath

/-- What the target shows in a cell: with `--safe` what it showed before, unless that was empty. -/
def shown (safe : Bool) (old new : Text) : Text := if safe = true ∧ old ≠ [] then old else new

/-- The text does not begin with a byte order mark. -/
def NoMark (t : Text) : Prop := t.head? ≠ some bom

theorem writeField_mark {f : Text} (h : NoMark f) : NoMark (writeField f) := by
  rw [writeField]
  split
  · rw [NoMark, List.cons_append, List.head?_cons]; decide
  · exact h

theorem mark_append {a b : Text} (ha : NoMark a) (hb : a = [] → NoMark b) : NoMark (a ++ b) := by
  cases a with
  | nil => exact hb rfl
  | cons c a => simpa [NoMark] using ha

theorem joinFields_mark {r : List Text} (h : ∀ f, r.head? = some f → NoMark f) : NoMark (joinFields r) := by
  cases r with
  | nil => rw [joinFields]; intro h; cases h
  | cons f r =>
    cases r with
    | nil => rw [joinFields]; exact writeField_mark (h f rfl)
    | cons g r =>
      rw [joinFields]
      exact mark_append (writeField_mark (h f rfl)) fun _ => by rw [NoMark, List.head?_cons]; decide

theorem writeRecord_mark {r : List Text} (h : ∀ f, r.head? = some f → NoMark f) : NoMark (writeRecord r) := by
  rw [writeRecord]
  refine mark_append ?_ fun _ => by rw [NoMark, List.head?_cons]; decide
  split
  · rw [NoMark, List.head?_cons]; decide
  · exact joinFields_mark h

theorem csvWrite_mark {rows : List (List Text)} (h : NoMark (cellAt rows 0 0)) : NoMark (csvWrite rows) := by
  cases rows with
  | nil => intro h; cases h
  | cons r rows =>
    rw [csvWrite, List.flatMap_cons]
    refine mark_append (writeRecord_mark fun f hf => ?_) fun h' => ?_
    · cases r with
      | nil => cases hf
      | cons g r => cases hf; exact h
    · simp [writeRecord] at h'

/-- The cells of the records that are written. -/
theorem records_at {safe : Bool} {s : Sheet} {file : Option Text} (i j : Nat) :
    cellAt (outputRows (!safe) (widestRow s) (readExisting file) 0 s.rows) i j =
      match sheetCell s i j with
      | some c => shown safe (cellAt (rowsOf file) i j) c.display
      | none => if i < s.rows.length ∧ ∃ r ∈ s.rows, j < r.cells.length then cellAt (rowsOf file) i j else [] := by
  by_cases hin : InSheet s i j
  · rw [output_at _ _ _ _ _ hin]
    cases hc : sheetCell s i j with
    | none => exact (if_pos hin).symm
    | some c =>
      simp only [shown]
      cases safe
      · simp
      · by_cases h : cellAt (rowsOf file) i j = [] <;> simp [h]
  · rw [output_outside _ _ _ _ _ hin]
    cases hc : sheetCell s i j with
    | none => exact (if_neg hin).symm
    | some c =>
      exfalso; apply hin
      rw [sheetCell, Option.bind_eq_some_iff] at hc
      obtain ⟨r, hr, hc⟩ := hc
      exact ⟨(List.getElem?_eq_some_iff.mp hr).1, r, List.mem_of_getElem? hr, (List.getElem?_eq_some_iff.mp hc).1⟩

/-- The file that is written for a sheet whose first cell, like that of the old file, does not begin with a byte order mark, does not either. -/
theorem written_mark {safe : Bool} {s : Sheet} {file : Option Text} (h0 : NoMark (cellAt (rowsOf file) 0 0))
    (hs : ∀ c, sheetCell s 0 0 = some c → NoMark c.display) : NoBom (!safe) s file := by
  apply csvWrite_mark
  rw [records_at]
  cases hc : sheetCell s 0 0 with
  | none =>
    simp only
    split
    · exact h0
    · intro h; cases h
  | some c =>
    simp only [shown]
    split
    · exact h0
    · exact hs c hc

/-- The rows `rows` are what the rows `rs` of the cells section mean. -/
def AreRows (E : Env) (rs : List RowSrc) (rows : List Row) : Prop :=
  rows.length = rs.length ∧ ∀ y r, rs[y]? = some r → ∃ row, rows[y]? = some row ∧ IsRow E y r row

/-- What the target shows for the rows `rows` when the formulas are evaluated with the definitions `sc`: each row as often as its fill says,
from top to bottom, each text as it is and each formula with its names resolved (at its position). -/
def Shows (sc : Scope) (safe : Bool) (rows : List Row) (old new : List (List Text)) : Prop :=
  new.length = total rows rows ∧
  (∀ before r after, rows = before ++ r :: after → ∀ i, i < copies rows r → ∀ x c, r.cells[x]? = some c →
    ∃ t, cellAt new (total rows before + i) x = shown safe (cellAt old (total rows before + i) x) t ∧
      (c.ast = none → t = c.value) ∧
      ∀ f, c.ast = some f → ∃ b, Eval sc (some ⟨x, total rows before + i⟩) f (.ok b) ∧ t = '=' :: Parser.display b) ∧
  -- right of the last cell of the row, the target keeps its cell or (right of the widest row, see C41) loses it
  ∀ before r after, rows = before ++ r :: after → ∀ i, i < copies rows r → ∀ x, r.cells.length ≤ x →
    cellAt new (total rows before + i) x = cellAt old (total rows before + i) x ∨ cellAt new (total rows before + i) x = []

/-- Some formula has an error. -/
def HasError (sc : Scope) (rows : List Row) : Prop :=
  ∃ before r after i x c f er, rows = before ++ r :: after ∧ i < copies rows r ∧ r.cells[x]? = some c ∧ c.ast = some f ∧
    Eval sc (some ⟨x, total rows before + i⟩) f (.err er)

/-- Row `y` of an expanded sheet is a copy of some row. -/
theorem expanded_row {rows : List Row} {s₁ : Sheet} (h : evalFills ⟨rows, false⟩ = some s₁) {y : Nat} {q : Row} (hq : s₁.rows[y]? = some q) :
    ∃ before r after i, rows = before ++ r :: after ∧ i < copies rows r ∧ y = total rows before + i ∧ q = placed (total rows before) r := by
  obtain ⟨h1, h2⟩ := C24_rows rows s₁ h
  have hy : y < total rows rows := by rw [← h1]; exact (List.getElem?_eq_some_iff.mp hq).1
  have key : ∀ (part done : List Row) (z : Nat), z < total rows part → ∃ before r after i, done ++ part = done ++ before ++ r :: after ∧
      i < copies rows r ∧ z = total rows before + i := by
    intro part
    induction part with
    | nil => intro _ z hz; simp [total] at hz
    | cons r part ih =>
      intro done z hz
      by_cases hlt : z < copies rows r
      · exact ⟨[], r, part, z, by simp, hlt, by simp [total]⟩
      · rw [total_cons] at hz
        obtain ⟨before, r', after, i, e1, e2, e3⟩ := ih (done ++ [r]) (z - copies rows r) (by omega)
        refine ⟨r :: before, r', after, i, by simpa using e1, e2, ?_⟩
        rw [total_cons]; omega
  obtain ⟨before, r, after, i, e1, e2, e3⟩ := key rows [] y hy
  simp only [List.nil_append] at e1
  refine ⟨before, r, after, i, e1, e2, e3, ?_⟩
  have := h2 before r after e1 i e2
  rw [← e3, hq] at this
  exact Option.some.inj this

section
variable {E : Env} {version : Nat} {ts : List Text} {partials : Text → List Text} {cuts : List Nat} {a : Args} {fs : FS Text} {files : Files Text}
  {mp : MPath} {p : Path} {kv : Text → Option Ast} {src : Text} {sc : Scope} {g : List (List Text)} {rs : List RowSrc}

/-- The first cell of the evaluated rows does not begin with a byte order mark. -/
theorem sheet_mark {rows : List Row} {s : Sheet} (hrows : AreRows E rs rows) (h1 : ∀ r ∈ rs, ∀ c ∈ r.cells, NoMark c.2)
    (hev : EvalSheet sc kv ⟨rows, false⟩ (.ok s)) : ∀ c, sheetCell s 0 0 = some c → NoMark c.display := by
  obtain ⟨e2, e3⟩ := hrows
  obtain ⟨s₁, _, _, _, _, _, hfill, -⟩ := id hev
  obtain ⟨-, hlen, hshape⟩ := C51_shape sc kv ⟨rows, false⟩ s₁ s hev hfill
  intro c hc
  rw [sheetCell, Option.bind_eq_some_iff] at hc
  obtain ⟨q', hq', hc⟩ := hc
  have hl : 0 < s₁.rows.length := by rw [← hlen]; exact (List.getElem?_eq_some_iff.mp hq').1
  obtain ⟨q'', m1, -, -, m4, m5⟩ := hshape 0 _ (List.getElem?_eq_getElem hl)
  rw [hq'] at m1; cases m1
  have hl' : 0 < (s₁.rows[0]).cells.length := by rw [← m4]; exact (List.getElem?_eq_some_iff.mp hc).1
  obtain ⟨c', n1, -, n2, -, n3, n4⟩ := m5 0 _ (List.getElem?_eq_getElem hl')
  rw [hc] at n1; cases n1
  rw [Cell.display]
  cases hast : c.ast with
  | some b => simp only [Parser.displayFormula]; intro h; cases h
  | none =>
    simp only
    rw [n2]
    obtain ⟨before, r, after, i, f1, f2, f3, f4⟩ := expanded_row hfill (List.getElem?_eq_getElem hl)
    have hin : s₁.rows[0].cells[0] ∈ r.cells := by
      have : s₁.rows[0].cells = r.cells := by rw [f4]; rfl
      rw [← this]; exact List.getElem_mem _
    have hidx : rows[before.length]? = some r := by rw [f1]; simp
    have hb' : before.length < rs.length := by rw [← e2, f1]; simp
    obtain ⟨row, g1, g2⟩ := e3 before.length _ (List.getElem?_eq_getElem hb')
    rw [hidx] at g1; cases g1
    have hmem : (s₁.rows[0].cells[0].opts, s₁.rows[0].cells[0].value, s₁.rows[0].cells[0].ast) ∈ r.cells.map (fun c => (c.opts, c.value, c.ast)) :=
      List.mem_map.mpr ⟨_, hin, rfl⟩
    rw [g2.cells] at hmem
    obtain ⟨c'', hc'', he⟩ := List.mem_map.mp hmem
    simp only [Prod.mk.injEq] at he
    rw [← he.2.1]
    exact h1 _ (List.getElem_mem _) c'' hc''

/-- What the target shows when the rows are evaluated. -/
theorem cells_shown {rows : List Row} {s : Sheet} {safe : Bool} {file : Option Text} (hrows : AreRows E rs rows)
    (h0 : NoMark (cellAt (rowsOf file) 0 0)) (h1 : ∀ r ∈ rs, ∀ c ∈ r.cells, NoMark c.2) (hev : EvalSheet sc kv ⟨rows, false⟩ (.ok s)) :
    ∃ s₁, evalFills ⟨rows, false⟩ = some s₁ ∧ Shows (effective sc kv s₁) safe rows (rowsOf file) (csvRead (writeCsv (!safe) s file)) := by
  obtain ⟨e2, e3⟩ := hrows
  obtain ⟨s₁, _, _, _, _, _, hfill, -⟩ := id hev
  obtain ⟨-, hlen, hshape⟩ := C51_shape sc kv ⟨rows, false⟩ s₁ s hev hfill
  obtain ⟨k1, k2⟩ := C24_rows rows s₁ hfill
  have hm := sheet_mark ⟨e2, e3⟩ h1 hev
  refine ⟨s₁, hfill, ?_, ?_, ?_⟩
  · rw [(C42_rectangular (ov := !safe) (s := s) (file := file) (written_mark h0 hm)).1, hlen, k1]
  · intro before r after he i hi x c hc
    have hq := k2 before r after he i hi
    obtain ⟨q', m1, -, -, m4, m5⟩ := hshape _ _ hq
    obtain ⟨c', n1, -, n2, -, n3, n4⟩ := m5 x c hc
    refine ⟨c'.display, ?_, ?_, ?_⟩
    · rw [new_at (written_mark h0 hm), records_at]
      have : sheetCell s (total rows before + i) x = some c' := by rw [sheetCell, m1]; exact n1
      rw [this]
    · intro ha; rw [Cell.display, n3 ha]; exact n2
    · intro f hf'
      obtain ⟨b, o1, o2⟩ := n4 f hf'
      exact ⟨b, o2, by rw [Cell.display, o1]; rfl⟩
  · intro before r after he i hi x hx
    have hq := k2 before r after he i hi
    obtain ⟨q', m1, -, -, m4, m5⟩ := hshape _ _ hq
    have : sheetCell s (total rows before + i) x = none := by
      rw [sheetCell, m1]; exact List.getElem?_eq_none (by rw [m4]; exact hx)
    rw [new_at (written_mark h0 hm), records_at, this]
    simp only
    split
    · exact .inl rfl
    · exact .inr rfl

/-- When they cannot be, some formula has an error. -/
theorem cells_error {rows : List Row} {pos : Addr} {er : EvalError} (h : EvalSheet sc kv ⟨rows, false⟩ (.err pos er)) {s₁ : Sheet}
    (hfill : evalFills ⟨rows, false⟩ = some s₁) : HasError (effective sc kv s₁) rows := by
  obtain ⟨q, c, f, m1, m2, m3, m4⟩ := C51_error_address sc kv _ s₁ pos er h hfill
  obtain ⟨before, r, after, i, f1, f2, f3, f4⟩ := expanded_row hfill m1
  subst f4
  exact ⟨before, r, after, i, pos.x, c, f, er, f1, f2, m2, m3, by rw [← f3]; exact m4⟩

/-- Every run on a source file with the definitions `sc` and the cells `rs`. -/
theorem main_cells (hs : Setup E a mp p kv) (hb : CanBackup ts a files p) (hf : Fresh fs mp src)
    (hcode : parseScope E (Source.SourceCode.new src).code = .ok (sc, []))
    (hg : Csvp.Spec.values (Csvp.parse ⟨',', (Source.SourceCode.new src).lenCode⟩ (Source.SourceCode.new src).csv) = some g)
    (ht : List.Forall₂ (RowText E) g rs) (hform : ∀ r ∈ rs, FormulaTexts E r) (h0 : NoMark (cellAt (rowsOf (files p)) 0 0))
    (h1 : ∀ r ∈ rs, ∀ c ∈ r.cells, NoMark c.2) :
    ∃ rows, AreRows E rs rows ∧ parseModule E src = .ok ⟨[], sc, ⟨rows, false⟩⟩ ∧ ∀ e states w, Main E version ts partials cuts a fs files e states w →
      (∀ x ∈ w, x.1 = mp) ∧
      ((∃ s₁ final out, evalFills ⟨rows, false⟩ = some s₁ ∧ e = some .success ∧ states.getLast? = some final ∧ Wrote files final p out ∧
          Shows (effective sc kv s₁) a.safe rows (rowsOf (files p)) (csvRead out)) ∨
        ((e = some .failure ∨ e = some .panic) ∧ states = [files] ∧
          (evalFills ⟨rows, false⟩ = none ∨ ∃ s₁, evalFills ⟨rows, false⟩ = some s₁ ∧ HasError (effective sc kv s₁) rows))) := by
  obtain ⟨rows, e1, e2, e3⟩ := sheet_parse hg ht hform
  have hp : parseModule E src = .ok ⟨[], sc, ⟨rows, false⟩⟩ := by rw [parseModule, hcode]; simp only [e1]
  refine ⟨rows, ⟨e2, e3⟩, hp, fun e states w h => ?_⟩
  obtain ⟨hw, ⟨s, final, hev, r1, r2, r3⟩ | ⟨r1, r2, r3⟩⟩ := main_alone hs hb hf hp rfl h
  · obtain ⟨s₁, hfill, hsh⟩ := cells_shown (safe := a.safe) (file := files p) ⟨e2, e3⟩ h0 h1 hev
    exact ⟨hw, .inl ⟨s₁, final, _, hfill, r1, r2, r3, hsh⟩⟩
  · refine ⟨hw, .inr ⟨r1, r2, ?_⟩⟩
    cases hfill : evalFills ⟨rows, false⟩ with
    | none => exact .inl rfl
    | some s₁ =>
      refine .inr ⟨s₁, rfl, ?_⟩
      rcases r3 with r3 | ⟨pos, er, r3⟩
      · rw [hfill] at r3; cases r3
      · exact cells_error r3 hfill
end

end Verif.Cli
