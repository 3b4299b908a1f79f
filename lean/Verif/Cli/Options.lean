import Verif.Cell.Order
import Verif.Cli.Alike
import Verif.Cli.Modules
/-
C108: how the options of rows and cells are written does not matter.
-/
namespace Verif.Cli
open Verif.Ast Verif.Loader Verif.Sheet Verif.Cache Verif.Csvp.Spec
open Verif.Cell hiding Target
open Verif.Target hiding MPath

/-! ## Specification -/

/-- The options that apply to a cell: those of its row but for the name of the row, and then its own. -/
def applied (es : List Cell.Entry) (ss : List Setting) : List Setting := (settings es).filter (fun s => s.attr ≠ .var) ++ ss

/-- Two rows say the same: the last name and the last fill of the row are the same, and the cells have the same text (or texts of the same formula) and options
that say the same, wherever they are written. -/
structure SameRow (E : Env) (r r' : RowSrc) : Prop where
  name : latest .var (settings r'.entries) = latest .var (settings r.entries)
  fill : (r'.entries.filterMap Sum.getRight?).getLast? = (r.entries.filterMap Sum.getRight?).getLast?
  cells : List.Forall₂ (fun c c' => (c'.2 = c.2 ∨ ∃ f, formulaOf E c.2 = some f ∧ formulaOf E c'.2 = some f) ∧
    SameOptions (applied r.entries c.1) (applied r'.entries c'.1)) r.cells r'.cells

/-- The source file has the code section `code` (without carriage returns and separators, but otherwise any text) and the cells section `csv`. -/
structure Sections (code csv src : Text) : Prop where
  lines : '\r' ∉ code ∧ ∀ l ∈ splitAt '\n' code, trim l ≠ "---".toList
  cells : '\r' ∉ csv
  text : ∃ t, Source.Ended csv t ∧ src = code ++ '\n' :: ("---".toList ++ '\n' :: t)

/-! ## Proofs -/

theorem settled_twice (ss ss' : List Setting) (o : Opts) : settled (ss ++ ss') o = settled ss' (settled ss o) := by
  unfold settled lastOr given
  simp only [List.foldl_append, List.any_append]
  congr 1
  · funext x; rw [Bool.or_comm (List.any ss _), Bool.or_assoc]
  · rw [Bool.or_comm (List.any ss _), Bool.or_assoc]
  · funext x; rw [Bool.or_comm (List.any ss _), Bool.or_assoc]

theorem lastOr_filter {α : Type} {f : Setting → Option α} (h : ∀ s, s.attr = .var → f s = none) (d : α) (ss : List Setting) :
    lastOr f d (ss.filter fun s => s.attr ≠ .var) = lastOr f d ss := by
  unfold lastOr
  induction ss generalizing d with
  | nil => rfl
  | cons s ss ih =>
    rw [List.filter_cons]
    by_cases e : s.attr = .var
    · simp only [e, ne_eq, not_true, decide_false, Bool.false_eq_true, if_false, List.foldl_cons, h s e, Option.getD_none]
      exact ih d
    · simp only [e, ne_eq, not_false_iff, decide_true, if_true, List.foldl_cons]
      exact ih _

theorem given_filter {f : Setting → Bool} (h : ∀ s, s.attr = .var → f s = false) (ss : List Setting) :
    given f (ss.filter fun s => s.attr ≠ .var) = given f ss :=
  given_congr fun s hs => by
    rw [List.mem_filter]
    refine ⟨fun h => h.1, fun h' => ⟨h', ?_⟩⟩
    simp only [ne_eq, decide_eq_true_eq]
    intro e
    rw [h s e] at hs; cases hs

theorem lastOr_var (d : Option Text) (ss : List Setting) :
    lastOr (fun | .var c => some (some c) | _ => none) d (ss.filter fun s => s.attr ≠ .var) = d := by
  unfold lastOr
  induction ss with
  | nil => rfl
  | cons s ss ih =>
    rw [List.filter_cons]
    cases s <;> exact ih

theorem withoutVar_settled (ss : List Setting) : withoutVar (settled ss {}) = settled (ss.filter fun s => s.attr ≠ .var) {} := by
  have no : ∀ {α : Type} {f : Setting → Option α}, (∀ t, f (.var t) = none) → ∀ s, s.attr = .var → f s = none := by
    intro α f h s hs
    cases s <;> first | exact h _ | cases hs
  have no' : ∀ {f : Setting → Bool}, (∀ t, f (.var t) = false) → ∀ s, s.attr = .var → f s = false := by
    intro f h s hs
    cases s <;> first | exact h _ | cases hs
  unfold withoutVar settled
  congr 1
  all_goals first
    | exact (lastOr_filter (no fun _ => rfl) _ _).symm
    | exact (congrArg (· || _) (given_filter (no' fun _ => rfl) _)).symm
    | (funext x; exact (congrArg (· || _) (given_filter (no' fun _ => rfl) _)).symm)
    | exact (lastOr_var _ _).symm

theorem settled_applied (es : List Cell.Entry) (ss : List Setting) : settled ss (withoutVar (settled (settings es) {})) = settled (applied es ss) {} := by
  rw [withoutVar_settled, applied, settled_twice]

theorem var_settled (ss : List Setting) : (settled ss {}).var = ((latest .var ss).bind fun | .var c => some (some c) | _ => none).getD none :=
  lastOr_latest (k := .var) (fun s h => by cases s <;> first | rfl | exact absurd rfl h) (fun s h => by cases s <;> first | rfl | cases h) _ _

theorem SameRow.alike {E : Env} {y : Nat} {r r' : RowSrc} {row row' : Row} (h : SameRow E r r') (hr : IsRow E y r row) (hr' : IsRow E y r' row') :
    AlikeRow row row' := by
  refine ⟨?_, ?_, ?_⟩
  · rw [hr.opts, hr'.opts, var_settled, var_settled, h.name]
  · rw [hr.fill, hr'.fill, filled, filled, h.fill]
  · have e1 : row.cells.map visible = r.cells.map fun c =>
        (settled (applied r.entries c.1) {}, formulaOf E c.2, if (formulaOf E c.2).isSome then [] else c.2) := by
      have := congrArg (List.map fun (x : Opts × Text × Option Ast) => (x.1, x.2.2, if x.2.2.isSome then [] else x.2.1)) hr.cells
      rw [List.map_map, List.map_map] at this
      refine this.trans (List.map_congr_left fun c _ => ?_)
      simp only [Function.comp, hr.opts, settled_applied]
    have e2 : row'.cells.map visible = r'.cells.map fun c =>
        (settled (applied r'.entries c.1) {}, formulaOf E c.2, if (formulaOf E c.2).isSome then [] else c.2) := by
      have := congrArg (List.map fun (x : Opts × Text × Option Ast) => (x.1, x.2.2, if x.2.2.isSome then [] else x.2.1)) hr'.cells
      rw [List.map_map, List.map_map] at this
      refine this.trans (List.map_congr_left fun c _ => ?_)
      simp only [Function.comp, hr'.opts, settled_applied]
    rw [e1, e2]
    have hc := h.cells
    revert hc
    generalize r.cells = A, r'.cells = B
    intro hc
    induction hc with
    | nil => rfl
    | cons hc _ ih =>
      obtain ⟨h1, h2⟩ := hc
      rw [List.map_cons, List.map_cons, ih, settled_same h2]
      rcases h1 with h1 | ⟨f, h1, h3⟩
      · rw [h1]
      · rw [h1, h3]; rfl

theorem rows_alike {E : Env} {rs rs' : List RowSrc} {rows rows' : List Row} (h : List.Forall₂ (SameRow E) rs rs') (h1 : AreRows E rs rows) (h2 : AreRows E rs' rows') :
    List.Forall₂ AlikeRow rows rows' := by
  refine forall₂_of (by rw [h1.1, h2.1]; exact h.length_eq.symm) fun y r r' k1 k2 => ?_
  have hy : y < rs.length := by rw [← h1.1]; exact (List.getElem?_eq_some_iff.mp k1).1
  obtain ⟨q, m1, m2⟩ := h1.2 y _ (List.getElem?_eq_getElem hy)
  obtain ⟨q', m3, m4⟩ := forall₂_get h (List.getElem?_eq_getElem hy)
  obtain ⟨q'', m5, m6⟩ := h2.2 y _ m3
  rw [k1] at m1; cases m1
  rw [k2] at m5; cases m5
  exact m4.alike m2 m6

section
variable {E : Env} {code csv csv' src src' : Text} {rs rs' : List RowSrc}

theorem same_parsed (h1 : Sections code csv src) (h2 : CellsSection E csv rs) (h1' : Sections code csv' src') (h2' : CellsSection E csv' rs')
    (h : List.Forall₂ (SameRow E) rs rs') : ParsedAlike E src src' := by
  have sp : ∀ {csv src : Text} {rs : List RowSrc}, Sections code csv src → CellsSection E csv rs → (Source.SourceCode.new src).code = some code ∧
      ∃ rows, Sheet.parse E (Source.SourceCode.new src).csv (Source.SourceCode.new src).lenCode = .ok ⟨rows, false⟩ ∧ AreRows E rs rows := by
    rintro csv src rs ⟨⟨k1, k2⟩, k3, t, k4, rfl⟩ ⟨⟨g, hg, ht⟩, hform⟩
    obtain ⟨m1, m2, -⟩ := Source.split_source code "---".toList csv t k1 k2 (by decide) (by decide) (by decide) k3 k4
    refine ⟨m1, ?_⟩
    rw [m2]
    exact sheet_parse (by rw [Csvp.values_parse]; rw [Csvp.values_parse] at hg; exact hg) ht hform
  obtain ⟨c1, rows, p1, r1⟩ := sp h1 h2
  obtain ⟨c2, rows', p2, r2⟩ := sp h1' h2'
  cases hs : parseScope E (some code) with
  | error e =>
    exact .bad (e := []) (e' := []) (by rw [parseModule, c1, hs]) (by rw [parseModule, c2, hs])
  | ok x =>
    obtain ⟨sc, req⟩ := x
    exact .good (req := req) (sc := sc) (rows := rows) (rows' := rows') (by rw [parseModule, c1, hs]; simp only [p1]) (by rw [parseModule, c2, hs]; simp only [p2])
      (rows_alike h r1 r2)

/-- C108, programs: when the options of rows and cells are written in another way that says the same, the program ends in the same way, with the same target files on
the way (CSV and Excel), and the same requests are sent to Google Sheets.  Whatever the code is, and the modules that it uses. -/
theorem C108_program {fs fs' : FS Text} {mp : MPath} {a : Args} (h1 : Sections code csv src) (h2 : CellsSection E csv rs) (h1' : Sections code csv' src')
    (h2' : CellsSection E csv' rs') (h : List.Forall₂ (SameRow E) rs rs') (hf : Respelled fs fs' mp src src') (hm : mainModulePath a.inputFilename = some mp)
    (version : Nat) (ts : List Text) :
    (∀ partials cuts files e states, (∃ w, Main E version ts partials cuts a fs files e states w) ↔ ∃ w, Main E version ts partials cuts a fs' files e states w) ∧
    (∀ partials between den files e states, (∃ w, MainExcel E version ts partials between den a fs files e states w) ↔
      ∃ w, MainExcel E version ts partials between den a fs' files e states w) ∧
    ∀ useCache kv overwrite offset rows sent, (∃ s w, Compile (parseModule E) version useCache kv fs mp (.ok s) w ∧ requests overwrite offset s rows = sent) ↔
      ∃ s w, Compile (parseModule E) version useCache kv fs' mp (.ok s) w ∧ requests overwrite offset s rows = sent := by
  have hp := same_parsed h1 h2 h1' h2' h
  have e1 : ∀ (cuts : List Nat) (c : Config) (s t : Sheet), List.Forall₂ Seen s.rows t.rows → csvTarget c.overwrite cuts t = csvTarget c.overwrite cuts s := by
    intro cuts c s t hst
    funext file
    simp only [csvTarget, writeCsv_seen hst]
  have e2 : ∀ den between (c : Config) (s t : Sheet), List.Forall₂ Seen s.rows t.rows → excelTarget den between c t = excelTarget den between c s := by
    intro den between c s t hst
    funext file
    simp only [excelTarget, writeExcel_seen hst]
  refine ⟨fun partials cuts files e states => ⟨fun ⟨w, hr⟩ => main_alike (e1 cuts) hf hm hp hr, fun ⟨w, hr⟩ => main_alike (e1 cuts) hf.symm hm hp.symm hr⟩,
    fun partials between den files e states => ⟨fun ⟨w, hr⟩ => main_alike (e2 den between) hf hm hp hr, fun ⟨w, hr⟩ => main_alike (e2 den between) hf.symm hm hp.symm hr⟩,
    fun useCache kv overwrite offset rows sent => ⟨?_, ?_⟩⟩
  · rintro ⟨s, w, k1, k2⟩
    obtain ⟨o', w', g1, g2⟩ := compile_alike hf hp k1
    cases g2 with
    | ok g2 => exact ⟨_, _, g1, by rw [requests_seen g2, k2]⟩
  · rintro ⟨s, w, k1, k2⟩
    obtain ⟨o', w', g1, g2⟩ := compile_alike hf.symm hp.symm k1
    cases g2 with
    | ok g2 => exact ⟨_, _, g1, by rw [requests_seen g2, k2]⟩

end
end Verif.Cli
