import Verif.Cli.Alone
import Verif.Cell.Props
import Verif.Csvp.Props
/-
The cells section as it is written, and what it is parsed to.
-/
namespace Verif.Cli
open Verif.Ast Verif.Loader Verif.Sheet Verif.Cache
open Verif.Cell hiding Target
open Verif.Target hiding MPath

/-- A row as it is written: the entries of its row option lists, and for every cell the settings of its option list and the text. -/
structure RowSrc where
  entries : List Cell.Entry
  cells : List (List Setting × Text)

/-- The texts of the fields of the row. -/
inductive RowText (E : Env) : List Text → RowSrc → Prop
  | mk {t es ss v ts cs} : FirstText E t es ss v → List.Forall₂ (fun t c => CellText E t c.1 c.2) ts cs →
      RowText E (t :: ts) ⟨es, (ss, v) :: cs⟩

/-- The formula of a cell with the text. -/
def formulaOf (E : Env) (v : Text) : Option Ast :=
  if v.head? = some '=' then (Parser.parse E.uni E.f64 v).toOption else none

/-- All texts that begin with `=` are formulas. -/
def FormulaTexts (E : Env) (r : RowSrc) : Prop :=
  ∀ c ∈ r.cells, c.2.head? = some '=' → ∃ a, Parser.parse E.uni E.f64 c.2 = .ok a

/-- `row` is what row `y` of the cells section, written as `r`, means. -/
structure IsRow (E : Env) (y : Nat) (r : RowSrc) (row : Row) : Prop where
  opts : row.opts = settled (settings r.entries) {}
  fill : row.fill = filled y r.entries none
  cells : row.cells.map (fun c => (c.opts, c.value, c.ast)) =
    r.cells.map fun c => (settled c.1 (withoutVar row.opts), c.2, formulaOf E c.2)

theorem cellsLoop_ast {E : Env} {row row' : RowS} {fs : List Csvp.Field} {cells : List Cell}
    (h : cellsLoop E row fs = .ok (row', cells)) : ∀ c ∈ cells, parseAst E c.value = .ok c.ast := by
  induction fs generalizing row row' cells with
  | nil => cases h; simp
  | cons f fs ih =>
    rw [cellsLoop] at h
    split at h
    · cases h
    · rename_i c h1
      split at h
      · cases h
      · rename_i row'' cs h2
        cases h
        intro d hd
        rcases List.mem_cons.mp hd with rfl | hd
        · exact (cellParse_inv h1).2.choose_spec.2
        · exact ih h2 d hd

theorem parseAst_formulaOf {E : Env} {v : Text} {a : Option Ast} (h : parseAst E v = .ok a) : a = formulaOf E v := by
  cases v with
  | nil => cases h; rfl
  | cons c v =>
    by_cases hc : c = '='
    · subst hc
      rw [formulaOf, if_pos (by rfl)]
      simp only [parseAst] at h
      split at h
      · rename_i b hb; cases h; rw [hb]; rfl
      · cases h
    · rw [formulaOf, if_neg (by simpa using hc)]
      have : parseAst E (c :: v) = .ok none := by
        rw [parseAst]
        rintro r h'; exact hc (List.cons.inj h').1
      rw [this] at h; cases h; rfl

/-- A row is parsed to what it means. -/
theorem rowParse_isRow {E : Env} {y : Nat} {r : RowSrc} {fs : List Csvp.Field} (ht : RowText E (fs.map (·.value)) r)
    (hy : ∀ f, fs.head? = some f → f.addr = ⟨0, y⟩) (hf : FormulaTexts E r) : ∃ row, rowParse E fs = .ok row ∧ IsRow E y r row := by
  cases fs with
  | nil => cases ht
  | cons f fs =>
    obtain ⟨es, cells⟩ := r
    cases ht with
    | @mk t _ ss v ts cs h1 h2 =>
      have ha := hy f rfl
      have h2' : List.Forall₂ (fun f c => CellText E f.value c.1 c.2) fs cs := List.forall₂_map_left_iff.mp h2
      obtain ⟨row, p1, p2, p3, p4, p5⟩ := C28_row E f fs es ss v cs (by rw [ha]) h1 h2' (by
        intro w hw he
        rcases List.mem_cons.mp hw with rfl | hw
        · exact hf (ss, w) List.mem_cons_self he
        · obtain ⟨c, hc, rfl⟩ := List.mem_map.mp hw
          exact hf c (List.mem_cons_of_mem _ hc) he)
      refine ⟨row, p1, p2, by rw [p3, ha], ?_⟩
      have hast : ∀ c ∈ row.cells, c.ast = formulaOf E c.value := by
        rw [rowParse] at p1
        split at p1
        · cases p1
        · rename_i h; cases p1
          intro c hc
          exact parseAst_formulaOf (cellsLoop_ast h c hc)
      have e1 : row.cells.map (fun c => (c.opts, c.value, c.ast)) = row.cells.map fun c => (c.opts, c.value, formulaOf E c.value) :=
        List.map_congr_left fun c hc => by rw [hast c hc]
      rw [e1]
      have e2 : row.cells.map (fun c => (c.opts, c.value, formulaOf E c.value)) =
          ((row.cells.map (·.opts)).zip (row.cells.map (·.value))).map fun p => (p.1, p.2, formulaOf E p.2) := by
        rw [List.zip_map', List.map_map]; rfl
      rw [e2, p4, p5]
      have e3 : v :: cs.map (·.2) = ((ss, v) :: cs).map (·.2) := rfl
      have e4 : (ss :: cs.map (·.1)).map (fun s => settled s (withoutVar row.opts)) = ((ss, v) :: cs).map fun c => settled c.1 (withoutVar row.opts) := by
        simp
      rw [e3, e4, List.zip_map', List.map_map]; rfl

theorem rowsLoop_rows {E : Env} {rs : List RowSrc} {recs : List (List Csvp.Field)} (ht : List.Forall₂ (RowText E) (recs.map fun r => r.map (·.value)) rs)
    (hf : ∀ r ∈ rs, FormulaTexts E r) (k : Nat) (hy : ∀ (y : Nat) (r : List Csvp.Field) (f : Csvp.Field), recs[y]? = some r → r.head? = some f → f.addr = ⟨0, k + y⟩) :
    ∃ rows, rowsLoop E recs = .ok rows ∧ rows.length = rs.length ∧ ∀ y r, rs[y]? = some r → ∃ row, rows[y]? = some row ∧ IsRow E (k + y) r row := by
  induction recs generalizing rs k with
  | nil => cases ht; exact ⟨[], rfl, rfl, by simp⟩
  | cons rec recs ih =>
    cases ht with
    | @cons _ r _ rs h1 h2 =>
      obtain ⟨row, e1, e2⟩ := rowParse_isRow h1 (y := k) (fun f h => by have := hy 0 rec f rfl h; simpa using this) (hf r List.mem_cons_self)
      obtain ⟨rows, e3, e4, e5⟩ := ih h2 (fun r h => hf r (List.mem_cons_of_mem _ h)) (k + 1) (fun y r f h h' => by
        have := hy (y + 1) r f (by simpa using h) h'
        rw [this]; congr 1; omega)
      refine ⟨row :: rows, by simp only [rowsLoop, e1, e3], by simp [e4], ?_⟩
      intro y r' hr
      cases y with
      | zero => simp only [List.getElem?_cons_zero, Option.some.injEq] at hr; subst hr; exact ⟨row, rfl, e2⟩
      | succ y =>
        rw [List.getElem?_cons_succ] at hr
        obtain ⟨row', h3, h4⟩ := e5 y r' hr
        refine ⟨row', by simpa using h3, ?_⟩
        rwa [show k + (y + 1) = k + 1 + y by omega]

/-- A cells section whose fields are the texts of the rows `rs` is parsed to what they mean. -/
theorem sheet_parse {E : Env} {csv : Text} {n : Nat} {g : List (List Text)} {rs : List RowSrc}
    (hg : Csvp.Spec.values (Csvp.parse ⟨',', n⟩ csv) = some g) (ht : List.Forall₂ (RowText E) g rs) (hf : ∀ r ∈ rs, FormulaTexts E r) :
    ∃ rows, Sheet.parse E csv n = .ok ⟨rows, false⟩ ∧ rows.length = rs.length ∧
      ∀ y r, rs[y]? = some r → ∃ row, rows[y]? = some row ∧ IsRow E y r row := by
  cases hp : Csvp.parse ⟨',', n⟩ csv with
  | error e => rw [hp] at hg; cases hg
  | ok recs =>
    rw [hp] at hg
    simp only [Csvp.Spec.values, Option.some.injEq] at hg
    subst hg
    obtain ⟨rows, e1, e2, e3⟩ := rowsLoop_rows ht hf 0 (fun y r f h h' => by
      have := Csvp.C02_addresses _ _ _ hp y 0 r f h (by rw [← List.head?_eq_getElem?]; exact h')
      rw [this, Nat.zero_add])
    refine ⟨rows, by rw [Sheet.parse, hp]; simp only [e1], e2, ?_⟩
    intro y r hr
    obtain ⟨row, h1, h2⟩ := e3 y r hr
    exact ⟨row, h1, by rwa [Nat.zero_add] at h2⟩

/-- A row without options. -/
def plainRow (vs : List Text) : RowSrc := ⟨[], vs.map fun v => ([], v)⟩

theorem cellText_plain {E : Env} {v : Text} (h1 : trim v = v) (h2 : NoList v) : CellText E v [] v :=
  ⟨[], v, W_nil, fun d hd => by rw [← h1] at hd; exact Csvp.trim_head _ _ hd, h2, h1.symm, .inl ⟨rfl, rfl⟩⟩

theorem rowText_plain {E : Env} {vs : List Text} (hne : vs ≠ []) (h : ∀ v ∈ vs, trim v = v ∧ NoList v) : RowText E vs (plainRow vs) := by
  cases vs with
  | nil => exact absurd rfl hne
  | cons v vs =>
    refine .mk (.cell (cellText_plain (h v List.mem_cons_self).1 (h v List.mem_cons_self).2)) ?_
    rw [List.forall₂_map_right_iff, List.forall₂_same]
    exact fun w hw => cellText_plain (h w (List.mem_cons_of_mem _ hw)).1 (h w (List.mem_cons_of_mem _ hw)).2

end Verif.Cli
