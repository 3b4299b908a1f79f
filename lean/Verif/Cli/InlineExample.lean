import Verif.Cli.Inline
import Verif.Cli.MeaningExample
/-
A concrete case of C107: a call of a function with a named cell, in a fill.
-/
namespace Verif.Cli
open Verif.Ast Verif.Loader Verif.Sheet Verif.Cache Verif.Csvp.Spec
open Verif.Cell hiding Target
open Verif.Target hiding MPath
open Verif.Parser (Stmt Line codeText stmts)

theorem fill_clear (E : Env) {sc : Scope} (d1 : Defines (stmts fillLines) sc) {rows : List Row} (d2 : AreRows E [fillRow] rows) {s₁ : Sheet}
    (hs₁ : evalFills ⟨rows, false⟩ = some s₁) : AllClear (effective sc (collect []) s₁) rows := by
  obtain ⟨row, rfl⟩ : ∃ row, rows = [row] := List.length_eq_one_iff.mp d2.1
  obtain ⟨row', r1, r2⟩ := d2.2 0 fillRow rfl
  cases r1
  have hfill : row.fill = some ⟨some 2, 0⟩ := r2.fill
  have hopts : row.opts = {} := r2.opts
  obtain ⟨c₀, c₁, hcells⟩ : ∃ c₀ c₁, row.cells = [c₀, c₁] := by
    have := congrArg List.length r2.cells
    rw [List.length_map, List.length_map] at this
    exact List.length_eq_two.mp this
  have hc := r2.cells
  rw [hcells, hopts] at hc
  simp only [List.map_cons, List.map_nil, fillRow, List.cons.injEq, Prod.mk.injEq, and_true] at hc
  obtain ⟨⟨o0, v0, a0⟩, o1, v1, a1⟩ := hc
  have a0' : c₀.ast = none := by rw [a0]; rfl
  have a1' : c₁.ast = some (.call "double".toList [.ref "price".toList]) := by
    rw [a1, formulaOf, if_pos (by decide), fill_formula]; rfl
  have n0 : c₀.opts.var = some "price".toList := by rw [o0]; rfl
  have n1 : c₁.opts.var = none := by rw [o1]; rfl
  have hcop : copies [row] row = 2 := by
    have hb : ¬ Unbounded row := by rintro ⟨y, hy⟩; rw [hfill] at hy; cases hy
    rw [copies, if_neg hb, boundedCopies, hfill]
  have htot : total [row] [] = 0 := rfl
  have hscope : ∀ (x i : Nat), i < 2 → FillScope (effective sc (collect []) s₁) ⟨x, i⟩ (cellRef 0 i) := by
    intro x i hi
    refine ⟨fun g => ?_, fun x hx => ?_, ?_⟩
    · show sc.functions g = _
      rw [d1.functions]
      simp only [fillLines, stmts, List.filterMap_cons, List.filterMap_nil, Stmt.function?]
      by_cases hg : g = "double".toList
      · subst hg; rfl
      · rw [if_neg (Ne.symm hg), if_neg hg]; rfl
    · show (sc.variables x).or ((sheetVars s₁ x).or none) = none
      rw [d1.vars, sheetVars_none hs₁]
      · rfl
      · intro r hr
        obtain rfl := List.mem_singleton.mp hr
        rw [names, hcells, hopts]
        simp only [List.filterMap_cons, List.filterMap_nil, n0, n1]
        simpa using hx
    · obtain ⟨val, e1, e2⟩ := C23_means [row] s₁ hs₁ "price".toList ⟨x, i⟩ (cellRef 0 i) (.sameCell (before := []) (r := row) (x := 0) ⟨[], rfl, by simp⟩
        ⟨⟨c₀, by rw [hcells]; rfl, n0⟩, fun x' c hx' hc' => by
          rw [hcells] at hc'
          match x', hx' with
          | 1, _ => cases hc'; rw [n1]; simp
          | x' + 2, _ => cases hc'⟩
        (by rw [hfill]; rfl)
        (by
          intro f hf y
          rw [placed, hfill] at hf
          cases hf
          rw [InCopies, htot, hcop, fillRange]
          constructor
          · rintro ⟨a, b, hab, h1, h2⟩; cases hab; exact ⟨h1, by have h3 : y ≤ 1 := h2; omega⟩
          · rintro ⟨h1, h2⟩; exact ⟨0, 1, rfl, h1, by omega⟩)
        (by rw [InCopies, htot, hcop]; simpa using hi))
      refine ⟨.cellVar "price".toList val, ?_, e2⟩
      show (sc.variables "price".toList).or ((sheetVars s₁ "price".toList).or none) = _
      rw [d1.vars, e1]; rfl
  have hcell : ∀ i, i < 2 → cellRef 0 i ≠ "price".toList ∧ cellRef 0 i ≠ "n".toList := by
    intro i hi
    have : i = 0 ∨ i = 1 := by omega
    rcases this with rfl | rfl <;> decide +kernel
  show AllClear (effective sc (collect []) s₁) [row]
  intro before r after i x c f e1 e2 e3 e4
  obtain ⟨rfl, rfl, rfl⟩ : before = [] ∧ r = row ∧ after = [] := by
    cases before with
    | nil => simp only [List.nil_append, List.cons.injEq] at e1; exact ⟨rfl, e1.1.symm, e1.2.symm⟩
    | cons b bs =>
      simp only [List.cons_append, List.cons.injEq] at e1
      exact absurd e1.2 (by simp)
  rw [hcop] at e2
  rw [hcells] at e3
  rw [htot, Nat.zero_add]
  match x with
  | 0 => cases e3; rw [a0'] at e4; cases e4
  | 1 =>
    cases e3; rw [a1'] at e4; cases e4
    exact ⟨_, _, (hscope 1 i e2).clear (hcell i e2).1 (hcell i e2).2⟩
  | x + 2 => cases e3

/-- The formula with the call replaced by the body of the function. -/
def inlinedText : Text := "fn double(n) (n * 2)\n---\n![[fill=2]][[v=price]]3,=(price * 2)\n".toList

def inlinedCells : Text := "![[fill=2]][[v=price]]3,=(price * 2)".toList

def inlinedRow : RowSrc := ⟨[.inr (some 2)], [([.var "price".toList], "3".toList), ([], "=(price * 2)".toList)]⟩

theorem inlined_formula (E : Env) : Parser.parse E.uni E.f64 "=(price * 2)".toList = .ok (.infix (.ref "price".toList) "*".toList (.int false none 2)) :=
  Parser.C12_display_parses E.uni E.f64 (.infix (.ref "price".toList) "*".toList (.int false none 2))
    (.infix (by decide) (.ref (Parser.name_ascii E.uni (by decide)).1 (by decide)) (.int (v := 2) (by decide)))

theorem inlined_file (E : Env) : SourceFile E fillLines inlinedCells inlinedText :=
  ⟨(fill_file E).lines, (fill_file E).uses, by decide +kernel, by decide +kernel, by decide, "![[fill=2]][[v=price]]3,=(price * 2)\n".toList, .inl (by decide), by decide +kernel⟩

theorem inlined_rowText (E : Env) : RowText E ["![[fill=2]][[v=price]]3".toList, "=(price * 2)".toList] inlinedRow := by
  have := fill_rowText E
  cases this with
  | mk h _ => exact RowText.mk h (.cons (cellText_plain (by decide) (by unfold NoList; decide)) .nil)

/-- Exactly the same contents can be written to the target. -/
example (E : Env) (version : Nat) (out : Text) :
    (∃ states w final, Main E version [] (fun _ => []) [] (exampleArgs false []) (exampleFs fillText) exampleFiles (some .success) states w ∧
      states.getLast? = some final ∧ Wrote exampleFiles final (Path.ofText "out.csv".toList) out) ↔
    ∃ states w final, Main E version [] (fun _ => []) [] (exampleArgs false []) (exampleFs inlinedText) exampleFiles (some .success) states w ∧
      states.getLast? = some final ∧ Wrote exampleFiles final (Path.ofText "out.csv".toList) out := by
  obtain ⟨sc, sc', d1, d1', h⟩ := C107_program version [] (fun _ => []) [] (files := exampleFiles) (exampleSetup E false [] [] rfl) (by intro h; cases h) (fill_file E)
    (exampleFresh fillText) (rs := [fillRow]) ⟨⟨_, fill_cells, .cons (fill_rowText E) .nil⟩, by
      intro r hr c hc he
      obtain rfl := List.mem_singleton.mp hr
      simp only [fillRow, List.mem_cons, List.not_mem_nil, or_false] at hc
      rcases hc with rfl | rfl
      · exact absurd he (by decide)
      · exact ⟨_, fill_formula E⟩⟩
    (inlined_file E) (exampleFresh inlinedText) (rs' := [inlinedRow]) ⟨⟨_, show Csvp.Spec.values (Csvp.parse ⟨',', 0⟩ inlinedCells) = some [["![[fill=2]][[v=price]]3".toList, "=(price * 2)".toList]] by decide,
      .cons (inlined_rowText E) .nil⟩, by
      intro r hr c hc he
      obtain rfl := List.mem_singleton.mp hr
      simp only [inlinedRow, List.mem_cons, List.not_mem_nil, or_false] at hc
      rcases hc with rfl | rfl
      · exact absurd he (by decide)
      · exact ⟨_, inlined_formula E⟩⟩
  have hf : ∀ g, sc'.functions g = sc.functions g := fun g => by rw [d1.functions, d1'.functions]
  have hv : ∀ x, sc'.variables x = sc.variables x := fun x => by rw [d1.vars, d1'.vars]
  refine h ⟨fun x => by rw [hv], fun g => by rw [hf], fun x n a hx => ⟨a, by rw [hv]; exact hx, .same⟩, fun g n ps b hg => ⟨b, by rw [hf]; exact hg, .same⟩⟩
    (.cons ⟨rfl, .cons ⟨rfl, .inl rfl⟩ (.cons ⟨rfl, .inr ⟨.call "double".toList [.ref "price".toList], .infix (.ref "price".toList) "*".toList (.int false none 2), ?_, ?_, ?_⟩⟩ .nil)⟩ .nil)
    (fun rows s₁ hr hs => fill_clear E d1 hr hs) out
  · show formulaOf E "=double(price)".toList = _
    rw [formulaOf, if_pos (by decide), fill_formula]; rfl
  · show formulaOf E "=(price * 2)".toList = _
    rw [formulaOf, if_pos (by decide), inlined_formula]; rfl
  · refine .body (nm := "double".toList) (qs := ["n".toList]) (b := .infix (.ref "n".toList) "*".toList (.int false none 2)) ?_ rfl .same
    rw [d1.functions]
    rfl

end Verif.Cli
