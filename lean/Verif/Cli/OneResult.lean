import Verif.Cli.Unsettled
/-
Sheets whose formulas are free of trouble have one evaluation (C52).
-/
namespace Verif.Cli
open Verif.Ast Verif.Loader Verif.Sheet Verif.Cache Verif.Csvp.Spec
open Verif.Cell hiding Target
open Verif.Target hiding MPath

section
variable {E : Env} {sc : Scope} {kvs : List (Text × Ast)} {rows : List Row} {s₁ : Sheet}

theorem clear_formula (hps : ParsedScope E sc) (hk : ∀ d ∈ kvs, Parser.Parsed E.uni E.f64 d.2) (hpl : ∀ r ∈ rows, ∀ c ∈ r.cells, ∀ f, c.ast = some f → plain f)
    (hs : evalFills ⟨rows, false⟩ = some s₁) (hc : AllClear (effective sc (collect kvs) s₁) rows) {y x : Nat} {r : Row} {c : Cell} {f : Ast} (hr : s₁.rows[y]? = some r)
    (hx : r.cells[x]? = some c) (hf : c.ast = some f) : ∃ b, ∀ o, Eval (effective sc (collect kvs) s₁) (some ⟨x, y⟩) f o ↔ o = .ok b := by
  obtain ⟨before, q, after, i, h1, h2, h3, h4⟩ := expanded_row hs hr
  subst h4
  rw [show (placed (total rows before) q).cells = q.cells from rfl] at hx
  have hq : q ∈ rows := by rw [h1]; simp
  obtain ⟨order, P, hcl⟩ := hc before q after i x c f h1 h2 hx hf
  rw [← h3] at hcl
  obtain ⟨-, b, -, -, hb⟩ := C21_meaning_partial _ _ order P (effective_wf hps hk s₁ ⟨x, y⟩) hcl.acyclic hcl.hygienic hcl.apart hcl.arityVars hcl.arityFns f
    (hpl q hq c (List.mem_of_getElem? hx) f hf) hcl.params hcl.formula hcl.arity
  exact ⟨b, hb⟩

/-- C52 (partial: if the formulas are free of trouble): a sheet can be evaluated, and every evaluation, whatever the schedule and the hash orders, ends in the same way. -/
theorem C52_clear_partial (hps : ParsedScope E sc) (hk : ∀ d ∈ kvs, Parser.Parsed E.uni E.f64 d.2) (hpl : ∀ r ∈ rows, ∀ c ∈ r.cells, ∀ f, c.ast = some f → plain f)
    (hs : evalFills ⟨rows, false⟩ = some s₁) (hc : AllClear (effective sc (collect kvs) s₁) rows) :
    ∃ s, ∀ o, EvalSheet sc (collect kvs) ⟨rows, false⟩ o ↔ o = .ok s := by
  obtain ⟨own, hown⟩ := hps.finite
  obtain ⟨e, he⟩ := isEnum_collect kvs
  obtain ⟨s, hex⟩ := evalSheet_exists hs hown he fun y r x c f hr hx hf => by
    obtain ⟨b, hb⟩ := clear_formula hps hk hpl hs hc hr hx hf
    exact ⟨b, (hb _).mpr rfl⟩
  refine ⟨s, fun o => ⟨fun ho => ?_, fun ho => by rw [ho]; exact hex⟩⟩
  cases o with
  | ok t =>
    rw [sheet_unique hs ho hex fun y r x c f hr hx hf f₁ f₂ k1 k2 => ?_]
    obtain ⟨b, hb⟩ := clear_formula hps hk hpl hs hc hr hx hf
    cases (hb _).mp k1; cases (hb _).mp k2; rfl
  | panic => exact (C51_no_panic _ _ _ ho).elim
  | err p e =>
    obtain ⟨r, c, f, e1, e2, e3, e4⟩ := C51_error_address _ _ _ s₁ p e ho hs
    obtain ⟨b, hb⟩ := clear_formula hps hk hpl hs hc e1 e2 e3
    cases (hb _).mp e4
end

section
variable {E : Env} {a : Args} {fs : FS Text} {files : Files Text} {mp : MPath} {p : Path} {kv : Text → Option Ast}
  {ls : List Parser.Line} {csv src : Text} {rs : List RowSrc}

/-- C52, the program (partial: a source file without use lines whose formulas are free of trouble): every run succeeds and writes the same text. -/
theorem C52_program_partial (version : Nat) (ts : List Text) (partials : Text → List Text) (cuts : List Nat) (hs : Setup E a mp p kv) (hb : CanBackup ts a files p)
    (hsrc : SourceFile E ls csv src) (hf : Fresh fs mp src) (hc : CellsSection E csv rs) :
    ∃ sc rows, Defines (Parser.stmts ls) sc ∧ AreRows E rs rows ∧ ∀ s₁, evalFills ⟨rows, false⟩ = some s₁ → AllClear (effective sc kv s₁) rows →
      ∃ out, (∃ e states w, Main E version ts partials cuts a fs files e states w) ∧
        ∀ e states w, Main E version ts partials cuts a fs files e states w →
          e = some .success ∧ ∃ final, states.getLast? = some final ∧ Wrote files final p out := by
  obtain ⟨sc, rows, hp, hd, hr⟩ := Unsettled.parse_alone hsrc hc
  refine ⟨sc, rows, hd, hr, fun s₁ hs₁ hcl => ?_⟩
  obtain ⟨kvs, hk1, rfl⟩ := hs.values
  obtain ⟨s, hsheet⟩ := C52_clear_partial (defines_parsed hsrc.lines hd) (keyValues_parsed hk1) (fun r h1 c h2 f h3 => (parsed_plain (areRows_parsed hr r h1 c h2 f h3)).1) hs₁ hcl
  refine ⟨writeCsv (!a.safe) s (files p), ?_, fun e states w h => ?_⟩
  · obtain ⟨states, w, final, k, -⟩ := main_alone_with (version := version) (partials := partials) (cuts := cuts) hs hb hf hp rfl ((hsheet _).mpr rfl)
    exact ⟨_, states, w, k⟩
  · obtain ⟨-, ⟨s', final, h1, h2, h3, h4⟩ | ⟨h1, h2, h3⟩⟩ := main_alone hs hb hf hp rfl h
    · cases (hsheet _).mp h1
      exact ⟨h2, final, h3, h4⟩
    · exfalso
      rcases h3 with h3 | ⟨pos, er, h3⟩
      · rw [hs₁] at h3; cases h3
      · cases (hsheet _).mp h3
end

/-- An example: all runs on a file with a function and a named cell in a fill write the same. -/
example (E : Env) (version : Nat) : ∃ out, ∀ e states w,
    Main E version [] (fun _ => []) [] (exampleArgs false []) (exampleFs fillText) exampleFiles e states w →
      e = some .success ∧ ∃ final, states.getLast? = some final ∧ Wrote exampleFiles final (Path.ofText "out.csv".toList) out := by
  obtain ⟨sc, rows, d1, d2, h⟩ := C52_program_partial version [] (fun _ => []) [] (files := exampleFiles) (exampleSetup E false [] [] rfl) (by intro h; cases h) (fill_file E)
    (exampleFresh fillText) (rs := [fillRow]) ⟨⟨_, fill_cells, .cons (fill_rowText E) .nil⟩, by
      intro r hr c hc he
      obtain rfl := List.mem_singleton.mp hr
      simp only [fillRow, List.mem_cons, List.not_mem_nil, or_false] at hc
      rcases hc with rfl | rfl
      · exact absurd he (by decide)
      · exact ⟨_, fill_formula E⟩⟩
  obtain ⟨s₁, hs₁⟩ : ∃ s₁, evalFills ⟨rows, false⟩ = some s₁ := by
    obtain ⟨row, rfl⟩ : ∃ row, rows = [row] := List.length_eq_one_iff.mp d2.1
    obtain ⟨row', r1, r2⟩ := d2.2 0 fillRow rfl
    cases r1
    have hfill : row.fill = some ⟨some 2, 0⟩ := r2.fill
    rw [evalFills]
    simp only [Bool.false_eq_true, if_false, multipleInfinite, hfill]
    exact ⟨_, rfl⟩
  obtain ⟨out, -, h'⟩ := h s₁ hs₁ (fill_clear E d1 d2 hs₁)
  exact ⟨out, h'⟩

end Verif.Cli
