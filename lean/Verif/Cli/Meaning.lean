import Verif.Cli.Props
import Verif.Ast.Apart
/-
End to end: programs with functions, named cells and fills (C80).
-/
namespace Verif.Cli
open Verif.Ast Verif.Loader Verif.Sheet Verif.Cache Verif.Csvp.Spec
open Verif.Cell hiding Target
open Verif.Target hiding MPath
open Verif.Parser (Stmt Line codeText stmts)

/-! ## Specification -/

/-- At this position the definitions and the formula are free of trouble: definitions do not depend on themselves, parameter names are used for
nothing else, no function is needed both by a called function and by the arguments of the call, and calls have the right number of arguments. -/
structure Clear (sc : Scope) (pos : Option Addr) (f : Ast) (order : List Name) (isParam : Text → Prop) : Prop where
  acyclic : Acyclic sc pos order
  hygienic : Hygienic sc pos isParam
  apart : ApartScope sc pos
  arityVars : ∀ x d v, sc.variables x = some d → resolve pos d = some v → arityOk sc v
  arityFns : ∀ g nm ps body, sc.functions g = some (.fn nm ps body) → arityOk sc body
  params : ∀ r ∈ refNames f, ¬ isParam r
  formula : Apart sc pos [] f
  arity : arityOk sc f

/-- All formulas of the rows, wherever they are put, are free of trouble. -/
def AllClear (sc : Scope) (rows : List Row) : Prop :=
  ∀ before r after i x c f, rows = before ++ r :: after → i < copies rows r → r.cells[x]? = some c → c.ast = some f →
    ∃ order isParam, Clear sc (some ⟨x, total rows before + i⟩) f order isParam

/-- What the target shows for the rows `rows` with the definitions `sc`: each row as often as its fill says, from top to bottom, each text as it is
and each formula as what it means at its position. -/
def ShowsMeaning (sc : Scope) (safe : Bool) (rows : List Row) (old new : List (List Text)) : Prop :=
  new.length = total rows rows ∧
  ∀ before r after, rows = before ++ r :: after → ∀ i, i < copies rows r → ∀ x c, r.cells[x]? = some c →
    ∃ t, cellAt new (total rows before + i) x = shown safe (cellAt old (total rows before + i) x) t ∧
      (c.ast = none → t = c.value) ∧
      ∀ f, c.ast = some f → (∃ b, Ast.Means sc (some ⟨x, total rows before + i⟩) f b) ∧
        ∀ b, Ast.Means sc (some ⟨x, total rows before + i⟩) f b → t = '=' :: Parser.display b

/-! ## Proofs -/

theorem sheetVars_plain {s : Sheet} {n : Text} {d : Ast} (h : sheetVars s n = some d) (pos : Addr) :
    ∃ t, resolve (some pos) d = some (.ref t) := by
  have : ∀ l : List (Text × CellVal), ∀ d, collect (l.map fun p => (p.1, Ast.cellVar p.1 p.2)) n = some d → ∃ t, resolve (some pos) d = some (.ref t) := by
    intro l
    induction l using List.reverseRecOn with
    | nil => intro d h; cases h
    | append_singleton l p ih =>
      intro d h
      rw [List.map_append, List.map_singleton, collect_snoc] at h
      split at h
      · cases h
        show ∃ t, p.2.intoAst (some pos) = some (.ref t)
        cases p.2 with
        | absolute a => exact ⟨_, rfl⟩
        | columnRelative c fl => simp only [CellVal.intoAst]; split <;> exact ⟨_, rfl⟩
        | row r => exact ⟨_, rfl⟩
        | rowRelative r fl => simp only [CellVal.intoAst]; split <;> exact ⟨_, rfl⟩
      · exact ih d h
  exact this _ d h

theorem collect_mem {l : List (Text × Ast)} {n : Text} {d : Ast} (h : collect l n = some d) : (n, d) ∈ l := by
  induction l using List.reverseRecOn with
  | nil => cases h
  | append_singleton l p ih =>
    rw [collect_snoc] at h
    split at h
    · rename_i hn; cases h; subst hn; simp
    · exact List.mem_append_left _ (ih h)

/-- The definitions of parsed code. -/
structure ParsedScope (E : Env) (sc : Scope) : Prop where
  fns : ∀ g d, sc.functions g = some d → ∃ ps body, d = .fn g ps body ∧ plain body
  vars : ∀ x d, sc.variables x = some d → ∃ a, d = .var x a ∧ plain a
  finite : ∃ own, IsEnum own sc.variables

theorem effective_wf {E : Env} {sc : Scope} (h : ParsedScope E sc) {kvs : List (Text × Ast)} (hk : ∀ d ∈ kvs, Parser.Parsed E.uni E.f64 d.2)
    (s₁ : Sheet) (pos : Addr) : Wf (effective sc (collect kvs) s₁) (some pos) where
  fns := fun g d hd => by
    obtain ⟨ps, body, h1, h2⟩ := h.fns g d hd
    exact ⟨g, ps, body, h1, h2⟩
  vars := fun x d hd => by
    have hd' : (sc.variables x).or ((sheetVars s₁ x).or (collect kvs x)) = some d := hd
    rw [Option.or_eq_some_iff, Option.or_eq_some_iff] at hd'
    rcases hd' with hd' | ⟨-, hd' | ⟨-, hd'⟩⟩
    · obtain ⟨a, rfl, ha⟩ := h.vars x d hd'
      exact ⟨a, rfl, ha⟩
    · obtain ⟨t, ht⟩ := sheetVars_plain hd' pos
      exact ⟨_, ht, rfl⟩
    · have := parsed_plain (hk _ (collect_mem hd'))
      exact ⟨d, this.2 _, this.1⟩

theorem defines_enum {ss : List Stmt} {sc : Scope} (h : Defines ss sc) : ∃ own, IsEnum own sc.variables := by
  obtain ⟨own, ho⟩ := isEnum_collect (ss.filterMap fun s => match s with | .var n v => some (n, Ast.var n v) | _ => none)
  refine ⟨own, ho.1, fun k v => ?_⟩
  rw [ho.2, h.vars]
  clear ho own h
  have : collect (ss.filterMap fun s => match s with | .var n v => some (n, Ast.var n v) | _ => none) k = (ss.filterMap (Stmt.variable? k)).getLast? := by
    induction ss using List.reverseRecOn with
    | nil => rfl
    | append_singleton ss s ih =>
      rw [List.filterMap_append, List.filterMap_append, List.getLast?_append, ← ih]
      cases s with
      | use m => simp [Stmt.variable?]
      | fn n ps b => simp [Stmt.variable?]
      | var n v =>
        simp only [List.filterMap_cons, List.filterMap_nil, Stmt.variable?]
        rw [collect_snoc]
        by_cases hn : n = k
        · subst hn; simp
        · simp [hn, Ne.symm hn]
  rw [this]

theorem defines_parsed {E : Env} {ls : List Line} (hl : ∀ l ∈ ls, l.Ok E.uni E.f64) {sc : Scope} (h : Defines (stmts ls) sc) : ParsedScope E sc where
  fns := fun g d hd => by
    rw [h.functions] at hd
    obtain ⟨s, hs, h1⟩ := List.mem_filterMap.mp (List.mem_of_getLast? hd)
    obtain ⟨l, hl', h2⟩ := List.mem_filterMap.mp hs
    have hok := (hl l hl').2.1 s h2
    cases s with
    | use m => cases h1
    | var n v => cases h1
    | fn n ps b =>
      simp only [Stmt.function?] at h1
      split at h1
      · rename_i hn; subst hn; cases h1
        exact ⟨ps, b, rfl, (parsed_plain (printable_parsed hok.2.2)).1⟩
      · cases h1
  vars := fun x d hd => by
    rw [h.vars] at hd
    obtain ⟨s, hs, h1⟩ := List.mem_filterMap.mp (List.mem_of_getLast? hd)
    obtain ⟨l, hl', h2⟩ := List.mem_filterMap.mp hs
    have hok := (hl l hl').2.1 s h2
    cases s with
    | use m => cases h1
    | fn n ps v => cases h1
    | var n v =>
      simp only [Stmt.variable?] at h1
      split at h1
      · rename_i hn; subst hn; cases h1
        exact ⟨v, rfl, (parsed_plain (printable_parsed hok.2)).1⟩
      · cases h1
  finite := defines_enum h

theorem areRows_parsed {E : Env} {rs : List RowSrc} {rows : List Row} (h : AreRows E rs rows) :
    ∀ r ∈ rows, ∀ c ∈ r.cells, ∀ f, c.ast = some f → Parser.Parsed E.uni E.f64 f := by
  intro r hr c hc f hf
  obtain ⟨i, hi⟩ := List.getElem?_of_mem hr
  have hlt : i < rs.length := by rw [← h.1]; exact (List.getElem?_eq_some_iff.mp hi).1
  obtain ⟨row, h1, h2⟩ := h.2 i rs[i] (List.getElem?_eq_getElem hlt)
  rw [hi] at h1; cases h1
  have : (c.opts, c.value, c.ast) ∈ r.cells.map (fun c => (c.opts, c.value, c.ast)) := List.mem_map.mpr ⟨c, hc, rfl⟩
  rw [h2.cells] at this
  obtain ⟨x, -, hx⟩ := List.mem_map.mp this
  have hx' := (Prod.mk.inj (Prod.mk.inj hx).2).2
  rw [hf, formulaOf] at hx'
  split at hx'
  · cases hp : Parser.parse E.uni E.f64 x.2 with
    | error e => rw [hp] at hx'; cases hx'
    | ok b => rw [hp] at hx'; cases hx'; exact parse_parsed hp
  · cases hx'

theorem clear_eval {sc : Scope} {pos : Option Addr} {f : Ast} {order : List Name} {isParam : Text → Prop} (hw : Wf sc pos)
    (h : Clear sc pos f order isParam) (hp : plain f) :
    ∃ b, Ast.Means sc pos f b ∧ (∀ b', Ast.Means sc pos f b' → b' = b) ∧ ∀ o, Eval sc pos f o ↔ o = .ok b :=
  (C21_meaning_partial sc pos order isParam hw h.acyclic h.hygienic h.apart h.arityVars h.arityFns f hp h.params h.formula h.arity).2

section
variable {E : Env} {a : Args} {fs : FS Text} {files : Files Text} {mp : MPath} {p : Path} {kv : Text → Option Ast}
  {ls : List Line} {csv src : Text} {g : List (List Text)} {rs : List RowSrc}

/-- C80, with functions, named cells and fills.  If the definitions, together with the named cells and `-k`, and the formulas are free of trouble,
every run of the program succeeds, unless two rows have a fill without a number, and the target shows each formula as what it means at its position;
and there is a run. -/
theorem C80_meaning (version : Nat) (ts : List Text) (partials : Text → List Text) (cuts : List Nat) (hs : Setup E a mp p kv) (hb : CanBackup ts a files p)
    (hsrc : SourceFile E ls csv src) (hf : Fresh fs mp src) (hg : Csvp.Spec.values (Csvp.parse ⟨',', 0⟩ csv) = some g)
    (ht : List.Forall₂ (RowText E) g rs) (hform : ∀ r ∈ rs, FormulaTexts E r) (h0 : NoMark (cellAt (rowsOf (files p)) 0 0))
    (h1 : ∀ r ∈ rs, ∀ c ∈ r.cells, NoMark c.2) :
    ∃ sc rows, Defines (stmts ls) sc ∧ AreRows E rs rows ∧ ∀ s₁, evalFills ⟨rows, false⟩ = some s₁ → AllClear (effective sc kv s₁) rows →
      (∃ e states w, Main E version ts partials cuts a fs files e states w) ∧
      ∀ e states w, Main E version ts partials cuts a fs files e states w →
        e = some .success ∧ (∀ x ∈ w, x.1 = mp) ∧ ∃ final out, states.getLast? = some final ∧ Wrote files final p out ∧
          ShowsMeaning (effective sc kv s₁) a.safe rows (rowsOf (files p)) (csvRead out) := by
  obtain ⟨c1, c2⟩ := hsrc.split
  obtain ⟨sc, s1, s2, s3, -⟩ := Parser.C48_code_section_partial E.uni E.f64 ls hsrc.lines (usesFirst_of hsrc.uses)
  rw [modules_of hsrc.uses] at s1
  obtain ⟨rows, r1, hpm, hmain⟩ := main_cells (version := version) (partials := partials) (cuts := cuts) hs hb hf (sc := sc)
    (by rw [c1]; exact s1) (by rw [c2, Csvp.values_parse]; rw [Csvp.values_parse] at hg; exact hg) ht hform h0 h1
  refine ⟨sc, rows, ⟨s2, s3⟩, r1, fun s₁ hs₁ hclear => ?_⟩
  have hps : ParsedScope E sc := defines_parsed hsrc.lines ⟨s2, s3⟩
  obtain ⟨kvs, k1, rfl⟩ := hs.values
  have hk := keyValues_parsed k1
  have heval : ∀ before r after i x c f, rows = before ++ r :: after → i < copies rows r → r.cells[x]? = some c → c.ast = some f →
      ∃ b, Ast.Means (effective sc (collect kvs) s₁) (some ⟨x, total rows before + i⟩) f b ∧
        (∀ b', Ast.Means (effective sc (collect kvs) s₁) (some ⟨x, total rows before + i⟩) f b' → b' = b) ∧
        ∀ o, Eval (effective sc (collect kvs) s₁) (some ⟨x, total rows before + i⟩) f o ↔ o = .ok b := by
    intro before r after i x c f e1 e2 e3 e4
    obtain ⟨order, isParam, hc⟩ := hclear before r after i x c f e1 e2 e3 e4
    exact clear_eval (effective_wf hps hk s₁ _) hc (parsed_plain (areRows_parsed r1 r (by rw [e1]; simp) c (List.mem_of_getElem? e3) f e4)).1
  constructor
  · obtain ⟨own, hown⟩ := hps.finite
    obtain ⟨ke, hke⟩ := isEnum_collect kvs
    obtain ⟨s', hs'⟩ := evalSheet_exists (sc := sc) (ext := collect kvs) hs₁ hown hke
      (fun y q x c f hq hc hf => by
        obtain ⟨before, r, after, i, f1, f2, f3, f4⟩ := expanded_row hs₁ hq
        subst f4 f3
        obtain ⟨b, -, -, hb'⟩ := heval before r after i x c f f1 f2 hc hf
        exact ⟨b, (hb' _).mpr rfl⟩)
    exact main_alone_exists hs hf hpm rfl hs'
  · intro e states w h
    obtain ⟨hw, ⟨s₁', final, out, q1, q2, q3, q4, q5, q6, q7⟩ | ⟨-, -, q⟩⟩ := hmain e states w h
    · rw [hs₁] at q1; cases q1
      refine ⟨q2, hw, final, out, q3, q4, q5, fun before r after e1 i e2 x c e3 => ?_⟩
      obtain ⟨t, t1, t2, t3⟩ := q6 before r after e1 i e2 x c e3
      refine ⟨t, t1, t2, fun f hf => ?_⟩
      obtain ⟨b, b1, b2, b3⟩ := heval before r after i x c f e1 e2 e3 hf
      refine ⟨⟨b, b1⟩, fun b' hb' => ?_⟩
      obtain ⟨b'', n1, n2⟩ := t3 f hf
      cases (b3 _).mp n1
      rw [b2 b' hb', n2]
    · exfalso
      rcases q with q | ⟨s₂, q0, before, r, after, i, x, c, f, er, f1, f2, f3, f4, f5⟩
      · rw [hs₁] at q; cases q
      · rw [hs₁] at q0; cases q0
        obtain ⟨b, -, -, b3⟩ := heval before r after i x c f f1 f2 f3 f4
        cases (b3 _).mp f5

end
end Verif.Cli
