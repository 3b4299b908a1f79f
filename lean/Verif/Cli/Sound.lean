import Verif.Ast.Sound
import Verif.Cli.Meaning
import Verif.Parser.Unambiguous
import Verif.Cli.KeyValues
import Verif.Cli.InlineExample
/-!
# C119 for programs: the formulas in the target have the values of the formulas of the source file
-/
namespace Verif.Cli
open Verif.Ast Verif.Loader Verif.Sheet Verif.Cache Verif.Csvp.Spec
open Verif.Cell hiding Target
open Verif.Target hiding MPath
open Verif.Parser (Stmt Line codeText stmts Printable)

/-! ## Specification -/

/-- In no formula of the rows, wherever it is put, and in no definition is the name of a parameter used for anything else. -/
def AllHygienic (sc : Scope) (rows : List Row) : Prop :=
  ∀ before r after i x c f, rows = before ++ r :: after → i < copies rows r → r.cells[x]? = some c → c.ast = some f →
    ∃ isParam, Hygienic sc (some ⟨x, total rows before + i⟩) isParam ∧ ∀ n ∈ refNames f, ¬ isParam n

/-- The target shows for every formula of the rows a formula that has the same value, for every spreadsheet program that agrees with the
definitions `sc`; and read by the rules for formulas, and by any others for the precedence of operators, the text shown is that formula, if what the definitions and the formula are made of is
printed faithfully (see C12). -/
def ShowsValues (E : Env) (sc : Scope) (safe : Bool) (rows : List Row) (old new : List (List Text)) : Prop :=
  ∀ before r after, rows = before ++ r :: after → ∀ i, i < copies rows r → ∀ x c, r.cells[x]? = some c → ∀ f, c.ast = some f →
    ∃ b, cellAt new (total rows before + i) x = shown safe (cellAt old (total rows before + i) x) ('=' :: Parser.display b) ∧
      (∀ (D : Type) (M : Values D), Agrees M sc (some ⟨x, total rows before + i⟩) → M.value [] b = M.value [] f) ∧
      (Printable E.uni E.f64 f → (∀ n d v, sc.variables n = some d → resolve (some ⟨x, total rows before + i⟩) d = some v → Printable E.uni E.f64 v) →
        Parser.parse E.uni E.f64 ('=' :: Parser.display b) = .ok b ∧
        ∃ e pts, Parser.lex E.uni ('=' :: Parser.display b) = .ok (pts, e) ∧ ∀ b', Parser.Reads (pts.map (·.tok)) b' ↔ b' = b)

/-- Whatever shows the meaning of formulas (targets of all kinds, programs with modules: C80, C85) shows formulas with the same values. -/
theorem C119_shows {sc : Scope} {safe : Bool} {rows : List Row} {old new : List (List Text)} (h : ShowsMeaning sc safe rows old new) {before after : List Row}
    {r : Row} (h1 : rows = before ++ r :: after) {i : Nat} (h2 : i < copies rows r) {x : Nat} {c : Cell} (h3 : r.cells[x]? = some c) {f : Ast}
    (h4 : c.ast = some f) :
    ∃ b, cellAt new (total rows before + i) x = shown safe (cellAt old (total rows before + i) x) ('=' :: Parser.display b) ∧
      ∀ (D : Type) (M : Values D), Agrees M sc (some ⟨x, total rows before + i⟩) → M.value [] b = M.value [] f := by
  obtain ⟨t, t1, -, t2⟩ := h.2 before r after h1 i h2 x c h3
  obtain ⟨⟨b, hb⟩, t3⟩ := t2 f h4
  refine ⟨b, ?_, fun D M hM => C119_meaning _ _ _ _ hb D M hM⟩
  rw [t1, t3 b hb]

/-! ## Printable formulas -/

section
variable {u : Parser.Uni} {F : Parser.F64}

theorem printable_replaceVar {x : Text} {r a : Ast} (hr : Printable u F r) (ha : Printable u F a) : Printable u F (replaceVar x r a) := by
  induction ha with
  | int h => exact .int h
  | float h1 h2 => exact .float h1 h2
  | ref h1 h2 =>
    simp only [replaceVar]
    split
    · exact hr
    · exact .ref h1 h2
  | text h => exact .text h
  | call h1 h2 _ ih =>
    simp only [replaceVar, replaceVars_eq]
    refine .call h1 h2 fun b hb => ?_
    obtain ⟨a, ha, rfl⟩ := List.mem_map.mp hb
    exact ih a ha
  | «infix» h _ _ ih1 ih2 => exact .infix h ih1 ih2

theorem printable_replaceSeq (σ : List (Text × Ast)) (hσ : ∀ p ∈ σ, Printable u F p.2) {a : Ast} (ha : Printable u F a) :
    Printable u F (replaceSeq σ a) := by
  induction σ generalizing a with
  | nil => exact ha
  | cons p σ ih =>
    simp only [replaceSeq, List.foldl_cons]
    have := ih (fun q hq => hσ q (by simp [hq])) (printable_replaceVar (x := p.1) (hσ p (by simp)) ha)
    rwa [replaceSeq] at this

theorem printable_callFn {f nm : Text} {ps : List Text} {body a b : Ast} (hb : Printable u F body)
    (h : callFn f (.fn nm ps body) a = .ok b) (ha : Printable u F a) : Printable u F b := by
  revert ha
  refine callFn_ind (P := fun a b => Printable u F a → Printable u F b) ?_ ?_ ?_ ?_ ?_ ?_ h
  · intro args _ ha
    cases ha with
    | call _ _ hargs =>
      exact printable_replaceSeq _ (fun p hp => hargs _ (List.of_mem_zip (a := p.1) (b := p.2) hp).2) hb
  · intro n args args' _ hf ha
    cases ha with
    | call h1 h2 hargs =>
      refine .call h1 h2 ?_
      clear h1 h2 h
      induction hf with
      | nil => simp
      | cons h1 _ ih =>
        intro e he
        rcases List.mem_cons.mp he with rfl | he
        · exact h1 (hargs _ (by simp))
        · exact ih (fun e he => hargs e (by simp [he])) e he
  · intro l op r l' r' h1 h2 ha
    cases ha with
    | «infix» h3 h4 h5 => exact .infix h3 (h1 h4) (h2 h5)
  · intro n a a' _ ha; cases ha
  · intro n qs b ha; exact ha
  · intro a _ ha; exact ha

/-- Evaluation keeps formulas printable. -/
theorem printable_eval {sc : Scope} {pos : Option Addr} (hw : Wf sc pos)
    (hv : ∀ n d v, sc.variables n = some d → resolve pos d = some v → Printable u F v)
    (hf : ∀ g nm ps body, sc.functions g = some (.fn nm ps body) → Printable u F body) {last : Refs} {a : Ast} {o : Outcome}
    (h : Loop sc pos last a o) : ∀ b, o = .ok b → Printable u F a → Printable u F b := by
  induction h with
  | stop _ => rintro b ⟨⟩ h; exact h
  | again _ hr _ ih =>
    intro b hb ha
    refine ih b hb ?_
    obtain ⟨σ, fs, -, hval, -, he⟩ := round_ok hw hr
    refine evalFns_inv (I := Printable u F) fs ?_ (printable_replaceSeq σ (fun p hp => ?_) ha) he
    · intro f _ d c c' hfd hc hcall
      obtain ⟨nm, ps, body, rfl, -⟩ := hw.fns f d hfd
      exact printable_callFn (hf f nm ps body hfd) hcall hc
    · obtain ⟨d, h1, h2⟩ := hval p hp
      exact hv _ _ _ h1 h2
  | err => rintro b ⟨⟩
  | panic => rintro b ⟨⟩

end

section
variable {E : Env} {a : Args} {fs : FS Text} {files : Files Text} {mp : MPath} {p : Path} {kv : Text → Option Ast}
  {ls : List Line} {csv src : Text} {g : List (List Text)} {rs : List RowSrc}

theorem defines_printable {ls : List Line} (hl : ∀ l ∈ ls, l.Ok E.uni E.f64) {sc : Scope} (h : Defines (stmts ls) sc) {f nm : Text} {ps : List Text}
    {body : Ast} (hd : sc.functions f = some (.fn nm ps body)) : Printable E.uni E.f64 body := by
  rw [h.functions] at hd
  obtain ⟨s, hs, h1⟩ := List.mem_filterMap.mp (List.mem_of_getLast? hd)
  obtain ⟨l, hl', h2⟩ := List.mem_filterMap.mp hs
  have hok := (hl l hl').2.1 s h2
  cases s with
  | use m => cases h1
  | var n v => cases h1
  | fn n ps b =>
    simp only [Stmt.function?] at h1
    split at h1
    · rename_i hn; subst hn; cases h1
      exact hok.2.2
    · cases h1

/-- C119 for programs.  If a run succeeds, the target shows for every formula of the source file one that has the same value, whatever is made of
literals, operators, cells and the functions that are not defined, as long as it agrees with the definitions - if the names of parameters are used
for nothing else. -/
theorem C119_program_partial (version : Nat) (ts : List Text) (partials : Text → List Text) (cuts : List Nat) (hs : Setup E a mp p kv) (hb : CanBackup ts a files p)
    (hsrc : SourceFile E ls csv src) (hf : Fresh fs mp src) (hg : Csvp.Spec.values (Csvp.parse ⟨',', 0⟩ csv) = some g)
    (ht : List.Forall₂ (RowText E) g rs) (hform : ∀ r ∈ rs, FormulaTexts E r) (h0 : NoMark (cellAt (rowsOf (files p)) 0 0))
    (h1 : ∀ r ∈ rs, ∀ c ∈ r.cells, NoMark c.2) :
    ∃ sc rows, Defines (stmts ls) sc ∧ AreRows E rs rows ∧ ∀ states w, Main E version ts partials cuts a fs files (some .success) states w →
      ∃ s₁ final out, evalFills ⟨rows, false⟩ = some s₁ ∧ states.getLast? = some final ∧ Wrote files final p out ∧
        (AllHygienic (effective sc kv s₁) rows → ShowsValues E (effective sc kv s₁) a.safe rows (rowsOf (files p)) (csvRead out)) := by
  obtain ⟨sc, rows, r1, r2, r3⟩ := C80_program version ts partials cuts hs hb hsrc hf hg ht hform h0 h1
  refine ⟨sc, rows, r1, r2, fun states w h => ?_⟩
  have hps : ParsedScope E sc := defines_parsed hsrc.lines r1
  obtain ⟨kvs, k1, rfl⟩ := hs.values
  have hk := keyValues_parsed k1
  obtain ⟨-, ⟨s₁, final, out, q1, -, q2, q3, -, q4, -⟩ | ⟨q, -⟩⟩ := r3 _ _ _ h
  · refine ⟨s₁, final, out, q1, q2, q3, fun hh before r after e1 i e2 x c e3 f hf' => ?_⟩
    obtain ⟨t, t1, -, t2⟩ := q4 before r after e1 i e2 x c e3
    obtain ⟨b, b1, rfl⟩ := t2 f hf'
    obtain ⟨isParam, hy, hp⟩ := hh before r after i x c f e1 e2 e3 hf'
    have hw := effective_wf hps hk s₁ ⟨x, total rows before + i⟩
    have hpl := (parsed_plain (areRows_parsed r2 r (by rw [e1]; simp) c (List.mem_of_getElem? e3) f hf')).1
    refine ⟨b, t1, fun D M hM => C119_value_partial _ _ isParam hw hy f b hpl hp b1 D M hM, fun hpf hpv => ?_⟩
    have hb := printable_eval hw hpv (fun g nm ps body hg => defines_printable hsrc.lines r1 hg) b1 b rfl hpf
    exact ⟨Parser.C12_display_parses _ _ _ hb, Parser.C120_unambiguous_partial _ _ _ hb⟩
  · rcases q with q | q <;> cases q

/-- C120 for programs: whatever a spreadsheet program takes a formula in the target for, by its own rules for the precedence and the grouping of operators, it
has the value of the formula of the source file. -/
theorem C120_program_partial (version : Nat) (ts : List Text) (partials : Text → List Text) (cuts : List Nat) (hs : Setup E a mp p kv) (hb : CanBackup ts a files p)
    (hsrc : SourceFile E ls csv src) (hf : Fresh fs mp src) (hg : Csvp.Spec.values (Csvp.parse ⟨',', 0⟩ csv) = some g)
    (ht : List.Forall₂ (RowText E) g rs) (hform : ∀ r ∈ rs, FormulaTexts E r) (h0 : NoMark (cellAt (rowsOf (files p)) 0 0))
    (h1 : ∀ r ∈ rs, ∀ c ∈ r.cells, NoMark c.2) (hsafe : a.safe = false) :
    ∃ sc rows, Defines (stmts ls) sc ∧ AreRows E rs rows ∧ ∀ states w, Main E version ts partials cuts a fs files (some .success) states w →
      ∃ s₁ final out, evalFills ⟨rows, false⟩ = some s₁ ∧ states.getLast? = some final ∧ Wrote files final p out ∧
        (AllHygienic (effective sc kv s₁) rows →
          ∀ before r after, rows = before ++ r :: after → ∀ i, i < copies rows r → ∀ x c, r.cells[x]? = some c → ∀ f, c.ast = some f →
            Printable E.uni E.f64 f →
            (∀ n d v, (effective sc kv s₁).variables n = some d → resolve (some ⟨x, total rows before + i⟩) d = some v → Printable E.uni E.f64 v) →
            ∃ e pts, Parser.lex E.uni (cellAt (csvRead out) (total rows before + i) x) = .ok (pts, e) ∧ (∃ b', Parser.Reads (pts.map (·.tok)) b') ∧
              ∀ b', Parser.Reads (pts.map (·.tok)) b' → ∀ (D : Type) (M : Values D), Agrees M (effective sc kv s₁) (some ⟨x, total rows before + i⟩) →
                M.value [] b' = M.value [] f) := by
  obtain ⟨sc, rows, r1, r2, r3⟩ := C119_program_partial version ts partials cuts hs hb hsrc hf hg ht hform h0 h1
  refine ⟨sc, rows, r1, r2, fun states w h => ?_⟩
  obtain ⟨s₁, final, out, q1, q2, q3, q4⟩ := r3 states w h
  refine ⟨s₁, final, out, q1, q2, q3, fun hh before r after e1 i e2 x c e3 f hf' hpf hpv => ?_⟩
  obtain ⟨b, b1, b2, b3⟩ := q4 hh before r after e1 i e2 x c e3 f hf'
  obtain ⟨-, e, pts, b4, b5⟩ := b3 hpf hpv
  rw [shown, hsafe, if_neg (by simp)] at b1
  refine ⟨e, pts, by rw [b1]; exact b4, ⟨b, (b5 b).mpr rfl⟩, fun b' hb' D M hM => ?_⟩
  rw [(b5 b').mp hb']
  exact b2 D M hM

end

/-! ## Concrete cases -/

theorem allClear_hygienic {sc : Scope} {rows : List Row} (h : AllClear sc rows) : AllHygienic sc rows :=
  fun before r after i x c f h1 h2 h3 h4 =>
    let ⟨_, isParam, hc⟩ := h before r after i x c f h1 h2 h3 h4
    ⟨isParam, hc.hygienic, hc.params⟩

/-- Arithmetic with `rate` 5 and the functions of `demo2`. -/
def numbers : Values Int where
  lit := fun | .int _ _ v => v | _ => 0
  op := fun o l r => if o = Ast.T "+" then l + r else if o = Ast.T "*" then l * r else if o = Ast.T "-" then l - r else 0
  name := fun x => if x = Ast.T "rate" then 5 else 0
  fn := fun f ds => if f = Ast.T "double" then ds.headD 0 * 2 else ds.sum
  assign := fun _ d => d
  define := fun _ _ d => d

theorem numbers_agrees : Agrees numbers demo2 none where
  vars := by
    intro x d a h ha
    obtain ⟨rfl, rfl⟩ := demo2_vars h
    cases ha; rfl
  fns := by
    intro f nm ps body h ds hl
    rcases demo2_fns h with ⟨rfl, he⟩ | ⟨rfl, he⟩ <;> cases he
    · match ds, hl with
      | [d1], _ => rfl
    · match ds, hl with
      | [d1, d2], _ =>
        show d1 + (d2 + 0) = d1 + d2
        rw [Int.add_zero]

/-- `=add(double(rate), rate) - SUM(double(1))` has the value 13, and so has every result of compiling it. -/
example : (∃ b, Eval demo2 none demo2Formula (.ok b)) ∧ numbers.value [] demo2Formula = 13 ∧
    ∀ b, Eval demo2 none demo2Formula (.ok b) → numbers.value [] b = 13 := by
  have hp : ∀ r ∈ refNames demo2Formula, ¬ (r = Ast.T "n" ∨ r = Ast.T "a" ∨ r = Ast.T "b") := by
    intro r hr; simp [demo2Formula, refNames, refNamesL] at hr; subst hr; decide
  refine ⟨?_, rfl, fun b hb => ?_⟩
  · obtain ⟨-, b, -, -, h⟩ := C21_meaning_partial demo2 none _ _ (demo2_wf _) (demo2_acyclic _) (demo2_hygienic _) (demo2_apart _)
      (demo2_arity none).1 (demo2_arity none).2.1 demo2Formula (by decide) hp (demo2Formula_apart _) (demo2_arity none).2.2
    exact ⟨b, (h _).mpr rfl⟩
  · rw [C119_value_partial demo2 none _ (demo2_wf _) (demo2_hygienic _) demo2Formula b (by decide) hp hb Int numbers numbers_agrees]
    rfl

/-- There are values for `demo2` whatever is made of the rest. -/
example {D : Type} (M : Values D) : ∃ M' : Values D, Agrees M' demo2 none ∧ M'.op = M.op ∧ M'.fn (Ast.T "SUM") = M.fn (Ast.T "SUM") := by
  obtain ⟨M', h1, -, h2, -, -, -, h3⟩ := C119_exists M demo2 none _ (demo2_wf _) (demo2_acyclic _)
  exact ⟨M', h1, h2, h3 _ rfl⟩

/-- The program of `MeaningExample` (a function, a named cell and a fill) meets the hypothesis of C119_program_partial. -/
example (E : Env) {sc : Scope} (d1 : Defines (stmts fillLines) sc) {rows : List Row} (d2 : AreRows E [fillRow] rows) {s₁ : Sheet}
    (hs₁ : evalFills ⟨rows, false⟩ = some s₁) : AllHygienic (effective sc (collect []) s₁) rows :=
  allClear_hygienic (fill_clear E d1 d2 hs₁)

/-- So do its formula and the values of its names meet those of C120_program_partial. -/
example (E : Env) {sc : Scope} {pos : Addr} {i : Nat} (hi : i < 2) (h : FillScope sc pos (cellRef 0 i)) :
    Printable E.uni E.f64 (.call "double".toList [.ref "price".toList]) ∧
    ∀ n d v, sc.variables n = some d → resolve (some pos) d = some v → Printable E.uni E.f64 v := by
  refine ⟨.call (Parser.name_ascii E.uni (by decide)).1 (by decide) fun a ha => ?_, fun n d v h1 h2 => ?_⟩
  · rw [List.mem_singleton.mp ha]
    exact .ref (Parser.name_ascii E.uni (by decide)).1 (by decide)
  · obtain ⟨-, rfl⟩ := h.var h1 h2
    have : i = 0 ∨ i = 1 := by omega
    rcases this with rfl | rfl
    · have e : cellRef 0 0 = ['A', '1'] := by decide +kernel
      rw [e]
      exact .ref ⟨⟨['A', '1'], by simp, by intro c hc; simp at hc; rcases hc with rfl | rfl <;> rfl, .inl rfl⟩, by intro c hc; cases hc; rfl,
        by decide, by decide, by decide⟩ (by decide)
    · have e : cellRef 0 1 = ['A', '2'] := by decide +kernel
      rw [e]
      exact .ref ⟨⟨['A', '2'], by simp, by intro c hc; simp at hc; rcases hc with rfl | rfl <;> rfl, .inl rfl⟩, by intro c hc; cases hc; rfl,
        by decide, by decide, by decide⟩ (by decide)

end Verif.Cli
