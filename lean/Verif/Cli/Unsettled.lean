import Verif.Cli.InlineModules
import Verif.Cli.Order
import Verif.Ast.Props
/-
A program whose output depends on the order in which a hash set is iterated (C52, C80, C84).
-/
namespace Verif.Cli
open Verif.Ast Verif.Loader Verif.Sheet Verif.Cache Verif.Csvp.Spec
open Verif.Cell hiding Target
open Verif.Target hiding MPath
open Verif.Parser (Stmt Line codeText stmts)

namespace Unsettled

def tF : Text := "f".toList
def tG : Text := "g".toList
def tA : Text := "a".toList
def tB : Text := "b".toList
def one : Ast := .int false none 1
def bodyF : Ast := .call tG [.ref tA]
def bodyG : Ast := .infix (.ref tB) "+".toList one

/-- `fn f(a) g(a)` and `fn g(b) (b + 1)` -/
def lines : List Line := [⟨[], some (.fn tF [tA] bodyF), none⟩, ⟨[], some (.fn tG [tB] bodyG), none⟩]

def text : Text := "fn f(a) g(a)\nfn g(b) (b + 1)\n---\n=f(f(g(g(1))))\n".toList

def cells : Text := "=f(f(g(g(1))))".toList

def row : RowSrc := ⟨[], [([], "=f(f(g(g(1))))".toList)]⟩

def nested : Ast := .call tF [.call tF [.call tG [.call tG [one]]]]

/-- What the formula becomes if `f` is replaced before `g`, … -/
def result₁ : Ast := .infix (.call tF [.call tG [.call tG [one]]]) "+".toList one

/-- … and if `g` is replaced before `f`. -/
def result₂ : Ast := .call tG [.call tF [.infix (.call tG [one]) "+".toList one]]

/-- What it means: `1 + 1 + 1 + 1 + 1`. -/
def meant : Ast := .infix (.infix (.infix (.infix one "+".toList one) "+".toList one) "+".toList one) "+".toList one

def K : Scope := .ofLists [] [(tF, .fn tF [tA] bodyF), (tG, .fn tG [tB] bodyG)]

theorem eval₁ : Eval K (some ⟨0, 0⟩) nested (.ok result₁) := by
  refine .again (not_stops_fn tF (by decide) (by simp)) ⟨[], [tF, tG], ⟨by decide, fun _ => Iff.rfl⟩, ⟨by decide, ?_⟩, rfl⟩ (.stop (.inr ⟨?_, ?_⟩))
  · intro y; show y ∈ [tF, tG] ↔ y ∈ [tF, tF, tG, tG]; simp
  · intro y; show y ∈ [tF, tG, tG] ↔ y ∈ [tF, tF, tG, tG]; simp
  · intro y; exact Iff.rfl

theorem eval₂ : Eval K (some ⟨0, 0⟩) nested (.ok result₂) := by
  refine .again (not_stops_fn tF (by decide) (by simp)) ⟨[], [tG, tF], ⟨by decide, fun _ => Iff.rfl⟩, ⟨by decide, ?_⟩, rfl⟩ (.stop (.inr ⟨?_, ?_⟩))
  · intro y; show y ∈ [tG, tF] ↔ y ∈ [tF, tF, tG, tG]; simp; tauto
  · intro y; show y ∈ [tG, tF, tG] ↔ y ∈ [tF, tF, tG, tG]; simp; tauto
  · intro y; exact Iff.rfl

theorem name (E : Env) : ∀ n ∈ [tF, tG, tA, tB], Parser.Name E.uni n := by
  intro n hn
  simp only [List.mem_cons, List.not_mem_nil, or_false] at hn
  rcases hn with rfl | rfl | rfl | rfl <;> exact Parser.name_ascii E.uni (by decide)

theorem printable (E : Env) {n : Text} (h : n ∈ [tF, tG, tA, tB]) : Parser.Printable E.uni E.f64 (.ref n) := .ref (name E n h).1 (name E n h).2

theorem printable_call (E : Env) {n : Text} (h : n ∈ [tF, tG, tA, tB]) {a : Ast} (ha : Parser.Printable E.uni E.f64 a) : Parser.Printable E.uni E.f64 (.call n [a]) := by
  refine .call (name E n h).1 (name E n h).2 fun b hb => ?_
  rw [List.mem_singleton.mp hb]; exact ha

theorem file (E : Env) : SourceFile E lines cells text := by
  refine ⟨?_, ?_, by decide +kernel, by decide +kernel, by decide, "=f(f(g(g(1))))\n".toList, .inl (by decide), by decide +kernel⟩
  · intro l hl
    simp only [lines, List.mem_cons, List.not_mem_nil, or_false] at hl
    rcases hl with rfl | rfl
    · refine ⟨by simp, ?_, by simp⟩
      intro s hs; cases hs
      refine ⟨name E _ (by decide), fun p hp => ?_, printable_call E (by decide) (printable E (by decide))⟩
      obtain rfl := List.mem_singleton.mp hp
      exact name E _ (by decide)
    · refine ⟨by simp, ?_, by simp⟩
      intro s hs; cases hs
      refine ⟨name E _ (by decide), fun p hp => ?_, .infix (by decide) (printable E (by decide)) (.int (v := 1) (by decide))⟩
      obtain rfl := List.mem_singleton.mp hp
      exact name E _ (by decide)
  · intro m hm
    simp [lines, stmts] at hm

theorem formula_parse (E : Env) : Parser.parse E.uni E.f64 "=f(f(g(g(1))))".toList = .ok nested :=
  Parser.C12_display_parses E.uni E.f64 nested (printable_call E (by decide) (printable_call E (by decide) (printable_call E (by decide)
    (printable_call E (by decide) (.int (v := 1) (by decide))))))

theorem formula (E : Env) : formulaOf E "=f(f(g(g(1))))".toList = some nested := by
  rw [formulaOf, if_pos (by decide), formula_parse]; rfl

theorem section_ (E : Env) : CellsSection E cells [row] := by
  refine ⟨⟨[["=f(f(g(g(1))))".toList]], by decide, .cons (rowText_plain (by decide) (by unfold NoList; decide)) .nil⟩, ?_⟩
  intro r hr c hc _
  obtain rfl := List.mem_singleton.mp hr
  obtain rfl := List.mem_singleton.mp hc
  exact ⟨_, formula_parse E⟩

/-- What a source file without use lines is read as. -/
theorem parse_alone {E : Env} {ls : List Line} {csv src : Text} {rs : List RowSrc} (hsrc : SourceFile E ls csv src) (hc : CellsSection E csv rs) :
    ∃ sc rows, parseModule E src = .ok ⟨[], sc, ⟨rows, false⟩⟩ ∧ Defines (stmts ls) sc ∧ AreRows E rs rows := by
  obtain ⟨c1, c2⟩ := hsrc.split
  obtain ⟨sc, s1, s2, s3, -⟩ := Parser.C48_code_section_partial E.uni E.f64 ls hsrc.lines (usesFirst_of hsrc.uses)
  rw [modules_of hsrc.uses] at s1
  obtain ⟨⟨g, hg, ht⟩, hform⟩ := hc
  rw [Csvp.values_parse] at hg
  obtain ⟨rows, e1, r1⟩ := sheet_parse (E := E) (csv := (Source.SourceCode.new src).csv) (n := (Source.SourceCode.new src).lenCode)
    (by rw [c2, Csvp.values_parse]; exact hg) ht hform
  exact ⟨sc, rows, by rw [parseModule, c1, show parseScope E (some _) = _ from s1]; simp only [e1], ⟨s2, s3⟩, r1⟩

theorem defines_K : Defines (stmts lines) K := by
  refine ⟨fun g => ?_, fun x => rfl⟩
  simp only [lines, stmts, List.filterMap_cons, List.filterMap_nil, Stmt.function?]
  by_cases h1 : g = tF
  · subst h1; rfl
  · by_cases h2 : g = tG
    · subst h2; rfl
    · rw [if_neg (Ne.symm h1), if_neg (Ne.symm h2)]
      show List.lookup g _ = none
      simp [List.lookup, beq_false_of_ne h1, beq_false_of_ne h2]

theorem means (pos : Option Addr) : Means K pos nested meant := by
  have leaf : ∀ {a : Ast}, refNames a = [] → callNames a = [] → Means K pos a a := fun h1 h2 => .leaf fun m => by cases m <;> simp [Uses, h1, h2]
  have hg : ∀ {a b : Ast}, Means K pos a b → Means K pos (.call tG [a]) (.infix b "+".toList one) := fun h =>
    .body (nm := tG) (ps := [tB]) (body := bodyG) rfl rfl (.infix h (leaf rfl rfl))
  have hf : ∀ {a b : Ast}, Means K pos a b → Means K pos (.call tF [a]) (.infix b "+".toList one) := fun h =>
    .body (nm := tF) (ps := [tA]) (body := bodyF) rfl rfl (hg h)
  exact hf (hf (hg (hg (leaf rfl rfl))))

/-- Each outcome of the formula is the outcome of an evaluation of the sheet. -/
theorem evaluated {E : Env} {sc : Scope} {rows : List Row} (hd : Defines (stmts lines) sc) (hr : AreRows E [row] rows) {b : Ast}
    (hb : Eval K (some ⟨0, 0⟩) nested (.ok b)) :
    ∃ s c, EvalSheet sc (collect []) ⟨rows, false⟩ (.ok s) ∧ sheetCell s 0 0 = some c ∧ c.ast = some b := by
  obtain ⟨r, c, s₁, rfl, hcells, ha, hs₁, hn⟩ := Lib.one_cell (formula E) hr
  have hfill : r.fill = none := by
    obtain ⟨r', r1, r2⟩ := hr.2 0 row rfl
    cases r1
    exact r2.fill
  have hs : s₁.rows = [r] := by
    rw [evalFills] at hs₁
    simp only [Bool.false_eq_true, if_false, multipleInfinite, hfill] at hs₁
    cases hs₁
    simp only [expandLoop, hfill]
  have hscope : ∀ {a o}, Eval (effective sc (collect []) s₁) (some ⟨0, 0⟩) a o ↔ Eval K (some ⟨0, 0⟩) a o := by
    intro a o
    refine eval_sameDefs ?_ ?_
    · funext g
      show sc.functions g = _
      rw [hd.functions]
      rw [← defines_K.functions]
    · funext x
      show (sc.variables x).or (mainNames (collect []) s₁ x) = _
      rw [hd.vars, hn, ← defines_K.vars, Option.or_none]
  obtain ⟨sheet, e1⟩ := isEnum_collect ((insertions 0 s₁.rows).map fun p => (p.1, .cellVar p.1 p.2))
  have e2 : IsEnum [] sc.variables := ⟨List.nodup_nil, fun k v => by rw [hd.vars, ← defines_K.vars]; simp [K, Scope.ofLists]⟩
  have e3 : IsEnum [] (collect []) := ⟨List.nodup_nil, fun k v => by simp [collect]⟩
  obtain ⟨own', e4⟩ := isEnum_collect (sheet ++ [])
  refine ⟨⟨[{ r with cells := [{ c with ast := some b }] }], s₁.expanded⟩, { c with ast := some b }, ⟨s₁, sheet, [], [], own', .ok _, hs₁, e1, e2, e3, e4, ?_, rfl⟩, rfl, rfl⟩
  rw [evalScope_effective e1 e2 e3 e4, hs]
  refine .ok (.cons ⟨.ok _, ?_, rfl⟩ .nil)
  rw [hcells]
  exact .formula (o := .ok []) ha (hscope.mpr hb) .nil

/-- A run of the program for each outcome of the formula. -/
theorem run (E : Env) (version : Nat) {b : Ast} (hb : Eval K (some ⟨0, 0⟩) nested (.ok b)) :
    ∃ states w final out, Main E version [] (fun _ => []) [] (exampleArgs false []) (exampleFs text) exampleFiles (some .success) states w ∧
      states.getLast? = some final ∧ Wrote exampleFiles final (Path.ofText "out.csv".toList) out ∧ cellAt (csvRead out) 0 0 = '=' :: Parser.display b := by
  obtain ⟨sc, rows, hp, hd, hr⟩ := parse_alone (file E) (section_ E)
  obtain ⟨s, c, h1, h2, h3⟩ := evaluated hd hr hb
  obtain ⟨states, w, final, k1, k2, k3⟩ := main_alone_with (version := version) (ts := []) (partials := fun _ => []) (cuts := []) (files := exampleFiles)
    (exampleSetup E false [] [] rfl) (by intro h; cases h) (exampleFresh text) hp rfl h1
  refine ⟨states, w, final, _, k1, k2, k3, ?_⟩
  have hd : c.display = '=' :: Parser.display b := by rw [Cell.display, h3]; rfl
  have hb : NoBom true s (exampleFiles (Path.ofText "out.csv".toList)) := written_mark (safe := false) (by unfold NoMark; decide) fun c' hc' => by
    rw [h2] at hc'; cases hc'
    rw [hd, NoMark]; exact fun h => absurd (Option.some.inj h) (by decide)
  rw [show (!(exampleArgs false []).safe) = true from rfl, C40_csv_overwrite hb h2, hd]

end Unsettled

open Unsettled

/-- C52 fails: there are two runs on the same file with the same files around, both of which succeed, and whose targets show different formulas; which of them it is is decided
by the order in which a hash set is iterated. -/
theorem C52_violated (E : Env) (version : Nat) :
    ∃ states w final out states' w' final' out',
      Main E version [] (fun _ => []) [] (exampleArgs false []) (exampleFs text) exampleFiles (some .success) states w ∧
      states.getLast? = some final ∧ Wrote exampleFiles final (Path.ofText "out.csv".toList) out ∧
      Main E version [] (fun _ => []) [] (exampleArgs false []) (exampleFs text) exampleFiles (some .success) states' w' ∧
      states'.getLast? = some final' ∧ Wrote exampleFiles final' (Path.ofText "out.csv".toList) out' ∧
      cellAt (csvRead out) 0 0 = "=(f(g(g(1))) + 1)".toList ∧ cellAt (csvRead out') 0 0 = "=g(f((g(1) + 1)))".toList := by
  obtain ⟨states, w, final, out, h1, h2, h3, h4⟩ := run E version eval₁
  obtain ⟨states', w', final', out', h1', h2', h3', h4'⟩ := run E version eval₂
  exact ⟨states, w, final, out, states', w', final', out', h1, h2, h3, h1', h2', h3', h4.trans (by decide +kernel), h4'.trans (by decide +kernel)⟩

/-- C80 fails: the formula of the cells section means `1 + 1 + 1 + 1 + 1` by the definitions of the code section, but a run succeeds and writes something else, in which names
that the code section defines are left. -/
theorem C80_violated (E : Env) (version : Nat) :
    ∃ ls csv src rs K f b states w final out, SourceFile E ls csv src ∧ CellsSection E csv rs ∧ Defines (stmts ls) K ∧
      rs = [⟨[], [([], csv)]⟩] ∧ formulaOf E csv = some f ∧ (∀ pos, Means K pos f b) ∧
      Main E version [] (fun _ => []) [] (exampleArgs false []) (exampleFs src) exampleFiles (some .success) states w ∧
      states.getLast? = some final ∧ Wrote exampleFiles final (Path.ofText "out.csv".toList) out ∧
      '=' :: Parser.display b = "=((((1 + 1) + 1) + 1) + 1)".toList ∧ cellAt (csvRead out) 0 0 = "=g(f((g(1) + 1)))".toList := by
  obtain ⟨states, w, final, out, h1, h2, h3, h4⟩ := run E version eval₂
  exact ⟨lines, cells, text, [row], K, nested, meant, states, w, final, out, file E, section_ E, defines_K, rfl, formula E, means, h1, h2, h3, by decide +kernel,
    h4.trans (by decide +kernel)⟩

/-- C84 fails: the same program can be compiled to a sheet in which the formula is not what it means. -/
theorem C84_violated (E : Env) (version : Nat) (useCache : Bool) :
    ∃ ls csv src rs K f b s c b' w, SourceFile E ls csv src ∧ CellsSection E csv rs ∧ Defines (stmts ls) K ∧
      rs = [⟨[], [([], csv)]⟩] ∧ formulaOf E csv = some f ∧ (∀ pos, Means K pos f b) ∧
      Compile (parseModule E) version useCache (collect []) (exampleFs src) ["sheet".toList] (.ok s) w ∧ sheetCell s 0 0 = some c ∧ c.ast = some b' ∧
      Parser.display b ≠ Parser.display b' := by
  obtain ⟨sc, rows, hp, hd, hr⟩ := parse_alone (file E) (section_ E)
  obtain ⟨s, c, h1, h2, h3⟩ := evaluated hd hr eval₂
  obtain ⟨w, hw⟩ := compile_alone_ok (version := version) (useCache := useCache) (kv := collect []) (exampleFresh text) hp rfl h1
  exact ⟨lines, cells, text, [row], K, nested, meant, s, c, result₂, w, file E, section_ E, defines_K, rfl, formula E, means, hw, h2, h3, by decide +kernel⟩

end Verif.Cli
