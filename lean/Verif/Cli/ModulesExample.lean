import Verif.Cli.OneFile
import Verif.Cli.Examples
/-
A concrete case of C82: a main module and a library.
-/
namespace Verif.Cli
open Verif.Ast Verif.Loader Verif.Sheet Verif.Cache Verif.Csvp.Spec
open Verif.Cell hiding Target
open Verif.Target hiding MPath
open Verif.Parser (Stmt Line codeText stmts)

namespace Lib

def tDouble : Text := "double".toList
def tRate : Text := "rate".toList
def tN : Text := "n".toList
def tY : Text := "y".toList
def times : Ast := .infix (.ref tN) "*".toList (.ref tRate)
def call7 : Ast := .call tDouble [.int false none 7]
def formula : Ast := .infix (.ref tY) "+".toList (.ref tRate)

/-- The library. -/
def libLines : List Line := [⟨[], some (.var tRate (.int false none 2)), none⟩, ⟨[], some (.fn tDouble [tN] times), none⟩]

def libText : Text := "rate := 2\nfn double(n) (n * rate)\n---\n".toList

/-- The main module. -/
def mainLines : List Line := [⟨[], some (.use "lib".toList), none⟩, ⟨[], some (.var tY call7), none⟩]

def mainText : Text := "use lib\ny := double(7)\n---\n=(y + rate)\n".toList

def cells : Text := "=(y + rate)".toList

theorem name (E : Env) : ∀ n ∈ ["lib".toList, tDouble, tRate, tN, tY], Parser.Name E.uni n := by
  intro n hn
  simp only [List.mem_cons, List.not_mem_nil, or_false] at hn
  rcases hn with rfl | rfl | rfl | rfl | rfl <;> exact Parser.name_ascii E.uni (by decide)

theorem printable (E : Env) {n : Text} (h : n ∈ ["lib".toList, tDouble, tRate, tN, tY]) : Parser.Printable E.uni E.f64 (.ref n) :=
  .ref (name E n h).1 (name E n h).2

theorem lib_file (E : Env) : ModuleFile E libLines [] libText := by
  refine ⟨?_, ?_, by decide +kernel, by decide +kernel, by decide, [], .inr ⟨rfl, by decide⟩, by decide +kernel⟩
  · intro l hl
    simp only [libLines, List.mem_cons, List.not_mem_nil, or_false] at hl
    rcases hl with rfl | rfl
    · exact ⟨by simp, by intro s hs; cases hs; exact ⟨name E _ (by decide), .int (v := 2) (by decide)⟩, by simp⟩
    · refine ⟨by simp, ?_, by simp⟩
      intro s hs; cases hs
      refine ⟨name E _ (by decide), ?_, .infix (by decide) (printable E (by decide)) (printable E (by decide))⟩
      intro p hp
      obtain rfl := List.mem_singleton.mp hp
      exact name E _ (by decide)
  · simp [libLines, stmts, Parser.UsesFirst]

theorem main_file (E : Env) : ModuleFile E mainLines cells mainText := by
  refine ⟨?_, ?_, by decide +kernel, by decide +kernel, by decide, "=(y + rate)\n".toList, .inl (by decide), by decide +kernel⟩
  · intro l hl
    simp only [mainLines, List.mem_cons, List.not_mem_nil, or_false] at hl
    rcases hl with rfl | rfl
    · exact ⟨by simp, by intro s hs; cases hs; exact name E _ (by decide), by simp⟩
    · refine ⟨by simp, ?_, by simp⟩
      intro s hs; cases hs
      refine ⟨name E _ (by decide), .call (name E _ (by decide)).1 (by decide) ?_⟩
      intro a ha
      obtain rfl := List.mem_singleton.mp ha
      exact .int (v := 7) (by decide)
  · simp [mainLines, stmts, Parser.UsesFirst]

theorem formula_parse (E : Env) : Parser.parse E.uni E.f64 "=(y + rate)".toList = .ok formula :=
  Parser.C12_display_parses E.uni E.f64 formula (.infix (by decide) (printable E (by decide)) (printable E (by decide)))

def row : RowSrc := ⟨[], [([], "=(y + rate)".toList)]⟩

theorem main_cells (E : Env) : CellsSection E cells [row] := by
  refine ⟨⟨[["=(y + rate)".toList]], by decide, .cons (rowText_plain (by decide) (by unfold NoList; decide)) .nil⟩, ?_⟩
  intro r hr c hc _
  obtain rfl := List.mem_singleton.mp hr
  obtain rfl := List.mem_singleton.mp hc
  exact ⟨_, formula_parse E⟩

theorem lib_cells (E : Env) : CellsSection E [] [] := ⟨⟨[], by decide, .nil⟩, by simp⟩

def files : FS Text :=
  ⟨fun m => if m = ["sheet".toList] then some (mainText, 7) else if m = ["lib".toList] then some (libText, 5) else none, fun _ => none⟩

theorem program (E : Env) {version : Nat} : Program E version files false ["sheet".toList] (stmts mainLines) [(["lib".toList], stmts libLines)] := by
  refine ⟨?_, fun _ e _ o t h => (by cases h), ?_, by decide, fun m => if m = ["sheet".toList] then 1 else 0, ?_, ?_⟩
  · intro e he
    obtain rfl := List.mem_singleton.mp he
    exact ⟨libLines, [], libText, 5, [], lib_file E, rfl, lib_cells E, rfl⟩
  · rintro q (hq | ⟨e, he, hq⟩)
    · obtain rfl : q = ["lib".toList] := List.mem_singleton.mp hq
      exact ⟨_, List.mem_singleton.mpr rfl⟩
    · obtain rfl := List.mem_singleton.mp he
      cases hq
  · intro q hq
    obtain rfl : q = ["lib".toList] := List.mem_singleton.mp hq
    decide
  · intro e he q hq
    obtain rfl := List.mem_singleton.mp he
    cases hq

/-- All definitions. -/
structure All (sc : Scope) : Prop where
  functions : ∀ g, sc.functions g = if g = tDouble then some (.fn tDouble [tN] times) else none
  vars : ∀ x, sc.variables x = if x = tRate then some (.var tRate (.int false none 2)) else if x = tY then some (.var tY call7) else none

section
variable {sc : Scope} (h : All sc)
include h

theorem All.fn {g : Text} {d : Ast} (hd : sc.functions g = some d) : g = tDouble ∧ d = .fn tDouble [tN] times := by
  rw [h.functions] at hd
  split at hd
  · cases hd; exact ⟨by assumption, rfl⟩
  · cases hd

theorem All.var {x : Text} {d : Ast} (hd : sc.variables x = some d) :
    (x = tRate ∧ d = .var tRate (.int false none 2)) ∨ (x = tY ∧ d = .var tY call7) := by
  rw [h.vars] at hd
  split at hd
  · cases hd; exact .inl ⟨by assumption, rfl⟩
  · split at hd
    · cases hd; exact .inr ⟨by assumption, rfl⟩
    · cases hd

theorem All.mentions {pos : Option Addr} {n m : Name} (hm : Mentions sc pos n m) :
    (n = .v tY ∧ m = .f tDouble) ∨ (n = .f tDouble ∧ m = .v tRate) := by
  cases n with
  | v x =>
    obtain ⟨d, a, hd, ha, hu⟩ := hm
    rcases h.var hd with ⟨rfl, rfl⟩ | ⟨rfl, rfl⟩
    · cases ha; cases m <;> simp [Uses, refNames, callNames] at hu
    · cases ha; cases m <;> simp [Uses, refNames, refNamesL, callNames, callNamesL, call7] at hu
      exact .inl ⟨rfl, by rw [hu]⟩
  | f x =>
    obtain ⟨nm, ps, body, hd, hu, hps⟩ := hm
    obtain ⟨rfl, he⟩ := h.fn hd
    cases he; cases m <;> simp [Uses, refNames, callNames, times] at hu hps
    rcases hu with hu | hu
    · exact absurd hu hps
    · exact .inr ⟨rfl, by rw [hu]⟩

theorem All.needs {pos : Option Addr} {m : Name} (hm : Needs sc pos (.v tRate) m) : m = .v tRate :=
  needs_closed (S := fun m => m = .v tRate) (fun a b ha hab => by subst ha; rcases h.mentions hab with ⟨e, -⟩ | ⟨e, -⟩ <;> cases e) rfl hm

theorem All.tidy (pos : Option Addr) : Tidy sc pos [.v tRate, .f tDouble, .v tY] (fun p => p = tN) := by
  refine ⟨⟨?_, ?_⟩, ⟨?_, ?_, ?_⟩, ⟨?_, ?_⟩, ?_, ?_⟩
  · intro n hn
    cases n with
    | v x =>
      obtain ⟨d, hd⟩ := Option.isSome_iff_exists.mp hn
      rcases h.var hd with ⟨rfl, -⟩ | ⟨rfl, -⟩ <;> simp
    | f x =>
      obtain ⟨d, hd⟩ := Option.isSome_iff_exists.mp hn
      obtain ⟨rfl, -⟩ := h.fn hd; simp
  · intro n m _ _ hnm
    rcases h.mentions hnm with ⟨rfl, rfl⟩ | ⟨rfl, rfl⟩ <;> decide
  · intro g nm ps body hd p hp
    obtain ⟨-, he⟩ := h.fn hd
    cases he; simpa using hp
  · intro x d a hd ha r hr
    rcases h.var hd with ⟨-, rfl⟩ | ⟨-, rfl⟩ <;> cases ha <;> simp [refNames, refNamesL, call7] at hr
  · intro g nm ps body hd r hr hps
    obtain ⟨-, he⟩ := h.fn hd
    cases he; simp [refNames, times] at hr hps
    rcases hr with hr | hr
    · exact absurd hr hps
    · subst hr; decide
  · intro x d a hd ha
    rcases h.var hd with ⟨-, rfl⟩ | ⟨-, rfl⟩ <;> cases ha
    · simp [Apart]
    · rw [call7, Apart, ApartL_iff]
      refine ⟨by simp [Apart], fun _ a ha m hu => ?_⟩
      obtain rfl := List.mem_singleton.mp ha
      cases m <;> simp [Uses, refNames, callNames] at hu
  · intro g nm ps body hd
    obtain ⟨-, he⟩ := h.fn hd
    cases he; simp [Apart, times]
  · intro x d a hd ha
    rcases h.var hd with ⟨-, rfl⟩ | ⟨-, rfl⟩ <;> cases ha
    · simp [arityOk]
    · simp only [call7, arityOk, arityOkL, and_true, true_and]
      intro nm ps body hd
      obtain ⟨-, he⟩ := h.fn hd
      cases he; rfl
  · intro g nm ps body hd
    obtain ⟨-, he⟩ := h.fn hd
    cases he; simp [arityOk, times]

theorem All.clear (pos : Option Addr) : Clear sc pos formula [.v tRate, .f tDouble, .v tY] (fun p => p = tN) := by
  have ht := h.tidy pos
  refine ⟨ht.acyclic, ht.hygienic, ht.apart, ht.arityVars, ht.arityFns, ?_, by simp [Apart, formula], by simp [arityOk, formula]⟩
  intro r hr
  simp only [formula, refNames, List.mem_append, List.mem_singleton] at hr
  rcases hr with rfl | rfl <;> decide

theorem All.means (pos : Option Addr) :
    Ast.Means sc pos formula (.infix (.infix (.int false none 7) "*".toList (.int false none 2)) "+".toList (.int false none 2)) := by
  have hrate : Ast.Means sc pos (.ref tRate) (.int false none 2) :=
    .value (d := .var tRate (.int false none 2)) (by rw [h.vars, if_pos rfl]) rfl (.leaf fun m => by cases m <;> simp [Uses, refNames, callNames])
  refine .infix (.value (d := .var tY call7) (by rw [h.vars]; rfl) rfl ?_) hrate
  refine .body (nm := tDouble) (ps := [tN]) (body := times) (by rw [h.functions, if_pos rfl]) rfl ?_
  exact .infix (.leaf fun m => by cases m <;> simp [subst, Ast.bind, Uses, refNames, callNames]) hrate

end

/-- The definitions of the example. -/
def K : Scope := ⟨fun g => if g = tDouble then some (.fn tDouble [tN] times) else none,
  fun x => if x = tRate then some (.var tRate (.int false none 2)) else if x = tY then some (.var tY call7) else none, []⟩

theorem K_all : All K := ⟨fun _ => rfl, fun _ => rfl⟩

section
variable {fetch : MPath → Except LoadError Mod} {main lib : Mod} (hm : IsModule (stmts mainLines) main) (hf : fetch ["lib".toList] = .ok lib)
  (hl : IsModule (stmts libLines) lib)
include hm hf hl

omit hf hl in
theorem main_scope : (∀ g, main.scope.functions g = none) ∧ ∀ x, main.scope.variables x = if x = tY then some (.var tY call7) else none := by
  constructor
  · intro g; rw [hm.defines.functions]; rfl
  · intro x
    rw [hm.defines.vars]
    simp only [mainLines, stmts, List.filterMap_cons, List.filterMap_nil, Stmt.variable?]
    by_cases hx : x = tY
    · subst hx; rfl
    · rw [if_neg (Ne.symm hx), if_neg hx]; rfl

omit hm hf in
theorem lib_scope : (∀ g, lib.scope.functions g = if g = tDouble then some (.fn tDouble [tN] times) else none) ∧
    ∀ x, lib.scope.variables x = if x = tRate then some (.var tRate (.int false none 2)) else none := by
  constructor
  · intro g
    rw [hl.defines.functions]
    simp only [libLines, stmts, List.filterMap_cons, List.filterMap_nil, Stmt.function?]
    by_cases hx : g = tDouble
    · subst hx; rfl
    · rw [if_neg (Ne.symm hx), if_neg hx]; rfl
  · intro x
    rw [hl.defines.vars]
    simp only [libLines, stmts, List.filterMap_cons, List.filterMap_nil, Stmt.variable?]
    by_cases hx : x = tRate
    · subst hx; rfl
    · rw [if_neg (Ne.symm hx), if_neg hx]; rfl

theorem reach_lib {q : MPath} (h : Reach fetch main q) : q = ["lib".toList] := by
  induction h with
  | direct h => rw [hm.required] at h; exact List.mem_singleton.mp h
  | indirect _ h2 h3 ih =>
    subst ih
    rw [hf] at h2; cases h2
    rw [hl.required] at h3; cases h3

theorem reach_is_lib {q : MPath} {m : Mod} (h : Reach fetch main q) (h' : fetch q = .ok m) : m = lib := by
  obtain rfl := reach_lib hm hf hl h
  rw [hf] at h'; cases h'; rfl

theorem is_union : IsUnion fetch main K := by
  obtain ⟨m1, m2⟩ := main_scope hm
  obtain ⟨l1, l2⟩ := lib_scope hl
  have hlib : InProgram fetch main lib := .inr ⟨_, .direct (by rw [hm.required]; exact List.mem_singleton.mpr rfl), hf⟩
  have hmods : ∀ m, InProgram fetch main m → m = main ∨ m = lib := by
    rintro m (rfl | ⟨q, h1, h2⟩)
    · exact .inl rfl
    · exact .inr (reach_is_lib hm hf hl h1 h2)
  constructor
  · intro x d
    constructor
    · intro hd
      rcases K_all.var hd with ⟨rfl, rfl⟩ | ⟨rfl, rfl⟩
      · exact ⟨lib, hlib, by rw [l2]; rfl⟩
      · exact ⟨main, .inl rfl, by rw [m2]; rfl⟩
    · rintro ⟨m, h1, h2⟩
      rcases hmods m h1 with rfl | rfl
      · rw [m2] at h2
        split at h2
        · cases h2; subst x; rfl
        · cases h2
      · rw [l2] at h2
        split at h2
        · cases h2; subst x; rfl
        · cases h2
  · intro g d
    constructor
    · intro hd
      obtain ⟨rfl, rfl⟩ := K_all.fn hd
      exact ⟨lib, hlib, by rw [l1]; rfl⟩
    · rintro ⟨m, h1, h2⟩
      rcases hmods m h1 with rfl | rfl
      · rw [m1] at h2; cases h2
      · rw [l1] at h2; exact h2

theorem main_sees : ∀ n, Defined K n → Sees fetch main n := by
  obtain ⟨m1, m2⟩ := main_scope hm
  obtain ⟨l1, l2⟩ := lib_scope hl
  have hlib : ∀ n, nameText n ∈ lib.scope.exports → Defined lib.scope n → Sees fetch main n := fun n h1 h2 =>
    .used (by rw [hm.required]; exact List.mem_singleton.mpr rfl) hf h1 (.own h2)
  intro n hn
  cases n with
  | v x =>
    obtain ⟨d, hd⟩ := Option.isSome_iff_exists.mp hn
    rcases K_all.var hd with ⟨rfl, rfl⟩ | ⟨rfl, rfl⟩
    · refine hlib _ ((hl.exports _).mpr ⟨.var tRate (.int false none 2), by simp [libLines, stmts], rfl⟩) ?_
      simp only [Defined, l2]; rfl
    · refine .own ?_
      simp only [Defined, m2]; rfl
  | f g =>
    obtain ⟨d, hd⟩ := Option.isSome_iff_exists.mp hn
    obtain ⟨rfl, rfl⟩ := K_all.fn hd
    refine hlib _ ((hl.exports _).mpr ⟨.fn tDouble [tN] times, by simp [libLines, stmts], rfl⟩) ?_
    simp only [Defined, l1]; rfl

theorem separate : Separate fetch main K (fun _ => none) := by
  have hsee := main_sees hm hf hl
  obtain ⟨l1, l2⟩ := lib_scope hl
  refine ⟨fun q m h1 h2 => ?_, fun q m x d h1 h2 hd => ?_, ⟨fun _ _ _ n _ h => hsee n h, fun _ _ _ _ _ n _ _ h => hsee n h, fun _ _ _ _ _ _ _ _ h => hsee _ h⟩, fun _ _ h => by cases h⟩
  · obtain rfl := reach_is_lib hm hf hl h1 h2
    refine ⟨fun x a hx n hu _ => ?_, fun g nm ps body hg n hu hp _ => ?_, fun g nm ps body _ hg n hn _ => ?_⟩
    · rw [l2] at hx
      split at hx
      · cases hx; cases n <;> simp [Uses, refNames, callNames] at hu
      · cases hx
    · rw [l1] at hg
      split at hg
      · cases hg
        cases n <;> simp [Uses, refNames, callNames, times] at hu hp
        rcases hu with rfl | rfl
        · exact absurd rfl hp
        · exact .own (by simp only [Defined, l2]; rfl)
      · cases hg
    · obtain ⟨rfl, he⟩ := K_all.fn hg
      cases he; simp [callNames, times] at hn
  · obtain rfl := reach_is_lib hm hf hl h1 h2
    rw [l2] at hd
    split at hd
    · subst x
      rintro ⟨g, nm, ps, body, hg, hp⟩
      obtain ⟨rfl, he⟩ := K_all.fn hg
      cases he; exact absurd hp (by decide)
    · cases hd

end

/-- The example meets the hypotheses of C82 and C84. -/
theorem met {E : Env} {fetch : MPath → Except LoadError Mod} {main : Mod} {rows : List Row} (d1 : IsModule (stmts mainLines) main)
    (d2 : ∀ e ∈ [(["lib".toList], stmts libLines)], ∃ m, fetch e.1 = .ok m ∧ IsModule e.2 m) (d3 : AreRows E [row] rows) :
    ∃ r c s₁ order isParam, rows = [r] ∧ r.cells = [c] ∧ c.ast = some formula ∧ copies rows r = 1 ∧ evalFills ⟨rows, false⟩ = some s₁ ∧
      IsUnion fetch main K ∧ Tidy K none order isParam ∧ AllClear (effective K (collect []) s₁) rows ∧ AllSeen fetch main K (collect []) s₁ rows ∧
      All (effective K (collect []) s₁) := by
  obtain ⟨lib, hf, hl⟩ := d2 _ (List.mem_singleton.mpr rfl)
  obtain ⟨r, rfl⟩ : ∃ r, rows = [r] := List.length_eq_one_iff.mp d3.1
  obtain ⟨r', r1, r2⟩ := d3.2 0 row rfl
  cases r1
  have hfill : r.fill = none := r2.fill
  obtain ⟨c, hcells⟩ : ∃ c, r.cells = [c] := by
    have := congrArg List.length r2.cells
    rw [List.length_map, List.length_map] at this
    exact List.length_eq_one_iff.mp this
  have hc := r2.cells
  rw [hcells, r2.opts] at hc
  simp only [List.map_cons, List.map_nil, row, List.cons.injEq, Prod.mk.injEq, and_true] at hc
  obtain ⟨o0, v0, a0⟩ := hc
  have a0' : c.ast = some formula := by rw [a0, formulaOf, if_pos (by decide), formula_parse]; rfl
  have n0 : c.opts.var = none := by rw [o0]; rfl
  have hcop : copies [r] r = 1 := by
    have hb : ¬ Unbounded r := by rintro ⟨y, hy⟩; rw [hfill] at hy; cases hy
    rw [copies, if_neg hb, boundedCopies, hfill]
  have htot : total [r] [] = 0 := rfl
  obtain ⟨s₁, hs₁⟩ : ∃ s₁, evalFills ⟨[r], false⟩ = some s₁ := by
    rw [evalFills]
    simp only [Bool.false_eq_true, if_false, multipleInfinite, hfill]
    exact ⟨_, rfl⟩
  have hnames : mainNames (collect []) s₁ = fun _ => none := by
    funext x
    rw [mainNames, sheetVars_none hs₁]
    · rfl
    · intro r' hr'
      obtain rfl := List.mem_singleton.mp hr'
      rw [names, hcells, r2.opts]
      simp only [List.filterMap_cons, List.filterMap_nil, n0, List.append_nil]
      intro hx; cases hx
  have hall : All (effective K (collect []) s₁) := by
    refine ⟨fun _ => rfl, fun x => ?_⟩
    show (K.variables x).or (mainNames (collect []) s₁ x) = _
    rw [hnames, Option.or_none]; rfl
  have hsplit : ∀ before r' after, [r] = before ++ r' :: after → before = [] ∧ r' = r := by
    intro before r' after e1
    cases before with
    | nil => simp only [List.nil_append, List.cons.injEq] at e1; exact ⟨rfl, e1.1.symm⟩
    | cons b bs =>
      simp only [List.cons_append, List.cons.injEq] at e1
      exact absurd e1.2 (by simp)
  have hclear : AllClear (effective K (collect []) s₁) [r] := by
    intro before r' after i x c' f e1 e2 e3 e4
    obtain ⟨rfl, rfl⟩ := hsplit _ _ _ e1
    rw [hcells] at e3
    match x with
    | 0 =>
      cases e3; rw [a0'] at e4; cases e4
      exact ⟨_, _, hall.clear _⟩
    | x + 1 => cases e3
  have hseen : AllSeen fetch main K (collect []) s₁ [r] := by
    refine ⟨by rw [hnames]; exact separate d1 hf hl, fun _ _ _ _ _ _ n _ h => main_sees d1 hf hl n h, fun pos x d v hx => by rw [hnames] at hx; cases hx⟩
  exact ⟨r, c, s₁, _, _, rfl, hcells, a0', hcop, hs₁, is_union d1 hf hl, K_all.tidy none, hclear, hseen, hall⟩

/-- C82 on the example: `=(y + rate)` is shown as `=((7 * 2) + 2)`. -/
example (E : Env) (version : Nat) (e : Option Exit) (states : List (Files Text)) (w : List (MPath × Module Text))
    (h : Main E version [] (fun _ => []) [] (exampleArgs false []) files exampleFiles e states w) :
    e = some .success ∧ ∃ final out, states.getLast? = some final ∧ Wrote exampleFiles final (Path.ofText "out.csv".toList) out ∧
      cellAt (csvRead out) 0 0 = "=((7 * 2) + 2)".toList := by
  have h0 : NoMark (cellAt (rowsOf (exampleFiles (Path.ofText "out.csv".toList))) 0 0) := by unfold NoMark; decide
  obtain ⟨fetch, main, rows, d1, d2, d3, hmain⟩ := C82_modules_partial version [] (fun _ => []) [] (exampleSetup E false [] [] rfl) (by intro h; cases h)
    (main_file E) (fs := files) ⟨7, rfl, by intro o t h; cases h⟩ (main_cells E) (program E) (files := exampleFiles) h0
    (by
      intro r hr c hc
      obtain rfl := List.mem_singleton.mp hr
      obtain rfl := List.mem_singleton.mp hc
      unfold NoMark; decide)
  obtain ⟨r, c, s₁, order, isParam, rfl, hcells, a0', hcop, hs₁, hu, hT, hclear, hseen, hall⟩ := met d1 d2 d3
  obtain ⟨h2, -, final, out, h3, h4, h5, h6⟩ := (hmain s₁ K _ _ hs₁ hu hT hclear hseen).2 e states w h
  have hsafe : (exampleArgs false []).safe = false := rfl
  have htot : total [r] [] = 0 := rfl
  refine ⟨h2, final, out, h3, h4, ?_⟩
  obtain ⟨t, t1, -, t3⟩ := h6 [] r [] rfl 0 (by rw [hcop]; decide) 0 c (by rw [hcells]; rfl)
  rw [htot, Nat.zero_add, shown, hsafe, if_neg (by simp)] at t1
  rw [t1, (t3 _ a0').2 _ (hall.means _)]
  decide +kernel

end Lib
end Verif.Cli
