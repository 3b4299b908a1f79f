import Verif.Cli.Modules
/-
The compiled sheet of a program (C84), whatever the target.
-/
namespace Verif.Cli
open Verif.Ast Verif.Loader Verif.Sheet Verif.Cache Verif.Csvp.Spec
open Verif.Cell hiding Target
open Verif.Target hiding MPath
open Verif.Parser (Stmt Line codeText stmts)

/-! ## Specification -/

/-- The compiled cell `c'` is the cell `c` at the position: its text and options, and its formula is what it means with the definitions `sc`. -/
structure CellMeans (sc : Scope) (pos : Addr) (c c' : Cell) : Prop where
  value : c'.value = c.value
  opts : c'.opts = c.opts
  text : c.ast = none → c'.ast = none
  formula : ∀ f, c.ast = some f → ∃ b, c'.ast = some b ∧ Ast.Means sc (some pos) f b ∧ ∀ b', Ast.Means sc (some pos) f b' → b' = b

/-- The compiled sheet `s` of the rows `rows`: each row as often as its fill says, from top to bottom, with its cells. -/
structure SheetMeans (sc : Scope) (rows : List Row) (s : Sheet) : Prop where
  length : s.rows.length = total rows rows
  rows : ∀ before r after, rows = before ++ r :: after → ∀ i, i < copies rows r →
    ∃ q, s.rows[total rows before + i]? = some q ∧ q.cells.length = r.cells.length ∧
      ∀ x c, r.cells[x]? = some c → ∃ c', q.cells[x]? = some c' ∧ CellMeans sc ⟨x, total rows before + i⟩ c c'

/-! ## Proofs -/

section
variable {E : Env} {version : Nat} {noCache : Bool} {fs : FS Text} {mp : MPath} {kv : Text → Option Ast}
  {ls : List Line} {csv src : Text} {rs : List RowSrc} {lib : List (MPath × List Stmt)}

theorem sheet_means {sc K : Scope} {rows : List Row} {s s₁ : Sheet} (hs₁ : evalFills ⟨rows, false⟩ = some s₁) (hg : GivesMeaning K kv s₁ rows sc)
    (hev : EvalSheet sc kv ⟨rows, false⟩ (.ok s)) : SheetMeans (effective K kv s₁) rows s := by
  obtain ⟨-, hlen, hshape⟩ := C51_shape sc kv ⟨rows, false⟩ s₁ s hev hs₁
  obtain ⟨k1, k2⟩ := C24_rows rows s₁ hs₁
  refine ⟨by rw [hlen, k1], fun before r after he i hi => ?_⟩
  have hq := k2 before r after he i hi
  obtain ⟨q', m1, -, -, m4, m5⟩ := hshape _ _ hq
  refine ⟨q', m1, m4, fun x c hc => ?_⟩
  obtain ⟨c', n1, n0, n2, n5, n3, n4⟩ := m5 x c hc
  refine ⟨c', n1, ⟨n2, n5, n3, fun f hf => ?_⟩⟩
  obtain ⟨b, o1, o2⟩ := n4 f hf
  obtain ⟨b', p1, p2, p3⟩ := hg.2 before r after i x c f he hi hc hf
  cases (p3 _).mp o2
  exact ⟨_, o1, p1, p2⟩

theorem parsed_sheet {m : Parsed} (h : parseModule E src = .ok m) : ∃ t n, Sheet.parse E t n = .ok m.sheet := by
  rw [parseModule] at h
  split at h
  · cases h
  · split at h
    · cases h
    · rename_i hs
      cases h
      exact ⟨_, _, hs⟩

/-- What compiling gives, with the modules as read from their sources. -/
theorem program_sheets {version : Nat} {scm : Scope} {rows : List Row} (hv : ∃ l kvs, Parser.parseKeyValues E.uni E.f64 kvs = some l ∧ kv = collect l)
    (hlines : ∀ l ∈ ls, l.Ok E.uni E.f64) (hpm : parseModule E src = .ok ⟨usedBy (stmts ls), scm, ⟨rows, false⟩⟩)
    (him : IsModule (stmts ls) ⟨usedBy (stmts ls), scm, false, true⟩) (hrows : AreRows E rs rows) (hf : Fresh fs mp src)
    (hlib : Program E version fs noCache mp (stmts ls) lib) :
    ∀ s₁ K order isParam, evalFills ⟨rows, false⟩ = some s₁ →
      IsUnion (fetchOf (parseModule E) version false fs) (mainMod ⟨usedBy (stmts ls), scm, ⟨rows, false⟩⟩) K → Tidy K none order isParam →
        AllClear (effective K kv s₁) rows →
        AllSeen (fetchOf (parseModule E) version false fs) (mainMod ⟨usedBy (stmts ls), scm, ⟨rows, false⟩⟩) K kv s₁ rows →
        (∃ s w, Compile (parseModule E) version (!noCache) kv fs mp (.ok s) w) ∧
        ∀ o w, Compile (parseModule E) version (!noCache) kv fs mp o w →
          (∀ x ∈ w, x.1 = mp ∨ ∃ ss, (x.1, ss) ∈ lib) ∧ ∃ s sc, o = .ok s ∧ GivesMeaning K kv s₁ rows sc ∧ EvalSheet sc kv ⟨rows, false⟩ (.ok s) := by
  intro s₁ K order isParam hs₁ hu hT hclear hseen
  obtain ⟨kvs, kt, k1, rfl⟩ := hv
  obtain ⟨hex, hgood, hreach⟩ := program_loads (keyValues_parsed k1) rfl (defines_parsed hlines him.defines)
    hlib.fetch hlib hrows hu hT hclear hseen
  constructor
  · obtain ⟨lo, hlo⟩ := hex
    obtain ⟨sc, rfl, ⟨own, hown⟩, hev⟩ := hgood lo hlo
    obtain ⟨ke, hke⟩ := isEnum_collect kvs
    obtain ⟨s', hs'⟩ := evalSheet_exists (sc := sc) (ext := collect kvs) hs₁ hown hke
      (fun y q x c f hq hc hf => by
        obtain ⟨before, r, after, i, f1, f2, f3, f4⟩ := expanded_row hs₁ hq
        subst f4 f3
        obtain ⟨b, -, -, hb'⟩ := hev before r after i x c f f1 f2 hc hf
        exact ⟨b, (hb' _).mpr rfl⟩)
    obtain ⟨w, hw⟩ := compile_loaded_ok hf hpm hlo hs'
    exact ⟨s', w, hw⟩
  · intro o w h
    obtain ⟨hw, sc, hg, hr⟩ := compile_loaded hf hpm hgood h
    refine ⟨fun x hx => (hw x hx).imp id (hreach _), ?_⟩
    rcases hr with ⟨-, q⟩ | ⟨-, pos, er, q⟩ | ⟨s, rfl, q⟩
    · rw [hs₁] at q; cases q
    · obtain ⟨before, r, after, i, x, c, f, er, f1, f2, f3, f4, f5⟩ := cells_error q hs₁
      obtain ⟨b, -, -, b3⟩ := hg.2 before r after i x c f f1 f2 f3 f4
      cases (b3 _).mp f5
    · exact ⟨s, sc, rfl, hg, q⟩

/-- Definitions that give formulas their meaning give one sheet. -/
theorem sheet_one {K sc sc' : Scope} {rows : List Row} {s s' s₁ : Sheet} (hs₁ : evalFills ⟨rows, false⟩ = some s₁) (hg : GivesMeaning K kv s₁ rows sc)
    (hg' : GivesMeaning K kv s₁ rows sc') (h : EvalSheet sc kv ⟨rows, false⟩ (.ok s)) (h' : EvalSheet sc' kv ⟨rows, false⟩ (.ok s')) : s = s' := by
  refine sheet_unique hs₁ h h' fun y q x c f hq hc hf f₁ f₂ e1 e2 => ?_
  obtain ⟨before, r, after, i, g1, g2, g3, g4⟩ := expanded_row hs₁ hq
  subst g4 g3
  obtain ⟨b, b1, b2, b3⟩ := hg.2 before r after i x c f g1 g2 hc hf
  obtain ⟨b', b1', b2', b3'⟩ := hg'.2 before r after i x c f g1 g2 hc hf
  cases (b3 _).mp e1
  cases (b3' _).mp e2
  exact b2' _ b1

/-- The same, and the rows are those that the parser gives. -/
theorem program_compiles (version : Nat) (hv : ∃ l kvs, Parser.parseKeyValues E.uni E.f64 kvs = some l ∧ kv = collect l)
    (hsrc : ModuleFile E ls csv src) (hf : Fresh fs mp src) (hc : CellsSection E csv rs) (hlib : Program E version fs noCache mp (stmts ls) lib) :
    ∃ fetch main rows, IsModule (stmts ls) main ∧ (∀ e ∈ lib, ∃ m, fetch e.1 = .ok m ∧ IsModule e.2 m) ∧ AreRows E rs rows ∧
      (∃ t n, Sheet.parse E t n = .ok ⟨rows, false⟩) ∧
      ∀ s₁ K order isParam, evalFills ⟨rows, false⟩ = some s₁ → IsUnion fetch main K → Tidy K none order isParam →
        AllClear (effective K kv s₁) rows → AllSeen fetch main K kv s₁ rows →
        (∃ s w, Compile (parseModule E) version (!noCache) kv fs mp (.ok s) w) ∧
        ∀ o w, Compile (parseModule E) version (!noCache) kv fs mp o w →
          (∀ x ∈ w, x.1 = mp ∨ ∃ ss, (x.1, ss) ∈ lib) ∧ ∃ s, o = .ok s ∧ SheetMeans (effective K kv s₁) rows s := by
  obtain ⟨scm, rows, hpm, him, hrows⟩ := hsrc.parse hc
  refine ⟨fetchOf (parseModule E) version false fs, mainMod ⟨usedBy (stmts ls), scm, ⟨rows, false⟩⟩, rows, him, fun e he => ?_, hrows, parsed_sheet hpm, ?_⟩
  · obtain ⟨m, e1, e2, -⟩ := (hlib.files e he).fetch (version := version)
    exact ⟨m, e1, e2⟩
  intro s₁ K order isParam hs₁ hu hT hclear hseen
  obtain ⟨h1, h2⟩ := program_sheets hv hsrc.lines hpm him hrows hf hlib s₁ K order isParam hs₁ hu hT hclear hseen
  refine ⟨h1, fun o w h => ?_⟩
  obtain ⟨h3, s, sc, h4, h5, h6⟩ := h2 o w h
  exact ⟨h3, s, h4, sheet_means hs₁ h5 h6⟩

/-- C84.  If the files of a program are as described, and everything in it is used only where it is seen, compiling it always succeeds, whatever the
schedule, unless two rows have a fill without a number, and the compiled sheet has the rows, texts and options of the source, each formula being what
it means with the definitions of all modules together.  Object files are written for the modules of the program only. -/
theorem C84_compile_partial (version : Nat) (hv : ∃ l kvs, Parser.parseKeyValues E.uni E.f64 kvs = some l ∧ kv = collect l)
    (hsrc : ModuleFile E ls csv src) (hf : Fresh fs mp src) (hc : CellsSection E csv rs) (hlib : Program E version fs noCache mp (stmts ls) lib) :
    ∃ fetch main rows, IsModule (stmts ls) main ∧ (∀ e ∈ lib, ∃ m, fetch e.1 = .ok m ∧ IsModule e.2 m) ∧ AreRows E rs rows ∧
      ∀ s₁ K order isParam, evalFills ⟨rows, false⟩ = some s₁ → IsUnion fetch main K → Tidy K none order isParam →
        AllClear (effective K kv s₁) rows → AllSeen fetch main K kv s₁ rows →
        (∃ s w, Compile (parseModule E) version (!noCache) kv fs mp (.ok s) w) ∧
        ∀ o w, Compile (parseModule E) version (!noCache) kv fs mp o w →
          (∀ x ∈ w, x.1 = mp ∨ ∃ ss, (x.1, ss) ∈ lib) ∧ ∃ s, o = .ok s ∧ SheetMeans (effective K kv s₁) rows s := by
  obtain ⟨fetch, main, rows, h1, h2, h3, -, h4⟩ := program_compiles version hv hsrc hf hc hlib
  exact ⟨fetch, main, rows, h1, h2, h3, h4⟩

end
end Verif.Cli
