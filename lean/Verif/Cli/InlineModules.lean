import Verif.Cli.InlineExample
import Verif.Cli.ModulesExample
import Verif.Cli.Rearranged
/-
Replacing uses of definitions by the definitions in a program of several modules (C107).
-/
namespace Verif.Cli
open Verif.Ast Verif.Loader Verif.Sheet Verif.Cache Verif.Csvp.Spec
open Verif.Cell hiding Target
open Verif.Target hiding MPath
open Verif.Parser (Stmt Line codeText stmts)

/-! ## Specification -/

/-- Of the definitions `K` that `a` uses, none is missing in `K'`. -/
def Kept (K K' : Scope) (a : Ast) : Prop := ∀ m, Uses a m → Defined K m → Defined K' m

/-- The definitions `K'` are those of `K` with some uses of definitions replaced by the definitions.  Definitions may be missing if no other definition, no formula and
no value given with `-k` uses them any more; a definition that hides a named cell or a value given with `-k` is not missing. -/
structure InlinedProgram (K K' : Scope) (kv : Text → Option Ast) (s₁ : Sheet) (rows' : List Row) : Prop where
  definitions : InlinedScope K K' none
  names : ∀ x, (mainNames kv s₁ x).isSome → (K.variables x).isSome → (K'.variables x).isSome
  values : ∀ (pos : Addr) x d v, mainNames kv s₁ x = some d → resolve (some pos) d = some v → Kept K K' v
  formulas : ∀ r ∈ rows', ∀ c ∈ r.cells, ∀ f, c.ast = some f → Kept K K' f

/-! ## Proofs -/

section
variable {E : Env} {K K' : Scope} {kv : Text → Option Ast} {s₁ t₁ : Sheet} {rows rows' : List Row}

theorem kept_effective (hv : sheetVars t₁ = sheetVars s₁) {a : Ast} (h : Kept K K' a) : ∀ m, Uses a m → Defined (effective K kv s₁) m → Defined (effective K' kv t₁) m := by
  intro m hu hm
  cases m with
  | v x =>
    simp only [Defined, effective, Option.isSome_or, Bool.or_eq_true, hv] at hm ⊢
    exact hm.imp_left (h (.v x) hu)
  | f g => exact h (.f g) hu hm

theorem inlined_program_scope (hK : ParsedScope E K) (hK' : ParsedScope E K') (h : InlinedProgram K K' kv s₁ rows') (hv : sheetVars t₁ = sheetVars s₁) {pos : Addr}
    (hw : Wf (effective K kv s₁) (some pos)) : InlinedScope (effective K kv s₁) (effective K' kv t₁) (some pos) := by
  constructor
  · intro x d' hx
    change (K'.variables x).or ((sheetVars t₁ x).or (kv x)) = some d' at hx
    cases e' : K'.variables x with
    | some d₀ =>
      rw [e'] at hx; cases hx
      obtain ⟨d, a, a', k1, k2, k3, k4, k5⟩ := h.definitions.vars x d' e'
      obtain ⟨v, rfl, -⟩ := hK.vars x d k1
      obtain ⟨v', rfl, -⟩ := hK'.vars x d' e'
      cases k2; cases k3
      exact ⟨_, _, _, by show (K.variables x).or _ = _; rw [k1]; rfl, rfl, rfl, inlined_effective hK k4, kept_effective hv k5⟩
    | none =>
      rw [e', hv] at hx
      change mainNames kv s₁ x = some d' at hx
      have e : K.variables x = none := by
        cases e : K.variables x with
        | none => rfl
        | some d =>
          have := h.names x (by rw [hx]; rfl) (by rw [e]; rfl)
          rw [e'] at this; cases this
      have hx' : (effective K kv s₁).variables x = some d' := by
        show (K.variables x).or (mainNames kv s₁ x) = _
        rw [e]; exact hx
      obtain ⟨a, k1, -⟩ := hw.vars x d' hx'
      exact ⟨d', a, a, hx', k1, k1, .same, kept_effective hv (h.values pos x d' a hx k1)⟩
  · intro g d' hg
    obtain ⟨nm, ps, b, b', k1, k2, k3, k4⟩ := h.definitions.fns g d' hg
    refine ⟨nm, ps, b, b', k1, k2, inlined_effective hK k3, fun m hu hp hm => ?_⟩
    cases m with
    | v x =>
      simp only [Defined, effective, Option.isSome_or, Bool.or_eq_true, hv] at hm ⊢
      exact hm.imp_left (k4 (.v x) hu hp)
    | f g => exact k4 (.f g) hu hp hm

theorem inlined_same (h : List.Forall₂ (InlinedRow K) rows rows') {before after before' after' : List Row} {r r' : Row} (hr : rows = before ++ r :: after)
    (hr' : rows' = before' ++ r' :: after') (hl : before'.length = before.length) :
    total rows' before' = total rows before ∧ copies rows' r' = copies rows r ∧ InlinedRow K r r' := by
  have hb := bare_rows h
  have hi : rows[before.length]? = some r := by rw [hr]; simp
  have hi' : rows'[before.length]? = some r' := by rw [hr', ← hl]; simp
  obtain ⟨q, k1, k2⟩ := forall₂_get h hi
  rw [hi'] at k1; cases k1
  refine ⟨?_, ?_, k2⟩
  · have : before'.map bare = before.map bare := by
      have hb' := hb
      rw [hr, hr', List.map_append, List.map_append] at hb'
      exact (List.append_inj hb' (by simpa using hl)).1
    rw [← total_bare, hb, this, total_bare]
  · rw [← copies_bare, k2.bare, hb, copies_bare]

theorem split_at {l : List Row} {n : Nat} (h : n < l.length) : ∃ before r after, l = before ++ r :: after ∧ before.length = n :=
  ⟨l.take n, l[n], l.drop (n + 1), by conv_lhs => rw [← List.take_append_drop n l, List.drop_eq_getElem_cons h], by rw [List.length_take]; omega⟩

/-- The new formulas are free of trouble. -/
theorem inlined_clear (hK : ParsedScope E K) (hK' : ParsedScope E K') {kvs : List (Text × Ast)} (hk : ∀ d ∈ kvs, Parser.Parsed E.uni E.f64 d.2)
    (h : InlinedProgram K K' (collect kvs) s₁ rows') (hv : sheetVars t₁ = sheetVars s₁) (hrows : List.Forall₂ (InlinedRow K) rows rows')
    (hc : AllClear (effective K (collect kvs) s₁) rows) : AllClear (effective K' (collect kvs) t₁) rows' := by
  intro before' r' after' i x c' f' e1 e2 e3 e4
  obtain ⟨before, r, after, k1, k2⟩ := split_at (l := rows) (n := before'.length) (by rw [hrows.length_eq, e1]; simp)
  obtain ⟨m1, m2, m3⟩ := inlined_same hrows k1 e1 k2.symm
  have hx : x < r.cells.length := by rw [m3.cells.length_eq]; exact (List.getElem?_eq_some_iff.mp e3).1
  obtain ⟨c'', g1, g2⟩ := forall₂_get m3.cells (List.getElem?_eq_getElem hx)
  rw [e3] at g1; cases g1
  rcases g2.same with ⟨-, n, -⟩ | ⟨f, f'', n1, n2, n3⟩
  · rw [e4] at n; cases n
  rw [e4] at n2; cases n2
  obtain ⟨order, P, hcl⟩ := hc before r after i x _ f k1 (by rw [← m2]; exact e2) (List.getElem?_eq_getElem hx) n1
  rw [← m1] at hcl
  have hw := effective_wf hK hk s₁ ⟨x, total rows' before' + i⟩
  have hL := inlined_program_scope hK hK' h hv hw
  have hp := inlined_effective (ext := collect kvs) (s₁ := s₁) (pos := ⟨x, total rows' before' + i⟩) hK n3
  have hT := hL.tidy ⟨hcl.acyclic, hcl.hygienic, hcl.apart, hcl.arityVars, hcl.arityFns⟩
  exact ⟨order, P, hT.acyclic, hT.hygienic, hT.apart, hT.arityVars, hT.arityFns, fun q hq => (hp.refs hcl.hygienic hq).elim (hcl.params q) id,
    hp.apart hcl.apart hL [] hcl.formula, hp.arity hcl.arityVars hcl.arityFns hL hcl.arity⟩

/-- What the two targets show. -/
theorem inlined_shows (hK : ParsedScope E K) (hK' : ParsedScope E K') {kvs : List (Text × Ast)} (hk : ∀ d ∈ kvs, Parser.Parsed E.uni E.f64 d.2)
    (h : InlinedProgram K K' (collect kvs) s₁ rows') (hv : sheetVars t₁ = sheetVars s₁) (hrows : List.Forall₂ (InlinedRow K) rows rows')
    (hpl : ∀ r ∈ rows, ∀ c ∈ r.cells, ∀ f, c.ast = some f → plain f) (hc : AllClear (effective K (collect kvs) s₁) rows) {safe : Bool} {old : List (List Text)}
    {out out' : Text} (h1 : ShowsMeaning (effective K (collect kvs) s₁) safe rows old (csvRead out))
    (h2 : ShowsMeaning (effective K' (collect kvs) t₁) safe rows' old (csvRead out')) : SameCells rows out out' := by
  have hb := bare_rows hrows
  refine ⟨by rw [h1.1, h2.1, ← total_bare rows rows, ← total_bare rows' rows', hb], fun before r after e1 i e2 x hx => ?_⟩
  obtain ⟨before', r', after', k1, k2⟩ := split_at (l := rows') (n := before.length) (by rw [← hrows.length_eq, e1]; simp)
  obtain ⟨m1, m2, m3⟩ := inlined_same hrows e1 k1 k2
  have e3 := List.getElem?_eq_getElem hx
  obtain ⟨c', g1, g2⟩ := forall₂_get m3.cells e3
  obtain ⟨t, t1, t2, t3⟩ := h1.2 before r after e1 i e2 x _ e3
  obtain ⟨t', t1', t2', t3'⟩ := h2.2 before' r' after' k1 i (by rw [m2]; exact e2) x c' g1
  rw [m1] at t1' t3'
  rw [t1, t1']
  congr 1
  rcases g2.same with ⟨n1, n2, n3⟩ | ⟨f, f', n1, n2, n3⟩
  · rw [t2 n1, t2' n2, n3]
  · obtain ⟨order, P, hcl⟩ := hc before r after i x _ f e1 e2 e3 n1
    have hw := effective_wf hK hk s₁ ⟨x, total rows before + i⟩
    have hL := inlined_program_scope hK hK' h hv hw
    have hp := inlined_effective (ext := collect kvs) (s₁ := s₁) (pos := ⟨x, total rows before + i⟩) hK n3
    obtain ⟨b, b1, b2, -⟩ := C107_formula hw ⟨hcl.acyclic, hcl.hygienic, hcl.apart, hcl.arityVars, hcl.arityFns⟩ hL
      (hpl r (by rw [e1]; simp) _ (List.mem_of_getElem? e3) f n1) hcl.params hcl.formula hcl.arity hp
      (kept_effective hv (h.formulas r' (by rw [k1]; simp) c' (List.mem_of_getElem? g1) f' n2))
    rw [(t3 f n1).2 b b1, (t3' f' n2).2 b b2]
end

section
variable {E : Env} {a : Args} {fs fs' : FS Text} {files : Files Text} {mp : MPath} {p : Path} {kv : Text → Option Ast}
  {ls ls' : List Line} {csv csv' src src' : Text} {rs rs' : List RowSrc} {lib lib' : List (MPath × List Stmt)}

/-- The definitions of a program can be read back. -/
theorem union_parsed {version : Nat} {noCache : Bool} {fetch : MPath → Except LoadError Mod} {main : Mod} (hsrc : ModuleFile E ls csv src)
    (hlib : Program E version fs noCache mp (stmts ls) lib) (hm : IsModule (stmts ls) main) (hf : ∀ e ∈ lib, ∃ m, fetch e.1 = .ok m ∧ IsModule e.2 m) {K : Scope}
    (hu : IsUnion fetch main K) {order : List Name} {isParam : Text → Prop} (hT : Tidy K none order isParam) : ParsedScope E K := by
  have hreach : ∀ q, Reach fetch main q → ∃ ss, (q, ss) ∈ lib := by
    intro q hq
    induction hq with
    | direct h => exact hlib.closed _ (.inl (by rw [← hm.required]; exact h))
    | @indirect q q' m _ h2 h3 ih =>
      obtain ⟨ss, hss⟩ := ih
      obtain ⟨m', e1, e2⟩ := hf _ hss
      rw [h2] at e1; cases e1
      exact hlib.closed _ (.inr ⟨_, hss, by rw [← e2.required]; exact h3⟩)
  have hparsed : ∀ m, InProgram fetch main m → ParsedScope E m.scope := by
    rintro m (rfl | ⟨q, h2, h3⟩)
    · exact defines_parsed hsrc.lines hm.defines
    · obtain ⟨ss, hss⟩ := hreach q h2
      obtain ⟨m', e1, e2⟩ := hf _ hss
      rw [h3] at e1; cases e1
      obtain ⟨ls', csv', src', tm, rs', k1, k2, -⟩ := hlib.files _ hss
      have := e2.defines
      rw [← k2] at this
      exact defines_parsed k1.lines this
  refine ⟨fun g d hd => ?_, fun x d hd => ?_, ?_⟩
  · obtain ⟨m, h2, h3⟩ := (hu.fns g d).mp hd
    exact (hparsed m h2).fns g d h3
  · obtain ⟨m, h2, h3⟩ := (hu.vars x d).mp hd
    exact (hparsed m h2).vars x d h3
  · exact exists_enum K.variables (order.filterMap fun n => match n with | .v x => some x | .f _ => none) fun k hk => by
      rw [List.mem_filterMap]; exact ⟨.v k, hT.acyclic.1 (.v k) hk, rfl⟩

/-- C107, a program of several modules.  Replace some uses of definitions by the definitions, in the cells and in any module, also definitions of other modules, and drop
definitions that are not used any more.  If the definitions and formulas are free of trouble, and everything is used only where it is seen, before and after, every run
succeeds, and the targets show the same. -/
theorem C107_modules (version : Nat) (ts : List Text) (partials : Text → List Text) (cuts : List Nat) (hs : Setup E a mp p kv) (hb : CanBackup ts a files p)
    (hsrc : ModuleFile E ls csv src) (hf : Fresh fs mp src) (hc : CellsSection E csv rs) (hlib : Program E version fs a.noCache mp (stmts ls) lib)
    (hsrc' : ModuleFile E ls' csv' src') (hf' : Fresh fs' mp src') (hc' : CellsSection E csv' rs') (hlib' : Program E version fs' a.noCache mp (stmts ls') lib')
    (h0 : NoMark (cellAt (rowsOf (files p)) 0 0)) (h1 : ∀ r ∈ rs, ∀ c ∈ r.cells, NoMark c.2) (h1' : ∀ r ∈ rs', ∀ c ∈ r.cells, NoMark c.2) :
    ∃ fetch main fetch' main' rows rows', IsModule (stmts ls) main ∧ (∀ e ∈ lib, ∃ m, fetch e.1 = .ok m ∧ IsModule e.2 m) ∧
      IsModule (stmts ls') main' ∧ (∀ e ∈ lib', ∃ m, fetch' e.1 = .ok m ∧ IsModule e.2 m) ∧ AreRows E rs rows ∧ AreRows E rs' rows' ∧
      ∀ s₁ s₁' K K' order isParam, evalFills ⟨rows, false⟩ = some s₁ → evalFills ⟨rows', false⟩ = some s₁' → IsUnion fetch main K → IsUnion fetch' main' K' →
        Tidy K none order isParam → AllClear (effective K kv s₁) rows → List.Forall₂ (InlinedSrcRow E K) rs rs' → InlinedProgram K K' kv s₁ rows' →
        AllSeen fetch main K kv s₁ rows → AllSeen fetch' main' K' kv s₁' rows' →
        (∃ e states w, Main E version ts partials cuts a fs files e states w) ∧ (∃ e states w, Main E version ts partials cuts a fs' files e states w) ∧
        ∀ e states w e' states' w', Main E version ts partials cuts a fs files e states w → Main E version ts partials cuts a fs' files e' states' w' →
          e = some .success ∧ e' = some .success ∧ ∃ final out final' out', states.getLast? = some final ∧ Wrote files final p out ∧
            states'.getLast? = some final' ∧ Wrote files final' p out' ∧ SameCells rows out out' := by
  obtain ⟨fetch, main, rows, i1, i2, i3, i4⟩ := C82_modules_partial version ts partials cuts hs hb hsrc hf hc hlib h0 h1
  obtain ⟨fetch', main', rows', i1', i2', i3', i4'⟩ := C82_modules_partial version ts partials cuts hs hb hsrc' hf' hc' hlib' h0 h1'
  refine ⟨fetch, main, fetch', main', rows, rows', i1, i2, i1', i2', i3, i3',
    fun s₁ s₁' K K' order isParam hs₁ hs₁' hu hu' hT hclear hin hpr hseen hseen' => ?_⟩
  obtain ⟨kvs, hk1, rfl⟩ := hs.values
  have hk := keyValues_parsed hk1
  have hT' := hpr.definitions.tidy hT
  have hK := union_parsed hsrc hlib i1 i2 hu hT
  have hK' := union_parsed hsrc' hlib' i1' i2' hu' hT'
  have hrows := inlined_rows hin i3 i3'
  have hv : sheetVars s₁' = sheetVars s₁ := by
    rcases fills_inlined hrows with ⟨k, -⟩ | ⟨s, t, k1, k2, -, k4⟩
    · rw [hs₁] at k; cases k
    · rw [hs₁] at k1; rw [hs₁'] at k2; cases k1; cases k2; exact k4
  have hclear' := inlined_clear hK hK' hk hpr hv hrows hclear
  refine ⟨(i4 s₁ K order isParam hs₁ hu hT hclear hseen).1, (i4' s₁' K' order isParam hs₁' hu' hT' hclear' hseen').1, fun e states w e' states' w' h h' => ?_⟩
  obtain ⟨j1, -, final, out, j2, j3, j4⟩ := (i4 s₁ K order isParam hs₁ hu hT hclear hseen).2 e states w h
  obtain ⟨m1, -, final', out', m2, m3, m4⟩ := (i4' s₁' K' order isParam hs₁' hu' hT' hclear' hseen').2 e' states' w' h'
  exact ⟨j1, m1, final, out, final', out', j2, j3, m2, m3, inlined_shows hK hK' hk hpr hv hrows
    (fun r hr c hc f hf => (parsed_plain (areRows_parsed i3 r hr c hc f hf)).1) hclear j4 m4⟩
end

/-! ## An example -/

namespace Lib

/-- The library without the function. -/
def shortLib : List Line := [⟨[], some (.var tRate (.int false none 2)), none⟩]

def shortLibText : Text := "rate := 2\n---\n".toList

/-- The main module without the variable; the variable and the call in it are replaced in the formula. -/
def shortMain : List Line := [⟨[], some (.use "lib".toList), none⟩]

def shortMainText : Text := "use lib\n---\n=((7 * rate) + rate)\n".toList

def shortCells : Text := "=((7 * rate) + rate)".toList

def shortFormula : Ast := .infix (.infix (.int false none 7) "*".toList (.ref tRate)) "+".toList (.ref tRate)

def shortRow : RowSrc := ⟨[], [([], "=((7 * rate) + rate)".toList)]⟩

def shortFiles : FS Text :=
  ⟨fun m => if m = ["sheet".toList] then some (shortMainText, 7) else if m = ["lib".toList] then some (shortLibText, 5) else none, fun _ => none⟩

theorem short_lib (E : Env) : ModuleFile E shortLib [] shortLibText := by
  refine ⟨?_, ?_, by decide +kernel, by decide +kernel, by decide, [], .inr ⟨rfl, by decide⟩, by decide +kernel⟩
  · intro l hl
    exact (lib_file E).lines l (by simp only [shortLib, List.mem_singleton] at hl; subst hl; simp [libLines])
  · simp [shortLib, stmts, Parser.UsesFirst]

theorem short_main (E : Env) : ModuleFile E shortMain shortCells shortMainText := by
  refine ⟨?_, ?_, by decide +kernel, by decide +kernel, by decide, "=((7 * rate) + rate)\n".toList, .inl (by decide), by decide +kernel⟩
  · intro l hl
    exact (main_file E).lines l (by simp only [shortMain, List.mem_singleton] at hl; subst hl; simp [mainLines])
  · simp [shortMain, stmts, Parser.UsesFirst]

theorem short_parse (E : Env) : Parser.parse E.uni E.f64 "=((7 * rate) + rate)".toList = .ok shortFormula :=
  Parser.C12_display_parses E.uni E.f64 shortFormula (.infix (by decide) (.infix (by decide) (.int (v := 7) (by decide)) (printable E (by decide))) (printable E (by decide)))

theorem short_cells (E : Env) : CellsSection E shortCells [shortRow] := by
  refine ⟨⟨[["=((7 * rate) + rate)".toList]], by decide, .cons (rowText_plain (by decide) (by unfold NoList; decide)) .nil⟩, ?_⟩
  intro r hr c hc _
  obtain rfl := List.mem_singleton.mp hr
  obtain rfl := List.mem_singleton.mp hc
  exact ⟨_, short_parse E⟩

theorem short_program (E : Env) {version : Nat} : Program E version shortFiles false ["sheet".toList] (stmts shortMain) [(["lib".toList], stmts shortLib)] := by
  refine ⟨?_, fun _ e _ o t h => (by cases h), ?_, by decide, fun m => if m = ["sheet".toList] then 1 else 0, ?_, ?_⟩
  · intro e he
    obtain rfl := List.mem_singleton.mp he
    exact ⟨shortLib, [], shortLibText, 5, [], short_lib E, rfl, lib_cells E, rfl⟩
  · rintro q (hq | ⟨e, he, hq⟩)
    · obtain rfl : q = ["lib".toList] := List.mem_singleton.mp hq
      exact ⟨_, List.mem_singleton.mpr rfl⟩
    · obtain rfl := List.mem_singleton.mp he
      cases hq
  · intro q hq
    obtain rfl : q = ["lib".toList] := List.mem_singleton.mp hq
    decide
  · intro e he q hq
    obtain rfl := List.mem_singleton.mp he
    cases hq

/-- What is left of the definitions. -/
def shortK : Scope := ⟨fun _ => none, fun x => if x = tRate then some (.var tRate (.int false none 2)) else none, []⟩

theorem one_cell {E : Env} {t : Text} {f : Ast} (hf : formulaOf E t = some f) {rows : List Row} (d : AreRows E [⟨[], [([], t)]⟩] rows) :
    ∃ r c s₁, rows = [r] ∧ r.cells = [c] ∧ c.ast = some f ∧ evalFills ⟨rows, false⟩ = some s₁ ∧ mainNames (collect []) s₁ = fun _ => none := by
  obtain ⟨r, rfl⟩ : ∃ r, rows = [r] := List.length_eq_one_iff.mp d.1
  obtain ⟨r', r1, r2⟩ := d.2 0 _ rfl
  cases r1
  have hfill : r.fill = none := r2.fill
  obtain ⟨c, hcells⟩ : ∃ c, r.cells = [c] := by
    have := congrArg List.length r2.cells
    rw [List.length_map, List.length_map] at this
    exact List.length_eq_one_iff.mp this
  have hc := r2.cells
  rw [hcells, r2.opts] at hc
  simp only [List.map_cons, List.map_nil, List.cons.injEq, Prod.mk.injEq, and_true] at hc
  obtain ⟨o0, v0, a0⟩ := hc
  have n0 : c.opts.var = none := by rw [o0]; rfl
  obtain ⟨s₁, hs₁⟩ : ∃ s₁, evalFills ⟨[r], false⟩ = some s₁ := by
    rw [evalFills]
    simp only [Bool.false_eq_true, if_false, multipleInfinite, hfill]
    exact ⟨_, rfl⟩
  refine ⟨r, c, s₁, rfl, hcells, by rw [a0, hf], hs₁, ?_⟩
  funext x
  rw [mainNames, sheetVars_none hs₁]
  · rfl
  · intro r' hr'
    obtain rfl := List.mem_singleton.mp hr'
    rw [names, hcells, r2.opts]
    simp only [List.filterMap_cons, List.filterMap_nil, n0, List.append_nil]
    intro hx; cases hx

section
variable {fetch : MPath → Except LoadError Mod} {main lib : Mod} (hm : IsModule (stmts shortMain) main) (hf : fetch ["lib".toList] = .ok lib)
  (hl : IsModule (stmts shortLib) lib)
include hm hf hl

omit hf hl in
theorem short_main_scope : (∀ g, main.scope.functions g = none) ∧ ∀ x, main.scope.variables x = none :=
  ⟨fun g => by rw [hm.defines.functions]; rfl, fun x => by rw [hm.defines.vars]; rfl⟩

omit hm hf in
theorem short_lib_scope : (∀ g, lib.scope.functions g = none) ∧ ∀ x, lib.scope.variables x = if x = tRate then some (.var tRate (.int false none 2)) else none := by
  refine ⟨fun g => by rw [hl.defines.functions]; rfl, fun x => ?_⟩
  rw [hl.defines.vars]
  simp only [shortLib, stmts, List.filterMap_cons, List.filterMap_nil, Stmt.variable?]
  by_cases hx : x = tRate
  · subst hx; rfl
  · rw [if_neg (Ne.symm hx), if_neg hx]; rfl

theorem short_reach {q : MPath} {m : Mod} (h : Reach fetch main q) (h' : fetch q = .ok m) : m = lib := by
  obtain rfl : q = ["lib".toList] := by
    clear h'
    induction h with
    | direct h => rw [hm.required] at h; exact List.mem_singleton.mp h
    | indirect _ h2 h3 ih =>
      subst ih
      rw [hf] at h2; cases h2
      rw [hl.required] at h3; cases h3
  rw [hf] at h'; cases h'; rfl

theorem short_union : IsUnion fetch main shortK := by
  obtain ⟨m1, m2⟩ := short_main_scope hm
  obtain ⟨l1, l2⟩ := short_lib_scope hl
  have hlib : InProgram fetch main lib := .inr ⟨_, .direct (by rw [hm.required]; exact List.mem_singleton.mpr rfl), hf⟩
  have hmods : ∀ m, InProgram fetch main m → m = main ∨ m = lib := by
    rintro m (rfl | ⟨q, h1, h2⟩)
    · exact .inl rfl
    · exact .inr (short_reach hm hf hl h1 h2)
  refine ⟨fun x d => ⟨fun hd => ⟨lib, hlib, by rw [l2]; exact hd⟩, ?_⟩, fun g d => ⟨fun hd => (by cases hd), ?_⟩⟩
  · rintro ⟨m, h1, h2⟩
    rcases hmods m h1 with rfl | rfl
    · rw [m2] at h2; cases h2
    · rw [l2] at h2; exact h2
  · rintro ⟨m, h1, h2⟩
    rcases hmods m h1 with rfl | rfl
    · rw [m1] at h2; cases h2
    · rw [l1] at h2; cases h2

theorem short_sees : ∀ n, Defined shortK n → Sees fetch main n := by
  obtain ⟨l1, l2⟩ := short_lib_scope hl
  intro n hn
  cases n with
  | v x =>
    obtain ⟨d, hd⟩ := Option.isSome_iff_exists.mp hn
    simp only [shortK] at hd
    split at hd
    · subst x
      refine .used (by rw [hm.required]; exact List.mem_singleton.mpr rfl) hf ((hl.exports _).mpr ⟨.var tRate (.int false none 2), by simp [shortLib, stmts], rfl⟩) (.own ?_)
      simp only [Defined, l2]; rfl
    · cases hd
  | f g => cases hn

theorem short_seen {s₁ : Sheet} {rows : List Row} (hn : mainNames (collect []) s₁ = fun _ => none) : AllSeen fetch main shortK (collect []) s₁ rows := by
  have hsee := short_sees hm hf hl
  obtain ⟨l1, l2⟩ := short_lib_scope hl
  refine ⟨⟨fun q m h1 h2 => ?_, fun q m x d h1 h2 hd => ?_, ⟨fun _ _ _ n _ h => hsee n h, fun _ _ _ _ _ n _ _ h => hsee n h, fun _ _ _ _ _ _ _ _ h => hsee _ h⟩,
    fun _ _ h => by rw [hn] at h; cases h⟩, fun _ _ _ _ _ _ n _ h => hsee n h, fun pos x d v hx => by rw [hn] at hx; cases hx⟩
  · obtain rfl := short_reach hm hf hl h1 h2
    refine ⟨fun x a hx n hu _ => ?_, fun g nm ps body hg n hu hp _ => ?_, fun g nm ps body _ hg n hn _ => (by cases hg)⟩
    · rw [l2] at hx
      split at hx
      · cases hx; cases n <;> simp [Uses, refNames, callNames] at hu
      · cases hx
    · rw [l1] at hg; cases hg
  · rintro ⟨g, nm, ps, body, hg, hp⟩
    cases hg

end

/-- The formula of the second program is that of the first with the variable `y` and the call in it replaced. -/
theorem short_inlined : Inlined K none [] formula shortFormula :=
  .infix (.value (d := .var tY call7) (by simp) rfl rfl (.body (nm := tDouble) (qs := [tN]) (b := times) rfl rfl .same)) .same

theorem short_kept : Kept K shortK shortFormula := by
  intro m hu hm
  cases m with
  | v x =>
    simp only [Uses, shortFormula, refNames, List.nil_append, List.mem_append, List.mem_singleton, or_self] at hu
    subst hu; rfl
  | f g => simp [Uses, shortFormula, callNames] at hu

theorem short_definitions : InlinedScope K shortK none := by
  refine ⟨fun x d' hx => ?_, fun g d' hg => by cases hg⟩
  simp only [shortK] at hx
  split at hx
  · subst x; cases hx
    exact ⟨_, _, _, rfl, rfl, rfl, .same, fun m hu _ => by cases m <;> simp [Uses, refNames, callNames] at hu⟩
  · cases hx

/-- C107 on the example: the variable of the main module and the function of the library are gone, and the cell shows the same. -/
example (E : Env) (version : Nat) (e e' : Option Exit) (states states' : List (Files Text)) (w w' : List (MPath × Module Text))
    (h : Main E version [] (fun _ => []) [] (exampleArgs false []) files exampleFiles e states w)
    (h' : Main E version [] (fun _ => []) [] (exampleArgs false []) shortFiles exampleFiles e' states' w') :
    e = some .success ∧ e' = some .success ∧ ∃ final out final' out', states.getLast? = some final ∧ Wrote exampleFiles final (Path.ofText "out.csv".toList) out ∧
      states'.getLast? = some final' ∧ Wrote exampleFiles final' (Path.ofText "out.csv".toList) out' ∧ cellAt (csvRead out) 0 0 = cellAt (csvRead out') 0 0 := by
  have h0 : NoMark (cellAt (rowsOf (exampleFiles (Path.ofText "out.csv".toList))) 0 0) := by unfold NoMark; decide
  obtain ⟨fetch, main, fetch', main', rows, rows', d1, d2, d1', d2', d3, d3', hmain⟩ := C107_modules version [] (fun _ => []) [] (exampleSetup E false [] [] rfl)
    (by intro h; cases h) (main_file E) (fs := files) ⟨7, rfl, by intro o t h; cases h⟩ (main_cells E) (program E) (short_main E) (fs' := shortFiles)
    ⟨7, rfl, by intro o t h; cases h⟩ (short_cells E) (short_program E) (files := exampleFiles) h0
    (by
      intro r hr c hc
      obtain rfl := List.mem_singleton.mp hr
      obtain rfl := List.mem_singleton.mp hc
      unfold NoMark; decide)
    (by
      intro r hr c hc
      obtain rfl := List.mem_singleton.mp hr
      obtain rfl := List.mem_singleton.mp hc
      unfold NoMark; decide)
  obtain ⟨r, c, s₁, order, isParam, rfl, m2, m3, m4, m5, m6, m7, m8, m9, m10⟩ := met d1 d2 d3
  have f1 : formulaOf E "=(y + rate)".toList = some formula := by rw [formulaOf, if_pos (by decide), formula_parse]; rfl
  have f2 : formulaOf E "=((7 * rate) + rate)".toList = some shortFormula := by rw [formulaOf, if_pos (by decide), short_parse]; rfl
  obtain ⟨r', c', s₁', rfl, n2, n3, n4, n5⟩ := one_cell f2 d3'
  obtain ⟨lib, hf, hl⟩ := d2' _ (List.mem_singleton.mpr rfl)
  have hnames : ∀ x, mainNames (collect []) s₁ x = none := by
    obtain ⟨_, _, s, -, -, -, o1, o2⟩ := one_cell f1 d3
    rw [m5] at o1; cases o1
    intro x; rw [o2]
  obtain ⟨k1, k2, final, out, final', out', k3, k4, k5, k6, k7⟩ := (hmain s₁ s₁' K shortK order isParam m5 n4 m6 (short_union d1' hf hl) m7 m8
    (.cons ⟨rfl, .cons ⟨rfl, .inr ⟨formula, shortFormula, f1, f2, short_inlined⟩⟩ .nil⟩ .nil)
    ⟨short_definitions, fun x hx => (by rw [hnames] at hx; cases hx), fun pos x d v hx => (by rw [hnames] at hx; cases hx), by
      intro r hr c hc f hf
      obtain rfl := List.mem_singleton.mp hr
      rw [n2] at hc
      obtain rfl := List.mem_singleton.mp hc
      rw [n3] at hf; cases hf
      exact short_kept⟩
    m9 (short_seen d1' hf hl n5)).2.2 e states w e' states' w' h h'
  exact ⟨k1, k2, final, out, final', out', k3, k4, k5, k6, k7.2 [] r [] rfl 0 (by rw [m4]; omega) 0 (by rw [m2]; simp)⟩

end Lib
end Verif.Cli
