import Verif.Cli.Loaded
import Verif.Cache.UpToDate
/-
End to end: programs of several modules (C82).
-/
namespace Verif.Cli
open Verif.Ast Verif.Loader Verif.Sheet Verif.Cache Verif.Csvp.Spec
open Verif.Cell hiding Target
open Verif.Target hiding MPath
open Verif.Parser (Stmt Line codeText stmts)

/-! ## Specification -/

/-- A source file with a code section that has the lines `ls`, the `use`s first, a separator line, and the cells section `csv` (with or without a
newline at the end). -/
structure ModuleFile (E : Env) (ls : List Line) (csv src : Text) : Prop where
  lines : ∀ l ∈ ls, l.Ok E.uni E.f64
  uses : Parser.UsesFirst (stmts ls)
  separator : ∀ l ∈ splitAt '\n' (codeText ls), trim l ≠ ['-', '-', '-']
  codeCr : '\r' ∉ codeText ls
  csvCr : '\r' ∉ csv
  text : ∃ t, Source.Ended csv t ∧ src = codeText ls ++ "\n---\n".toList ++ t

/-- The cells section `csv` has the rows `rs`, and its formulas are without mistakes. -/
def CellsSection (E : Env) (csv : Text) (rs : List RowSrc) : Prop :=
  (∃ g, Csvp.Spec.values (Csvp.parse ⟨',', 0⟩ csv) = some g ∧ List.Forall₂ (RowText E) g rs) ∧ ∀ r ∈ rs, FormulaTexts E r

/-- The modules that the statements use. -/
def usedBy (ss : List Stmt) : List MPath := ss.filterMap Stmt.module?

/-- The file of module `q` has the statements `ss`. -/
def LibFile (E : Env) (fs : FS Text) (q : MPath) (ss : List Stmt) : Prop :=
  ∃ ls csv src tm rs, ModuleFile E ls csv src ∧ stmts ls = ss ∧ CellsSection E csv rs ∧ fs.src q = some (src, tm)

/-- The modules `lib` are all that the main module `mp` with the statements `main` uses, directly or not; the main module does not use a module twice,
and modules do not use each other in a circle.  The object files of previous runs are up to date (C86 says when they are), or they are not used. -/
structure Program (E : Env) (version : Nat) (fs : FS Text) (noCache : Bool) (mp : MPath) (main : List Stmt) (lib : List (MPath × List Stmt)) : Prop where
  files : ∀ e ∈ lib, LibFile E fs e.1 e.2
  objects : noCache = false → ∀ e ∈ lib, UpToDate (parseModule E) version fs e.1
  closed : ∀ q, (q ∈ usedBy main ∨ ∃ e ∈ lib, q ∈ usedBy e.2) → ∃ ss, (q, ss) ∈ lib
  once : (usedBy main).Nodup
  acyclic : ∃ rank : MPath → Nat, (∀ q ∈ usedBy main, rank q < rank mp) ∧ ∀ e ∈ lib, ∀ q ∈ usedBy e.2, rank q < rank e.1

/-- The module `m` has the statements `ss`. -/
structure IsModule (ss : List Stmt) (m : Mod) : Prop where
  required : m.required = usedBy ss
  defines : Defines ss m.scope
  exports : ∀ n, n ∈ m.scope.exports ↔ ∃ s ∈ ss, s.name? = some n

/-- The names that only the main module can use: the named cells and the values given with `-k`. -/
def mainNames (kv : Text → Option Ast) (s₁ : Sheet) (x : Text) : Option Ast := (sheetVars s₁ x).or (kv x)

/-- Everything is used only where it is seen: in the modules, in the formulas of the cells, and in the values of the named cells and of `-k`. -/
structure AllSeen (fetch : MPath → Except LoadError Mod) (main : Mod) (K : Scope) (kv : Text → Option Ast) (s₁ : Sheet) (rows : List Row) : Prop where
  modules : Separate fetch main K (mainNames kv s₁)
  formulas : ∀ r ∈ rows, ∀ c ∈ r.cells, ∀ f, c.ast = some f → UsesSeen fetch main K f
  values : ∀ (pos : Addr) x d v, mainNames kv s₁ x = some d → resolve (some pos) d = some v → UsesSeen fetch main K v

/-! ## Proofs -/

theorem ModuleFile.split {E : Env} {ls : List Line} {csv src : Text} (h : ModuleFile E ls csv src) :
    (Source.SourceCode.new src).code = some (codeText ls) ∧ (Source.SourceCode.new src).csv = csv := by
  obtain ⟨t, h1, rfl⟩ := h.text
  have := Source.split_source (codeText ls) ['-', '-', '-'] csv t h.codeCr h.separator (by decide) (by decide) (by decide) h.csvCr h1
  have he : codeText ls ++ "\n---\n".toList ++ t = codeText ls ++ '\n' :: (['-', '-', '-'] ++ '\n' :: t) := by
    rw [List.append_assoc]; rfl
  rw [he]
  exact ⟨this.1, this.2.1⟩

section
variable {E : Env} {a : Args} {fs : FS Text} {files : Files Text} {mp : MPath} {p : Path} {kv : Text → Option Ast}
  {ls : List Line} {csv src : Text} {g : List (List Text)} {rs : List RowSrc} {lib : List (MPath × List Stmt)}

/-- What parsing a source file gives. -/
theorem ModuleFile.parse (h : ModuleFile E ls csv src) (hc : CellsSection E csv rs) :
    ∃ sc rows, parseModule E src = .ok ⟨usedBy (stmts ls), sc, ⟨rows, false⟩⟩ ∧ IsModule (stmts ls) ⟨usedBy (stmts ls), sc, false, true⟩ ∧ AreRows E rs rows := by
  obtain ⟨c1, c2⟩ := h.split
  obtain ⟨sc, s1, s2, s3, s4⟩ := Parser.C48_code_section_partial E.uni E.f64 ls h.lines h.uses
  obtain ⟨⟨g, hg, ht⟩, hform⟩ := hc
  obtain ⟨rows, e1, e2, e3⟩ := sheet_parse (E := E) (n := (Source.SourceCode.new src).lenCode) (by rw [Csvp.values_parse]; rw [Csvp.values_parse] at hg; exact hg) ht hform
  refine ⟨sc, rows, ?_, ⟨rfl, ⟨s2, s3⟩, s4⟩, e2, e3⟩
  rw [parseModule, c1, parseScope, s1]
  simp only
  rw [c2, e1]
  rfl

theorem LibFile.fetch {version : Nat} {q : MPath} {ss : List Stmt} (h : LibFile E fs q ss) :
    ∃ m, fetchOf (parseModule E) version false fs q = .ok m ∧ IsModule ss m ∧ ParsedScope E m.scope ∧ m.dirty = false ∧ m.needsEval = true ∧
      ∀ noCache, (noCache = false → UpToDate (parseModule E) version fs q) →
        Reads (fetchOf (parseModule E) version false fs) (fetchOf (parseModule E) version (!noCache) fs) q m := by
  obtain ⟨ls, csv, src, tm, rs, h1, rfl, h2, h3⟩ := h
  obtain ⟨sc, rows, e1, e2, -⟩ := h1.parse h2
  exact ⟨⟨usedBy (stmts ls), sc, false, true⟩, fetchOf_source h3 e1, e2, defines_parsed h1.lines e2.defines, rfl, rfl, fun noCache ho =>
    UpToDate.reads (fun h => ho (by simpa using h)) h3 e1⟩

theorem Program.fetch {version : Nat} {noCache : Bool} {main : List Stmt} (h : Program E version fs noCache mp main lib) : ∀ e ∈ lib,
    ∃ m, fetchOf (parseModule E) version false fs e.1 = .ok m ∧ IsModule e.2 m ∧ ParsedScope E m.scope ∧ m.dirty = false ∧ m.needsEval = true ∧
      Reads (fetchOf (parseModule E) version false fs) (fetchOf (parseModule E) version (!noCache) fs) e.1 m := by
  intro e he
  obtain ⟨m, e1, e2, e3, e4, e5, e6⟩ := (h.files e he).fetch (version := version)
  exact ⟨m, e1, e2, e3, e4, e5, e6 noCache fun hn => h.objects hn e he⟩

/-- What the definitions `sc`, in which the main module's formulas are evaluated, do: every formula has the one meaning it has with the definitions `K`. -/
def GivesMeaning (K : Scope) (kv : Text → Option Ast) (s₁ : Sheet) (rows : List Row) (sc : Scope) : Prop :=
  (∃ own, IsEnum own sc.variables) ∧
    ∀ before r after i x c f, rows = before ++ r :: after → i < copies rows r → r.cells[x]? = some c → c.ast = some f →
      ∃ b, Ast.Means (effective K kv s₁) (some ⟨x, total rows before + i⟩) f b ∧
        (∀ b', Ast.Means (effective K kv s₁) (some ⟨x, total rows before + i⟩) f b' → b' = b) ∧
        ∀ o, Eval (effective sc kv s₁) (some ⟨x, total rows before + i⟩) f o ↔ o = .ok b

/-- The modules of a program are loaded, whatever the schedule, and give every formula its meaning. -/
theorem program_loads {fetch load : MPath → Except LoadError Mod} {main : Mod} {rows : List Row} {s₁ : Sheet} {K : Scope} {order : List Name} {isParam : Text → Prop}
    {version : Nat} {noCache : Bool} {kvs : List (Text × Ast)} (hk : ∀ d ∈ kvs, Parser.Parsed E.uni E.f64 d.2)
    (hreq : main.required = usedBy (stmts ls)) (hps : ParsedScope E main.scope)
    (hfetch : ∀ e ∈ lib, ∃ m, fetch e.1 = .ok m ∧ IsModule e.2 m ∧ ParsedScope E m.scope ∧ m.dirty = false ∧ m.needsEval = true ∧
      Reads fetch load e.1 m)
    (hlib : Program E version fs noCache mp (stmts ls) lib) (hrows : AreRows E rs rows) (hu : IsUnion fetch main K) (hT : Tidy K none order isParam)
    (hclear : AllClear (effective K (collect kvs) s₁) rows) (hseen : AllSeen fetch main K (collect kvs) s₁ rows) :
    (∃ lo, LoadMain load mp main lo) ∧ (∀ lo, LoadMain load mp main lo → ∃ sc, lo = .ok sc ∧ GivesMeaning K (collect kvs) s₁ rows sc) ∧
      ∀ q, Reach load main q → ∃ ss, (q, ss) ∈ lib := by
  have hreach : ∀ q, Reach fetch main q → ∃ ss, (q, ss) ∈ lib := by
    intro q hq
    induction hq with
    | direct h => exact hlib.closed _ (.inl (by rw [← hreq]; exact h))
    | @indirect q q' m _ h2 h3 ih =>
      obtain ⟨ss, hss⟩ := ih
      obtain ⟨m', e1, e2, -⟩ := hfetch _ hss
      rw [h2] at e1; cases e1
      exact hlib.closed _ (.inr ⟨_, hss, by rw [← e2.required]; exact h3⟩)
  have hg : ∀ p m, Reach fetch main p → fetch p = .ok m → Reads fetch load p m := by
    intro p m h1 h2
    obtain ⟨ss, hss⟩ := hreach p h1
    obtain ⟨m', e1, -, -, -, -, e6⟩ := hfetch _ hss
    rw [h2] at e1; cases e1
    exact e6
  have hreach' : ∀ q, Reach load main q → ∃ ss, (q, ss) ∈ lib := fun q hq => hreach q ((reach_load hg (fun p hp => by
    obtain ⟨ss, hss⟩ := hreach p hp
    obtain ⟨m, e1, -⟩ := hfetch _ hss
    exact ⟨m, e1⟩) q).mp hq)
  have hparsed : ∀ m, InProgram fetch main m → ParsedScope E m.scope := by
    rintro m (rfl | ⟨q, h2, h3⟩)
    · exact hps
    · obtain ⟨ss, hss⟩ := hreach q h2
      obtain ⟨m', e1, -, e3, -⟩ := hfetch _ hss
      rw [h3] at e1; cases e1
      exact e3
  have hK : ParsedScope E K := by
    refine ⟨fun g d hd => ?_, fun x d hd => ?_, ?_⟩
    · obtain ⟨m, h2, h3⟩ := (hu.fns g d).mp hd
      exact (hparsed m h2).fns g d h3
    · obtain ⟨m, h2, h3⟩ := (hu.vars x d).mp hd
      exact (hparsed m h2).vars x d h3
    · exact exists_enum K.variables (order.filterMap fun n => match n with | .v x => some x | .f _ => none) fun k hk => by
        rw [List.mem_filterMap]; exact ⟨.v k, hT.acyclic.1 (.v k) hk, rfl⟩
  have hw₀ : Wf K none := ⟨fun g d hd => by
      obtain ⟨ps, body, e1, e2⟩ := hK.fns g d hd
      exact ⟨g, ps, body, e1, e2⟩, fun x d hd => by
      obtain ⟨v, rfl, e2⟩ := hK.vars x d hd
      exact ⟨v, rfl, e2⟩⟩
  have hload : Loadable fetch mp main := by
    refine ⟨fun q hq => ?_, ⟨lib.map (·.1), fun q hq => ?_⟩, by rw [hreq]; exact hlib.once, ?_⟩
    · obtain ⟨ss, hss⟩ := hreach q hq
      obtain ⟨m, e1, -, -, e4, e5, -⟩ := hfetch _ hss
      exact ⟨m, e1, e4, e5⟩
    · obtain ⟨ss, hss⟩ := hreach q hq
      exact List.mem_map.mpr ⟨_, hss, rfl⟩
    · obtain ⟨rank, r1, r2⟩ := hlib.acyclic
      refine ⟨rank, by rw [hreq]; exact r1, fun q m hq hm r hr => ?_⟩
      obtain ⟨ss, hss⟩ := hreach q hq
      obtain ⟨m', e1, e2, -⟩ := hfetch _ hss
      rw [hm] at e1; cases e1
      exact r2 _ hss r (by rw [← e2.required]; exact hr)
  obtain ⟨hex, hall⟩ := program_eval hload hg hu (fun x d hd => by obtain ⟨v, e1, -⟩ := hK.vars x d hd; exact ⟨v, e1⟩) hw₀ hT hseen.modules
  -- what the loaded definitions do
  have hgood : ∀ lo, LoadMain load mp main lo → ∃ sc, lo = .ok sc ∧ GivesMeaning K (collect kvs) s₁ rows sc := by
    intro lo hlo
    obtain ⟨sc, rfl, hsc⟩ := hall lo hlo
    refine ⟨sc, rfl, ?_, fun before r after i x c f e1 e2 e3 e4 => ?_⟩
    · obtain ⟨-, h'⟩ := load_linked (P := IsParam K) hload hg hw₀ (tidy_params rfl hT) fun q m h2 h3 =>
        ⟨⟨fun x d h => by
            have := (hu.vars x d).mpr ⟨m, .inr ⟨q, h2, h3⟩, h⟩
            obtain ⟨v, e1, -⟩ := hK.vars x d this
            exact ⟨this, v, e1⟩,
          fun g d h => by
            have := (hu.fns g d).mpr ⟨m, .inr ⟨q, h2, h3⟩, h⟩
            obtain ⟨ps, body, e1, -⟩ := hK.fns g d this
            exact ⟨this, g, ps, body, e1⟩⟩,
          covered_of_withVars (hseen.modules.libs q m h2 h3), fun x d => hseen.modules.params q m x d h2 h3⟩
      obtain ⟨_, _, e, -, -, -, hsees⟩ := h' _ hlo
      cases e
      have hdef : ∀ n m, InProgram fetch main m → Sees fetch m n → Defined K n := by
        intro n m hm hn
        induction hn with
        | @own m n hd =>
          cases n with
          | v x =>
            obtain ⟨d, hd⟩ := Option.isSome_iff_exists.mp hd
            simp only [Defined, (hu.vars x d).mpr ⟨m, hm, hd⟩]; rfl
          | f x =>
            obtain ⟨d, hd⟩ := Option.isSome_iff_exists.mp hd
            simp only [Defined, (hu.fns x d).mpr ⟨m, hm, hd⟩]; rfl
        | used hq hfq _ _ ih =>
          refine ih (.inr ⟨_, ?_, hfq⟩)
          rcases hm with rfl | ⟨q', h2, h3⟩
          · exact .direct hq
          · exact .indirect h2 h3 hq
      exact exists_enum sc.variables (order.filterMap fun n => match n with | .v x => some x | .f _ => none) fun k hk => by
        rw [List.mem_filterMap]; exact ⟨.v k, hT.acyclic.1 (.v k) (hdef _ main (.inl rfl) ((hsees (.v k)).mp hk)), rfl⟩
    · obtain ⟨order', P', hcl⟩ := hclear before r after i x c f e1 e2 e3 e4
      have hrm : r ∈ rows := by rw [e1]; simp
      have hcm := List.mem_of_getElem? e3
      exact hsc (some ⟨x, total rows before + i⟩) f order' P' (effective_wf hK hk s₁ _)
        ⟨hcl.acyclic, hcl.hygienic, hcl.apart, hcl.arityVars, hcl.arityFns⟩ (parsed_plain (areRows_parsed hrows r hrm c hcm f e4)).1
        hcl.params hcl.formula hcl.arity (hseen.formulas r hrm c hcm f e4) (fun x d v => hseen.values _ x d v)
  exact ⟨hex, hgood, hreach'⟩

/-- C82.  If the files of a program are as described, and everything in it is used only where it is seen, every run of the program succeeds, unless two
rows have a fill without a number, and the target shows each formula as what it means with the definitions of all modules together; and there is a
run.  Object files are written for the modules of the program only. -/
theorem C82_modules_partial (version : Nat) (ts : List Text) (partials : Text → List Text) (cuts : List Nat) (hs : Setup E a mp p kv) (hb : CanBackup ts a files p)
    (hsrc : ModuleFile E ls csv src) (hf : Fresh fs mp src) (hc : CellsSection E csv rs) (hlib : Program E version fs a.noCache mp (stmts ls) lib)
    (h0 : NoMark (cellAt (rowsOf (files p)) 0 0)) (h1 : ∀ r ∈ rs, ∀ c ∈ r.cells, NoMark c.2) :
    ∃ fetch main rows, IsModule (stmts ls) main ∧ (∀ e ∈ lib, ∃ m, fetch e.1 = .ok m ∧ IsModule e.2 m) ∧ AreRows E rs rows ∧
      ∀ s₁ K order isParam, evalFills ⟨rows, false⟩ = some s₁ → IsUnion fetch main K → Tidy K none order isParam →
        AllClear (effective K kv s₁) rows → AllSeen fetch main K kv s₁ rows →
        (∃ e states w, Main E version ts partials cuts a fs files e states w) ∧
        ∀ e states w, Main E version ts partials cuts a fs files e states w →
          e = some .success ∧ (∀ x ∈ w, x.1 = mp ∨ ∃ ss, (x.1, ss) ∈ lib) ∧ ∃ final out, states.getLast? = some final ∧ Wrote files final p out ∧
            ShowsMeaning (effective K kv s₁) a.safe rows (rowsOf (files p)) (csvRead out) := by
  obtain ⟨scm, rows, hpm, him, hrows⟩ := hsrc.parse hc
  refine ⟨fetchOf (parseModule E) version false fs, mainMod ⟨usedBy (stmts ls), scm, ⟨rows, false⟩⟩, rows, him, fun e he => ?_, hrows, ?_⟩
  · obtain ⟨m, e1, e2, -⟩ := (hlib.files e he).fetch (version := version)
    exact ⟨m, e1, e2⟩
  intro s₁ K order isParam hs₁ hu hT hclear hseen
  generalize hmm : mainMod ⟨usedBy (stmts ls), scm, ⟨rows, false⟩⟩ = main at *
  have hreq : main.required = usedBy (stmts ls) := by rw [← hmm]; rfl
  have hps : ParsedScope E main.scope := by rw [← hmm]; exact defines_parsed hsrc.lines him.defines
  have hfetch := fun e (he : e ∈ lib) => hlib.fetch e he
  obtain ⟨kvs, k1, rfl⟩ := hs.values
  obtain ⟨hex, hgood, hreach⟩ := program_loads (keyValues_parsed k1) hreq hps hfetch hlib hrows hu hT hclear hseen
  constructor
  · obtain ⟨lo, hlo⟩ := hex
    obtain ⟨sc, rfl, ⟨own, hown⟩, hev⟩ := hgood lo hlo
    obtain ⟨ke, hke⟩ := isEnum_collect kvs
    obtain ⟨s', hs'⟩ := evalSheet_exists (sc := sc) (ext := collect kvs) hs₁ hown hke
      (fun y q x c f hq hc hf => by
        obtain ⟨before, r, after, i, f1, f2, f3, f4⟩ := expanded_row hs₁ hq
        subst f4 f3
        obtain ⟨b, -, -, hb'⟩ := hev before r after i x c f f1 f2 hc hf
        exact ⟨b, (hb' _).mpr rfl⟩)
    subst hmm
    exact main_loaded_exists hs hf hpm hlo hs'
  · intro e states w h
    subst hmm
    obtain ⟨hw, sc, ⟨-, hev⟩, hr⟩ := main_loaded hs hb hf hpm hgood h
    have hw' : ∀ x ∈ w, x.1 = mp ∨ ∃ ss, (x.1, ss) ∈ lib := fun x hx => (hw x hx).imp id (hreach _)
    rcases hr with ⟨s, final, q1, q2, q3, q4⟩ | ⟨-, -, q⟩
    · obtain ⟨s₁', q5, q6, q7, -⟩ := cells_shown (safe := a.safe) (file := files p) hrows h0 h1 q1
      rw [hs₁] at q5; cases q5
      refine ⟨q2, hw', final, _, q3, q4, q6, fun before r after e1 i e2 x c e3 => ?_⟩
      obtain ⟨t, t1, t2, t3⟩ := q7 before r after e1 i e2 x c e3
      refine ⟨t, t1, t2, fun f hf => ?_⟩
      obtain ⟨b, b1, b2, b3⟩ := hev before r after i x c f e1 e2 e3 hf
      refine ⟨⟨b, b1⟩, fun b' hb' => ?_⟩
      obtain ⟨b'', n1, n2⟩ := t3 f hf
      cases (b3 _).mp n1
      rw [b2 b' hb', n2]
    · exfalso
      rcases q with q | ⟨pos, er, q⟩
      · rw [hs₁] at q; cases q
      · obtain ⟨before, r, after, i, x, c, f, er, f1, f2, f3, f4, f5⟩ := cells_error q hs₁
        obtain ⟨b, -, -, b3⟩ := hev before r after i x c f f1 f2 f3 f4
        cases (b3 _).mp f5

end
end Verif.Cli
