import Verif.Cli.Alike
import Verif.Cli.InsertColumnsProgram
import Verif.Cli.WriteOut
import Verif.Cli.ModulesExample
/-
Editing the cells of a main file that uses modules (C115, and the programs of C103, C105, C106 and C112).
-/
namespace Verif.Cli
open Verif.Ast Verif.Loader Verif.Sheet Verif.Cache Verif.Csvp.Spec
open Verif.Cell hiding Target
open Verif.Target hiding MPath

/-! ## Specification -/

/-- The author has saved the main file with other contents: the two sets of files differ in the contents and the time of the main file only, and it is newer than
its object file, if there is one. -/
structure MainEdited (fs fs' : FS Text) (mp : MPath) (src src' : Text) : Prop where
  before : Fresh fs mp src
  after : Fresh fs' mp src'
  sources : ∀ q, q ≠ mp → fs'.src q = fs.src q
  objects : ∀ q, fs'.obj q = fs.obj q

/-- What loading the modules that the main file uses, directly or not, can end with, and the scopes that are written to object files. -/
def Loads (E : Env) (version : Nat) (noCache : Bool) (fs : FS Text) (mp : MPath) (src : Text) (w : List (MPath × Scope)) (lo : LOut) : Prop :=
  ∃ m, parseModule E src = .ok m ∧ LoadMainW (fetchOf (parseModule E) version (!noCache) fs) mp ⟨m.required, m.scope, false, true⟩ w lo

/-- `sc` are the definitions in which the formulas of the main file can be evaluated: those of its code section and of the modules it uses (C82 says what they
give; the order in which modules are read is not determined). -/
def InForce (E : Env) (version : Nat) (noCache : Bool) (fs : FS Text) (mp : MPath) (src : Text) (sc : Scope) : Prop :=
  ∃ w, Loads E version noCache fs mp src w (.ok sc)

/-! ## Proofs -/

section
variable {E : Env} {version : Nat} {useCache : Bool} {fs fs' : FS Text} {mp : MPath} {src src' : Text}

theorem MainEdited.symm (h : MainEdited fs fs' mp src src') : MainEdited fs' fs mp src' src :=
  ⟨h.after, h.before, fun q hq => (h.sources q hq).symm, fun q => (h.objects q).symm⟩

theorem fetch_edited (h : MainEdited fs fs' mp src src') {m m' : Parsed} (hp : parseModule E src = .ok m) (hp' : parseModule E src' = .ok m')
    (hr : m'.required = m.required) (hs : m'.scope = m.scope) : fetchOf (parseModule E) version useCache fs' = fetchOf (parseModule E) version useCache fs := by
  obtain ⟨⟨t, h1, h2⟩, ⟨t', h3, h4⟩, h5, h6⟩ := h
  funext q
  by_cases hq : q = mp
  · subst hq
    have hl : (loadSource (parseModule E) version fs' q).map Module.toMod = (loadSource (parseModule E) version fs q).map Module.toMod := by
      simp only [loadSource, h1, h3, hp, hp', Except.map, Module.toMod, hr, hs]
    rw [fetchOf, fetchOf, loadDep, loadDep]
    cases useCache with
    | false => exact hl
    | true =>
      simp only [if_true, loadCached, h6]
      cases ho : fs.obj q with
      | none => exact hl
      | some x =>
        obtain ⟨o, u⟩ := x
        simp only [checkDirty, h1, h3]
        rw [if_pos (h2 o u ho), if_pos (h4 o u (by rw [h6, ho]))]
  · have e : fs'.src q = fs.src q := h5 q hq
    rw [fetchOf, fetchOf, loadDep, loadDep, loadCached, loadCached, loadSource, loadSource, e, h6]
    congr 2
    cases fs.obj q with
    | none => rfl
    | some x => simp only [checkDirty, e]

/-- What compiling a file that is newer than its object file can end with. -/
theorem compile_fresh {kv : Text → Option Ast} (hf : Fresh fs mp src) {m : Parsed} (hp : parseModule E src = .ok m) (o : COut) :
    (∃ w, Compile (parseModule E) version useCache kv fs mp o w) ↔ ∃ w lo, LoadMainW (fetchOf (parseModule E) version useCache fs) mp ⟨m.required, m.scope, false, true⟩ w lo ∧
      (LOut.failure lo = some o ∨ ∃ sc, lo = .ok sc ∧ ((o = .error ∧ (evalFills m.sheet = none ∨ ∃ pos e, EvalSheet sc kv m.sheet (.err pos e))) ∨
        ∃ s, o = .ok s ∧ EvalSheet sc kv m.sheet (.ok s))) := by
  have hl := load_fresh (parse := parseModule E) (version := version) hf
  rw [hp] at hl
  simp only at hl
  constructor
  · rintro ⟨w, h⟩
    cases h with
    | main h1 => rw [hl] at h1; cases h1
    | deps h1 h2 h3 => rw [hl] at h1; cases h1; exact ⟨_, _, h2, .inl h3⟩
    | cached h1 h2 h3 => rw [hl] at h1; cases h1; cases h3
    | fills h1 h2 h3 h4 => rw [hl] at h1; cases h1; exact ⟨_, _, h2, .inr ⟨_, rfl, .inl ⟨rfl, .inl h4⟩⟩⟩
    | cell h1 h2 h3 h4 => rw [hl] at h1; cases h1; exact ⟨_, _, h2, .inr ⟨_, rfl, .inl ⟨rfl, .inr ⟨_, _, h4⟩⟩⟩⟩
    | eval h1 h2 h3 h4 h5 h6 h7 h8 h9 =>
      rw [hl] at h1; cases h1
      exact ⟨_, _, h2, .inr ⟨_, rfl, .inr ⟨_, rfl, _, _, _, _, _, _, h4, h5, h6, h7, h8, h9, rfl⟩⟩⟩
  · rintro ⟨w, lo, h2, h3 | ⟨sc, rfl, ⟨rfl, h4 | ⟨pos, e, h4⟩⟩ | ⟨s, rfl, s₁, sheet, own, e, own', o', h4, h5, h6, h7, h8, h9, ho⟩⟩⟩
    · exact ⟨_, .deps hl h2 h3⟩
    · exact ⟨_, .fills hl h2 rfl h4⟩
    · exact ⟨_, .cell hl h2 rfl h4⟩
    · cases o' with
      | ok rows => cases ho; exact ⟨_, .eval hl h2 rfl h4 h5 h6 h7 h8 h9⟩
      | err => cases ho
      | panic => cases ho
end

section
variable {E : Env} {version : Nat} {ts : List Text} {partials : Text → List Text} {cuts : List Nat} {a : Args} {fs fs' : FS Text} {files : Files Text}
  {mp : MPath} {p : Path} {kv : Text → Option Ast} {src src' : Text} {m m' : Parsed}

/-- What a run can end with. -/
theorem main_fresh (hs : Setup E a mp p kv) (hb : CanBackup ts a files p) (hf : Fresh fs mp src) (hp : parseModule E src = .ok m)
    {e : Option Exit} {states : List (Files Text)} {w : List (MPath × Module Text)} (h : Main E version ts partials cuts a fs files e states w) :
    (∃ sc s final, InForce E version a.noCache fs mp src sc ∧ EvalSheet sc kv m.sheet (.ok s) ∧ e = some .success ∧ states.getLast? = some final ∧
        Wrote files final p (writeCsv (!a.safe) s (files p))) ∨ (e ≠ some .success ∧ states = [files]) := by
  obtain ⟨c, hc, h1, h2, h3⟩ := hs.configured
  cases h with
  | badArgs h' => rw [hc] at h'; cases h'
  | noName h' h'' => rw [hs.main] at h''; cases h''
  | failed h' hm hcomp he => exact .inr ⟨(by rcases he with rfl | rfl <;> intro h <;> cases h), rfl⟩
  | panics h' hm hcomp => exact .inr ⟨(by intro h; cases h), rfl⟩
  | hangs h' hm hcomp => exact .inr ⟨(by intro h; cases h), rfl⟩
  | @compiled _ _ _ _ w s h' hm hcomp =>
    rw [hc] at h'; cases h'
    rw [hs.main] at hm; cases hm
    obtain ⟨w', lo, k1, k2 | ⟨sc, rfl, ⟨k2, -⟩ | ⟨s', k2, k3⟩⟩⟩ := (compile_fresh hf hp _).mp ⟨w, hcomp⟩
    · cases lo <;> cases k2
    · cases k2
    · cases k2
      obtain ⟨e1, final, e2, e3⟩ := run_wrote (ts := ts) (partials := partials) (backup := c.backup) (ov := c.overwrite) (p := p) (s := s) (cuts := cuts)
        (files := files) (by rw [h1]; exact hb)
      rw [h3] at k1
      refine .inl ⟨sc, s, final, ⟨w', m, hp, k1⟩, k3, by rw [e1], e2, ?_⟩
      rw [h2] at e3; exact e3

/-- The run that has a certain end. -/
theorem main_fresh_with (hs : Setup E a mp p kv) (hb : CanBackup ts a files p) (hf : Fresh fs mp src) (hp : parseModule E src = .ok m) {sc : Scope}
    (hi : InForce E version a.noCache fs mp src sc) {s : Sheet} (h : EvalSheet sc kv m.sheet (.ok s)) : ∃ states w final,
      Main E version ts partials cuts a fs files (some .success) states w ∧ states.getLast? = some final ∧ Wrote files final p (writeCsv (!a.safe) s (files p)) := by
  obtain ⟨c, hc, h1, h2, h3⟩ := hs.configured
  obtain ⟨w', m', k1, k2⟩ := hi
  rw [hp] at k1; cases k1
  obtain ⟨w, hw⟩ := (compile_fresh (version := version) (useCache := c.useCache) (kv := kv) hf hp (.ok s)).mpr ⟨w', _, (by rw [h3]; exact k2), .inr ⟨sc, rfl, .inr ⟨s, rfl, h⟩⟩⟩
  obtain ⟨e1, final, e2, e3⟩ := run_wrote (ts := ts) (partials := partials) (ov := c.overwrite) (p := p) (s := s) (cuts := cuts) (files := files) (backup := c.backup)
    (by rw [h1]; exact hb)
  have := MainFile.compiled (E := E) (version := version) (timestamps := ts) (partials := partials) (out := .csv) (write := fun c => csvTarget c.overwrite cuts)
    (fs := fs) (files := files) hc hs.main hw
  rw [e1] at this
  exact ⟨_, w, final, this, e2, by rw [h2] at e3; exact e3⟩

theorem loads_edited {noCache : Bool} (h : MainEdited fs fs' mp src src') (hp : parseModule E src = .ok m) (hp' : parseModule E src' = .ok m')
    (hr : m'.required = m.required) (hs : m'.scope = m.scope) {w : List (MPath × Scope)} {lo : LOut} :
    Loads E version noCache fs' mp src' w lo ↔ Loads E version noCache fs mp src w lo := by
  have hf := fetch_edited (version := version) (useCache := !noCache) h hp hp' hr hs
  constructor
  · rintro ⟨m₁, k1, k2⟩
    rw [hp'] at k1; cases k1
    rw [hf, hr, hs] at k2
    exact ⟨m, hp, k2⟩
  · rintro ⟨m₁, k1, k2⟩
    rw [hp] at k1; cases k1
    rw [← hf, ← hr, ← hs] at k2
    exact ⟨m', hp', k2⟩

theorem inForce_edited {noCache : Bool} (h : MainEdited fs fs' mp src src') (hp : parseModule E src = .ok m) (hp' : parseModule E src' = .ok m')
    (hr : m'.required = m.required) (hs : m'.scope = m.scope) {sc : Scope} : InForce E version noCache fs' mp src' sc ↔ InForce E version noCache fs mp src sc :=
  exists_congr fun _ => loads_edited h hp hp' hr hs
end

/-! ## The theorems -/

section
variable {E : Env} {a : Args} {fs fs' : FS Text} {files : Files Text} {mp : MPath} {p : Path} {kv : Text → Option Ast}
  {ls : List Parser.Line} {csv csv' src src' : Text} {rs rs' tops mids bottoms : List RowSrc} {k n : Nat}

/-- What parsing two files with the same code section gives. -/
theorem parse_both (hsrc : ModuleFile E ls csv src) (hc : CellsSection E csv rs) (hsrc' : ModuleFile E ls csv' src') (hc' : CellsSection E csv' rs') :
    ∃ sc rows rows', parseModule E src = .ok ⟨usedBy (Parser.stmts ls), sc, ⟨rows, false⟩⟩ ∧ parseModule E src' = .ok ⟨usedBy (Parser.stmts ls), sc, ⟨rows', false⟩⟩ ∧
      AreRows E rs rows ∧ AreRows E rs' rows' := by
  obtain ⟨c1, c2⟩ := hsrc.split
  obtain ⟨c1', c2'⟩ := hsrc'.split
  obtain ⟨sc, s1, -⟩ := Parser.C48_code_section_partial E.uni E.f64 ls hsrc.lines hsrc.uses
  obtain ⟨⟨g, hg, ht⟩, hform⟩ := hc
  obtain ⟨⟨g', hg', ht'⟩, hform'⟩ := hc'
  rw [Csvp.values_parse] at hg hg'
  obtain ⟨rows, e1, r1⟩ := sheet_parse (E := E) (csv := csv) (n := (Source.SourceCode.new src).lenCode) (by rw [Csvp.values_parse]; exact hg) ht hform
  obtain ⟨rows', e1', r1'⟩ := sheet_parse (E := E) (csv := csv') (n := (Source.SourceCode.new src').lenCode) (by rw [Csvp.values_parse]; exact hg') ht' hform'
  refine ⟨sc, rows, rows', ?_, ?_, r1, r1'⟩
  · rw [parseModule, c1, parseScope, s1]
    simp only [c2, e1]; rfl
  · rw [parseModule, c1', parseScope, s1]
    simp only [c2', e1']; rfl

/-- C115: the cells do not decide which definitions are in force, nor whether the modules can be loaded. -/
theorem C115_loads (version : Nat) (noCache : Bool) (hed : MainEdited fs fs' mp src src') (hsrc : ModuleFile E ls csv src) (hc : CellsSection E csv rs)
    (hsrc' : ModuleFile E ls csv' src') (hc' : CellsSection E csv' rs') (w : List (MPath × Scope)) (lo : LOut) :
    Loads E version noCache fs' mp src' w lo ↔ Loads E version noCache fs mp src w lo := by
  obtain ⟨_, rows, rows', hp, hp', -⟩ := parse_both hsrc hc hsrc' hc'
  exact loads_edited hed hp hp' rfl rfl

/-- C115: a run ends with a written target only with definitions that are in force, and then what it writes are the cells evaluated in them; with every such
evaluation there is such a run. -/
theorem C115_runs (version : Nat) (ts : List Text) (partials : Text → List Text) (cuts : List Nat) (hs : Setup E a mp p kv) (hb : CanBackup ts a files p)
    (hf : Fresh fs mp src) (hsrc : ModuleFile E ls csv src) (hc : CellsSection E csv rs) : ∃ rows, AreRows E rs rows ∧ ∀ out,
      (∃ states w final, Main E version ts partials cuts a fs files (some .success) states w ∧ states.getLast? = some final ∧ Wrote files final p out) ↔
        ∃ sc s, InForce E version a.noCache fs mp src sc ∧ EvalSheet sc kv ⟨rows, false⟩ (.ok s) ∧ out = writeCsv (!a.safe) s (files p) := by
  obtain ⟨sc, rows, hp, -, hrows⟩ := hsrc.parse hc
  refine ⟨rows, hrows, fun out => ⟨?_, ?_⟩⟩
  · rintro ⟨states, w, final, h, h1, h2⟩
    rcases main_fresh hs hb hf hp h with ⟨sc, s, final', k1, k2, -, k4, k5⟩ | ⟨k, -⟩
    · rw [h1] at k4; cases k4
      exact ⟨sc, s, k1, k2, Option.some.inj (h2.1.symm.trans k5.1)⟩
    · exact absurd rfl k
  · rintro ⟨sc, s, h1, h2, rfl⟩
    exact main_fresh_with hs hb hf hp h1 h2

/-- C103, the program with modules.  Edit the texts of some cells of a source file, which may use modules.  For every run on the file that writes its target, if the edited formulas have
results, there is a run on the edited file that writes a target with the same rows and, but for the edited cells, the same texts. -/
theorem C103_modules (P : Nat → Nat → Prop) (version : Nat) (ts : List Text) (partials : Text → List Text) (cuts : List Nat) (hs : Setup E a mp p kv)
    (hb : CanBackup ts a files p) (hed : MainEdited fs fs' mp src src') (hsrc : ModuleFile E ls csv src) (hc : CellsSection E csv rs)
    (hsrc' : ModuleFile E ls csv' src') (hc' : CellsSection E csv' rs') (hsame : EditedSrc P rs rs')
    (h0 : NoMark (cellAt (rowsOf (files p)) 0 0)) (h1 : ∀ r ∈ rs, ∀ c ∈ r.cells, NoMark c.2) (h1' : ∀ r ∈ rs', ∀ c ∈ r.cells, NoMark c.2) :
    ∃ rows rows', AreRows E rs rows ∧ AreRows E rs' rows' ∧
      ∀ e states w, Main E version ts partials cuts a fs files e states w →
        (e ≠ some .success ∧ states = [files]) ∨ (e = some .success ∧ ∃ sc s₁ final out, InForce E version a.noCache fs mp src sc ∧ evalFills ⟨rows, false⟩ = some s₁ ∧ states.getLast? = some final ∧ Wrote files final p out ∧
          ((∀ before r after x c f, rows' = before ++ r :: after → P before.length x → r.cells[x]? = some c → c.ast = some f →
              ∀ i, i < copies rows' r → ∃ b, Eval (effective sc kv s₁) (some ⟨x, total rows' before + i⟩) f (.ok b)) →
            ∃ states' w' final' out', Main E version ts partials cuts a fs' files (some .success) states' w' ∧ states'.getLast? = some final' ∧
              Wrote files final' p out' ∧ (csvRead out').length = (csvRead out).length ∧
              ∀ before r after, rows = before ++ r :: after → ∀ i, i < copies rows r → ∀ x, x < r.cells.length → ¬ P before.length x →
                cellAt (csvRead out') (total rows before + i) x = cellAt (csvRead out) (total rows before + i) x)) := by
  obtain ⟨sc₀, rows, rows', hpm, hpm', r1, r1'⟩ := parse_both hsrc hc hsrc' hc'
  refine ⟨rows, rows', r1, r1', fun e states w h => ?_⟩
  obtain ⟨sc, s, final, hin, hev, k1, k2, k3⟩ | ⟨k1, k2⟩ := main_fresh hs hb hed.before hpm h
  · obtain ⟨s₁, _, _, _, _, _, hfill, -⟩ := id hev
    refine .inr ⟨k1, sc, s₁, final, _, hin, hfill, k2, k3, fun hnew => ?_⟩
    obtain ⟨t, ht1, ht2, ht3⟩ := C103_edit (hsame.rows r1 r1') hfill hev hnew
    obtain ⟨states', w', final', m1, m2, m3⟩ := main_fresh_with (version := version) (partials := partials) (cuts := cuts) hs hb hed.after hpm' ((inForce_edited hed hpm hpm' rfl rfl).mpr hin) ht1
    have hm := written_mark (safe := a.safe) h0 (sheet_mark r1 h1 hev)
    have hm' := written_mark (safe := a.safe) h0 (sheet_mark r1' h1' ht1)
    refine ⟨states', w', final', _, m1, m2, m3, ?_, fun before r after e1 i hi x hx hP => ?_⟩
    · rw [(C42_rectangular hm).1, (C42_rectangular hm').1, ht2]
    · obtain ⟨c, c', n1, n2, n3, n4, -⟩ := ht3 before r after e1 i hi x hx hP
      rw [new_at hm, new_at hm', records_at, records_at, n1, n2]
      simp only [Cell.display, n3, n4]
  · exact .inl ⟨k1, k2⟩

/-- C105, the program with modules.  Insert rows without a fill and without names into a source file in which every fill has an amount.  For every run on the file that writes its
target, if the formulas of the inserted rows have results, there is a run on the other file that writes a target with the same cells, lower by the number of inserted
rows if they are below them: texts are the same, and formulas too, except that references by name follow their cells. -/
theorem C105_modules (version : Nat) (ts : List Text) (partials : Text → List Text) (cuts : List Nat) (hs : Setup E a mp p kv)
    (hb : CanBackup ts a files p) (hed : MainEdited fs fs' mp src src') (hsrc : ModuleFile E ls csv src) (hc : CellsSection E csv (tops ++ bottoms))
    (hsrc' : ModuleFile E ls csv' src') (hc' : CellsSection E csv' (tops ++ mids ++ bottoms)) (hsafe : a.safe = false)
    (hu : ∀ r ∈ tops ++ bottoms, fillGiven r ≠ some none) (hm : ∀ r ∈ mids, fillGiven r = none ∧ NoNames r)
    (hfit : ((tops ++ bottoms).map srcCopies).sum + mids.length ≤ 1000)
    (h0 : NoMark (cellAt (rowsOf (files p)) 0 0)) (h1 : ∀ r ∈ tops ++ bottoms, ∀ c ∈ r.cells, NoMark c.2) (h1' : ∀ r ∈ tops ++ mids ++ bottoms, ∀ c ∈ r.cells, NoMark c.2) :
    ∃ rows rows', AreRows E (tops ++ bottoms) rows ∧ AreRows E (tops ++ mids ++ bottoms) rows' ∧
      ∀ e states w, Main E version ts partials cuts a fs files e states w →
        (e ≠ some .success ∧ states = [files]) ∨ (e = some .success ∧ ∃ sc s₁ t₁ final out, InForce E version a.noCache fs mp src sc ∧ evalFills ⟨rows, false⟩ = some s₁ ∧ evalFills ⟨rows', false⟩ = some t₁ ∧
          states.getLast? = some final ∧ Wrote files final p out ∧
          (NotLikeCells sc kv rows → (∀ (i x : Nat) r c f, i < mids.length → rows'[tops.length + i]? = some r → r.cells[x]? = some c → c.ast = some f →
              ∃ b, Eval (effective sc kv t₁) (some ⟨x, (tops.map srcCopies).sum + i⟩) f (.ok b)) →
            ∃ states' w' final' out', Main E version ts partials cuts a fs' files (some .success) states' w' ∧ states'.getLast? = some final' ∧
              Wrote files final' p out' ∧ (csvRead out').length = (csvRead out).length + mids.length ∧
              ∀ (y x : Nat) q c, s₁.rows[y]? = some q → q.cells[x]? = some c →
                (c.ast = none → cellAt (csvRead out) y x = c.value ∧ cellAt (csvRead out') (lowered (tops.map srcCopies).sum mids.length y) x = c.value) ∧
                ∀ f, c.ast = some f → ∃ b b', Eval (effective sc kv s₁) (some ⟨x, y⟩) f (.ok b) ∧ cellAt (csvRead out) y x = Parser.displayFormula b ∧
                  cellAt (csvRead out') (lowered (tops.map srcCopies).sum mids.length y) x = Parser.displayFormula b' ∧
                  Moved (FollowsRef sc kv rows (lowered (tops.map srcCopies).sum mids.length) ⟨x, y⟩) b b')) := by
  obtain ⟨sc₀, rows, rows', hpm, hpm', r1, r1'⟩ := parse_both hsrc hc hsrc' hc'
  obtain ⟨mid, m1, m2, hins⟩ := inserted_src r1 r1' hu hm hfit
  refine ⟨rows, rows', r1, r1', fun e states w h => ?_⟩
  obtain ⟨sc, s, final, hin, hev, k1, k2, k3⟩ | ⟨k1, k2⟩ := main_fresh hs hb hed.before hpm h
  · obtain ⟨s₁, _, _, _, _, _, hfill, -⟩ := id hev
    obtain ⟨A, B, A', B', -, hfill', -⟩ := hins.expand
    refine .inr ⟨k1, sc, s₁, _, final, _, hin, hfill, hfill', k2, k3, fun hn hnew => ?_⟩
    obtain ⟨t, ht1, ht2⟩ := C105_insert hins hfill hfill' hn hev fun i x r c f e1 e2 e3 =>
      hnew i x r c f (by rw [← m1]; exact (List.getElem?_eq_some_iff.mp e1).1) (by rw [← m2 i (List.getElem?_eq_some_iff.mp e1).1]; exact e1) e2 e3
    obtain ⟨states', w', final', o1, o2, o3⟩ := main_fresh_with (version := version) (partials := partials) (cuts := cuts) hs hb hed.after hpm' ((inForce_edited hed hpm hpm' rfl rfl).mpr hin) ht1
    have hmk := written_mark (safe := a.safe) h0 (sheet_mark r1 h1 hev)
    have hmk' := written_mark (safe := a.safe) h0 (sheet_mark r1' h1' ht1)
    refine ⟨states', w', final', _, o1, o2, o3, ?_, fun y x q c hq hcx => ?_⟩
    · rw [(C42_rectangular hmk).1, (C42_rectangular hmk').1, ht2.len, m1]
    · obtain ⟨-, -, s₂, hs₂, hcc⟩ := (C103_cell_by_cell ..).mp hev
      rw [hfill] at hs₂; cases hs₂
      have hy : y < s.rows.length := by rw [hcc.rows]; exact (List.getElem?_eq_some_iff.mp hq).1
      have hx : x < s.rows[y].cells.length := by rw [(hcc.row y q _ hq (List.getElem?_eq_getElem hy)).2.2]; exact (List.getElem?_eq_some_iff.mp hcx).1
      have hce := hcc.cell y x q _ c _ hq (List.getElem?_eq_getElem hy) hcx (List.getElem?_eq_getElem hx)
      obtain ⟨r', n1, -, nl, n3⟩ := ht2.row y _ (List.getElem?_eq_getElem hy)
      obtain ⟨d', n4⟩ : ∃ d', r'.cells[x]? = some d' := ⟨_, List.getElem?_eq_getElem (by rw [nl]; exact hx)⟩
      have n5 := n3 x _ d' (List.getElem?_eq_getElem hx) n4
      have z1 : sheetCell s y x = some s.rows[y].cells[x] := by rw [sheetCell, List.getElem?_eq_getElem hy, Option.bind_some, List.getElem?_eq_getElem hx]
      have z2 : sheetCell t (lowered (tops.map srcCopies).sum mids.length y) x = some d' := by rw [sheetCell, ← m1, n1, Option.bind_some, n4]
      have sh : ∀ o n, shown a.safe o n = n := by intro o n; rw [hsafe]; rfl
      rw [new_at hmk, new_at hmk', records_at, records_at, z1, z2]
      simp only [sh]
      refine ⟨fun hnone => ?_, fun f hsome => ?_⟩
      · have q1 := hce.text hnone
        rcases n5.ast with ⟨-, q2⟩ | ⟨b, _, q2, -⟩
        · rw [Cell.display, Cell.display, q1, q2]
          exact ⟨hce.value, by show d'.value = _; rw [n5.value, hce.value]⟩
        · rw [q1] at q2; cases q2
      · obtain ⟨b, q1, q2⟩ := hce.formula f hsome
        rcases n5.ast with ⟨q3, -⟩ | ⟨b₂, b', q3, q4, q5⟩
        · rw [q1] at q3; cases q3
        · rw [q1] at q3; cases q3
          rw [Cell.display, Cell.display, q1, q4]
          exact ⟨b, b', q2, rfl, rfl, by rw [← m1]; exact q5⟩
  · exact .inl ⟨k1, k2⟩

/-- C106, the program with modules.  Write out some fills, of rows that have no names, in a source file.  Exactly the same contents can be written to the target. -/
theorem C106_modules (version : Nat) (ts : List Text) (partials : Text → List Text) (cuts : List Nat) (hs : Setup E a mp p kv)
    (hb : CanBackup ts a files p) (hed : MainEdited fs fs' mp src src') (hsrc : ModuleFile E ls csv src) (hc : CellsSection E csv rs)
    (hsrc' : ModuleFile E ls csv' src') (hc' : CellsSection E csv' rs')
    (hw : WrittenOutSrc (1000 - (rs.map srcCopies).sum) rs rs') (h2 : ¬ 2 ≤ srcUnbounded rs) (out : Text) :
    (∃ states w final, Main E version ts partials cuts a fs files (some .success) states w ∧ states.getLast? = some final ∧ Wrote files final p out) ↔
    ∃ states w final, Main E version ts partials cuts a fs' files (some .success) states w ∧ states.getLast? = some final ∧ Wrote files final p out := by
  obtain ⟨sc₀, rows, rows', hpm, hpm', r1, r1'⟩ := parse_both hsrc hc hsrc' hc'
  have get : ∀ {rs rows}, AreRows E rs rows → ∀ (i : Nat) r row, rs[i]? = some r → rows[i]? = some row → IsRow E (0 + i) r row := by
    intro rs rows h i r row h1 h2
    obtain ⟨r', k1, k2⟩ := areRows_row h h2
    rw [h1] at k1; cases k1; rw [Nat.zero_add]; exact k2
  have hW : WrittenOut (1000 - bounded rows) rows rows' := by
    rw [part_copies 0 r1.1 (get r1)]
    exact writtenOut_src hw 0 0 r1.1 r1'.1 (get r1) (get r1')
  have key := fun sc => C106_sheet sc kv hW (by rw [areRows_unboundeds 0 r1.1 (get r1)]; exact h2)
  have wrote_eq : ∀ {final x y}, Wrote files final p x → Wrote files final p y → x = y := by
    intro final x y hx hy
    exact Option.some.inj (hx.1.symm.trans hy.1)
  constructor
  · rintro ⟨states, w, final, h, m1, m2⟩
    obtain ⟨sc, s, final', hin, hev, -, n2, n3⟩ | ⟨n1, -⟩ := main_fresh hs hb hed.before hpm h
    · rw [m1] at n2; cases n2
      obtain ⟨o', q1, q2⟩ := (key sc).1 _ hev
      cases q2 with
      | ok q2 =>
        obtain ⟨states', w', final', u1, u2, u3⟩ := main_fresh_with (version := version) (partials := partials) (cuts := cuts) hs hb hed.after hpm' ((inForce_edited hed hpm hpm' rfl rfl).mpr hin) q1
        rw [writeCsv_equal q2, ← wrote_eq m2 n3] at u3
        exact ⟨states', w', final', u1, u2, u3⟩
    · exact absurd rfl n1
  · rintro ⟨states, w, final, h, m1, m2⟩
    obtain ⟨sc, s, final', hin, hev, -, n2, n3⟩ | ⟨n1, -⟩ := main_fresh hs hb hed.after hpm' h
    · rw [m1] at n2; cases n2
      obtain ⟨o', q1, q2⟩ := (key sc).2 _ hev
      cases q2 with
      | ok q2 =>
        obtain ⟨states', w', final', u1, u2, u3⟩ := main_fresh_with (version := version) (partials := partials) (cuts := cuts) hs hb hed.before hpm ((inForce_edited hed hpm hpm' rfl rfl).mp hin) q1
        rw [← writeCsv_equal q2, ← wrote_eq m2 n3] at u3
        exact ⟨states', w', final', u1, u2, u3⟩
    · exact absurd rfl n1

/-- C112, the program with modules.  Insert columns without names into a source file.  For every run on the file that writes its target, if the formulas of the inserted cells have
results, there is a run on the other file that writes a target with the same cells, further right by the number of inserted columns if they are behind them: texts are
the same, and formulas too, except that references by name follow their cells. -/
theorem C112_modules (version : Nat) (ts : List Text) (partials : Text → List Text) (cuts : List Nat) (hs : Setup E a mp p kv)
    (hb : CanBackup ts a files p) (hed : MainEdited fs fs' mp src src') (hsrc : ModuleFile E ls csv src) (hc : CellsSection E csv rs)
    (hsrc' : ModuleFile E ls csv' src') (hc' : CellsSection E csv' rs') (hsafe : a.safe = false) (hw : List.Forall₂ (WidenedSrc k n) rs rs')
    (h0 : NoMark (cellAt (rowsOf (files p)) 0 0)) (h1 : ∀ r ∈ rs, ∀ c ∈ r.cells, NoMark c.2) (h1' : ∀ r ∈ rs', ∀ c ∈ r.cells, NoMark c.2) :
    ∃ rows rows', AreRows E rs rows ∧ AreRows E rs' rows' ∧
      ∀ e states w, Main E version ts partials cuts a fs files e states w →
        (e ≠ some .success ∧ states = [files]) ∨ (e = some .success ∧ ∃ sc s₁ t₁ final out, InForce E version a.noCache fs mp src sc ∧ evalFills ⟨rows, false⟩ = some s₁ ∧ evalFills ⟨rows', false⟩ = some t₁ ∧
          states.getLast? = some final ∧ Wrote files final p out ∧
          (NotLikeCells sc kv rows → (∀ (y x : Nat) r c f, k ≤ x → x < k + n → t₁.rows[y]? = some r → r.cells[x]? = some c → c.ast = some f → ∃ b, Eval (effective sc kv t₁) (some ⟨x, y⟩) f (.ok b)) →
            ∃ states' w' final' out', Main E version ts partials cuts a fs' files (some .success) states' w' ∧ states'.getLast? = some final' ∧
              Wrote files final' p out' ∧ (csvRead out').length = (csvRead out).length ∧
              ∀ (y x : Nat) q c, s₁.rows[y]? = some q → q.cells[x]? = some c →
                (c.ast = none → cellAt (csvRead out) y x = c.value ∧ cellAt (csvRead out') y (lowered k n x) = c.value) ∧
                ∀ f, c.ast = some f → ∃ b b', Eval (effective sc kv s₁) (some ⟨x, y⟩) f (.ok b) ∧ cellAt (csvRead out) y x = Parser.displayFormula b ∧
                  cellAt (csvRead out') y (lowered k n x) = Parser.displayFormula b' ∧ Moved (FollowsCol sc kv rows (lowered k n) ⟨x, y⟩) b b')) := by
  obtain ⟨sc₀, rows, rows', hpm, hpm', r1, r1'⟩ := parse_both hsrc hc hsrc' hc'
  have hins := areRows_widened hw r1 r1'
  refine ⟨rows, rows', r1, r1', fun e states w h => ?_⟩
  obtain ⟨sc, s, final, hin, hev, k1, k2, k3⟩ | ⟨k1, k2⟩ := main_fresh hs hb hed.before hpm h
  · obtain ⟨s₁, _, _, _, _, _, hfill, -⟩ := id hev
    obtain ⟨t₁, hfill', -⟩ := widened_fills hins hfill
    refine .inr ⟨k1, sc, s₁, t₁, final, _, hin, hfill, hfill', k2, k3, fun hn hnew => ?_⟩
    obtain ⟨t, ht1, ht2⟩ := C112_insert hins hfill hfill' hn hev hnew
    obtain ⟨states', w', final', o1, o2, o3⟩ := main_fresh_with (version := version) (partials := partials) (cuts := cuts) hs hb hed.after hpm' ((inForce_edited hed hpm hpm' rfl rfl).mpr hin) ht1
    have hmk := written_mark (safe := a.safe) h0 (sheet_mark r1 h1 hev)
    have hmk' := written_mark (safe := a.safe) h0 (sheet_mark r1' h1' ht1)
    refine ⟨states', w', final', _, o1, o2, o3, ?_, fun y x q c hq hcx => ?_⟩
    · rw [(C42_rectangular hmk).1, (C42_rectangular hmk').1, ht2.len]
    · obtain ⟨-, -, s₂, hs₂, hcc⟩ := (C103_cell_by_cell ..).mp hev
      rw [hfill] at hs₂; cases hs₂
      have hy : y < s.rows.length := by rw [hcc.rows]; exact (List.getElem?_eq_some_iff.mp hq).1
      have hx : x < s.rows[y].cells.length := by rw [(hcc.row y q _ hq (List.getElem?_eq_getElem hy)).2.2]; exact (List.getElem?_eq_some_iff.mp hcx).1
      have hce := hcc.cell y x q _ c _ hq (List.getElem?_eq_getElem hy) hcx (List.getElem?_eq_getElem hx)
      obtain ⟨r', n1, -, -, n3⟩ := ht2.row y _ (List.getElem?_eq_getElem hy)
      obtain ⟨d', n4, n5⟩ := n3 x _ (List.getElem?_eq_getElem hx)
      have z1 : sheetCell s y x = some s.rows[y].cells[x] := by rw [sheetCell, List.getElem?_eq_getElem hy, Option.bind_some, List.getElem?_eq_getElem hx]
      have z2 : sheetCell t y (lowered k n x) = some d' := by rw [sheetCell, n1, Option.bind_some, n4]
      have sh : ∀ o n, shown a.safe o n = n := by intro o n; rw [hsafe]; rfl
      rw [new_at hmk, new_at hmk', records_at, records_at, z1, z2]
      simp only [sh]
      refine ⟨fun hnone => ?_, fun f hsome => ?_⟩
      · have q1 := hce.text hnone
        rcases n5.ast with ⟨-, q2⟩ | ⟨b, _, q2, -⟩
        · rw [Cell.display, Cell.display, q1, q2]
          exact ⟨hce.value, by show d'.value = _; rw [n5.value, hce.value]⟩
        · rw [q1] at q2; cases q2
      · obtain ⟨b, q1, q2⟩ := hce.formula f hsome
        rcases n5.ast with ⟨q3, -⟩ | ⟨b₂, b', q3, q4, q5⟩
        · rw [q1] at q3; cases q3
        · rw [q1] at q3; cases q3
          rw [Cell.display, Cell.display, q1, q4]
          exact ⟨b, b', q2, rfl, rfl, q5⟩
  · exact .inl ⟨k1, k2⟩

end

/-! ## An example -/

namespace Lib

def editedMain : Text := "use lib\ny := double(7)\n---\ndone\n".toList

def editedFiles : FS Text :=
  ⟨fun m => if m = ["sheet".toList] then some (editedMain, 9) else if m = ["lib".toList] then some (libText, 5) else none, fun _ => none⟩

theorem edited_main (E : Env) : ModuleFile E mainLines "done".toList editedMain :=
  ⟨(main_file E).lines, (main_file E).uses, (main_file E).separator, (main_file E).codeCr, by decide, "done\n".toList, .inl (by decide), by decide +kernel⟩

theorem edited_cells (E : Env) : CellsSection E "done".toList [⟨[], [([], "done".toList)]⟩] := by
  refine ⟨⟨[["done".toList]], by decide, .cons (rowText_plain (by decide) (by unfold NoList; decide)) .nil⟩, ?_⟩
  intro r hr c hc h
  obtain rfl := List.mem_singleton.mp hr
  obtain rfl := List.mem_singleton.mp hc
  exfalso; revert h; decide

theorem edited : MainEdited files editedFiles ["sheet".toList] mainText editedMain := by
  refine ⟨⟨7, rfl, by intro o t h; cases h⟩, ⟨9, rfl, by intro o t h; cases h⟩, fun q hq => ?_, fun q => rfl⟩
  simp only [files, editedFiles, if_neg hq]

/-- The modules give the same. -/
example (E : Env) (version : Nat) (w : List (MPath × Scope)) (lo : LOut) :
    Loads E version false editedFiles ["sheet".toList] editedMain w lo ↔ Loads E version false files ["sheet".toList] mainText w lo :=
  C115_loads version false edited (main_file E) (main_cells E) (edited_main E) (edited_cells E) w lo

/-- For the successful runs on the file there is one on the edited file. -/
example (E : Env) (version : Nat) (e : Option Exit) (states : List (Files Text)) (w : List (MPath × Module Text))
    (h : Main E version [] (fun _ => []) [] (exampleArgs false []) files exampleFiles e states w) (hok : e = some .success) :
    ∃ states' w' final' out', Main E version [] (fun _ => []) [] (exampleArgs false []) editedFiles exampleFiles (some .success) states' w' ∧
      states'.getLast? = some final' ∧ Wrote exampleFiles final' (Path.ofText "out.csv".toList) out' := by
  have h0 : NoMark (cellAt (rowsOf (exampleFiles (Path.ofText "out.csv".toList))) 0 0) := by unfold NoMark; decide
  have hed : EditedSrc (fun _ _ => True) [row] [⟨[], [([], "done".toList)]⟩] := by
    refine ⟨rfl, fun y r r' e1 e2 => ?_, fun y x r r' c c' e1 e2 e3 e4 => ?_⟩
    · match y with
      | 0 => cases e1; cases e2; exact ⟨rfl, rfl⟩
      | n + 1 => cases e1
    · match y with
      | 0 =>
        cases e1; cases e2
        match x with
        | 0 => cases e3; cases e4; exact ⟨rfl, fun h => absurd trivial h⟩
        | n + 1 => cases e3
      | n + 1 => cases e1
  obtain ⟨rows, rows', k2, k3, k4⟩ := C103_modules (fun _ _ => True) version [] (fun _ => []) [] (exampleSetup E false [] [] rfl) (by intro h; cases h) edited
    (main_file E) (main_cells E) (edited_main E) (edited_cells E) hed (files := exampleFiles) h0
    (by
      intro r hr c hc
      obtain rfl := List.mem_singleton.mp hr
      obtain rfl := List.mem_singleton.mp hc
      unfold NoMark; decide)
    (by
      intro r hr c hc
      obtain rfl := List.mem_singleton.mp hr
      obtain rfl := List.mem_singleton.mp hc
      unfold NoMark; decide)
  rcases k4 e states w h with ⟨k5, -⟩ | ⟨-, sc, s₁, final₀, out₀, -, m1, m2, m3, m4⟩
  · exact absurd hok k5
  · obtain ⟨states', w', final', out', n1, n2, n3, -⟩ := m4 fun before q after x c f e1 hx hc ha => by
      exfalso
      have hq : rows'[before.length]? = some q := by rw [e1]; simp
      obtain ⟨r, o1, o2⟩ := areRows_row k3 hq
      have ho : before.length < 1 := (List.getElem?_eq_some_iff.mp o1).1
      rw [show before.length = 0 by omega] at o1 o2
      cases o1
      obtain ⟨d, o3, -, -, o4⟩ := isRow_cell o2 hc
      match x with
      | 0 =>
        obtain rfl : ([], "done".toList) = d := Option.some.inj o3
        rw [ha, show formulaOf E "done".toList = none from if_neg (by decide)] at o4
        cases o4
      | n + 1 => cases o3
    exact ⟨states', w', final', out', n1, n2, n3⟩

end Lib
end Verif.Cli
