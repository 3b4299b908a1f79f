import Verif.Cli.Rows
import Verif.Target.Cli
import Verif.Sheet.Formula
/-
Runs of the program on a main file that uses no other modules.
-/
namespace Verif.Cli
open Verif.Ast Verif.Loader Verif.Sheet Verif.Cache
open Verif.Cell hiding Target
open Verif.Target hiding MPath

/-- The arguments name the input file, with module path `mp`, and the target `o` (C44 and C46 say when), the `-k` values are `kv`, and `-v` is given
at most four times. -/
structure SetupFor (E : Env) (a : Args) (mp : MPath) (o : Output) (kv : Text → Option Ast) : Prop where
  input : ∃ dir f stem, a.inputFilename = Path.ofText (inDir dir f) ∧ FileName f ∧ StemOf f stem
  main : mainModulePath a.inputFilename = some mp
  target : outputOf E.alnum a.googleSheetId a.outputFilename = some o
  values : ∃ l, Parser.parseKeyValues E.uni E.f64 a.keyValues = some l ∧ kv = collect l
  verbose : a.verbose ≤ 4

/-- The same, with the CSV file `p` as the target. -/
abbrev Setup (E : Env) (a : Args) (mp : MPath) (p : Path) (kv : Text → Option Ast) : Prop := SetupFor E a mp (.csv p) kv

/-- The sheet has the given name or else that of the input file without its extension. -/
def SheetName (a : Args) (n : Text) : Prop :=
  a.sheetName = some n ∨ a.sheetName = none ∧ ∃ dir f, a.inputFilename = Path.ofText (inDir dir f) ∧ FileName f ∧ StemOf f n

/-- With `--backup`, a backup can be made (C43 says when). -/
def CanBackup {C : Type} (timestamps : List Text) (a : Args) (files : Files C) (p : Path) : Prop :=
  a.backup = true → (backupFile timestamps files p).isSome = true

theorem SetupFor.config {E : Env} {a : Args} {mp : MPath} {o : Output} {kv : Text → Option Ast} (h : SetupFor E a mp o kv) :
    ∃ c, Cli.configured E a = some (kv, c, o) ∧ c.backup = a.backup ∧ c.overwrite = !a.safe ∧ c.useCache = !a.noCache ∧ SheetName a c.sheetName := by
  obtain ⟨dir, f, stem, h1, h2, h3⟩ := h.input
  obtain ⟨c, c1, c2, c3, c4, -, -, c5, c6, -⟩ := (C78_config (a := a.toCliArgs) h1 h2 h3).2 h.verbose
  obtain ⟨l, h4, rfl⟩ := h.values
  refine ⟨c, by simp only [Cli.configured, h4, c1, h.target]; rfl, ?_, ?_, ?_, ?_⟩
  · cases h' : a.backup <;> cases h'' : c.backup <;> simp_all
  · cases h' : a.safe <;> cases h'' : c.overwrite <;> simp_all
  · cases h' : a.noCache <;> cases h'' : c.useCache <;> simp_all
  · cases h' : a.sheetName with
    | some n => exact .inl (by rw [h', c5 n h'])
    | none => exact .inr ⟨h', dir, f, h1, h2, by rw [c6 h']; exact h3⟩

theorem SetupFor.configured {E : Env} {a : Args} {mp : MPath} {o : Output} {kv : Text → Option Ast} (h : SetupFor E a mp o kv) :
    ∃ c, Cli.configured E a = some (kv, c, o) ∧ c.backup = a.backup ∧ c.overwrite = !a.safe ∧ c.useCache = !a.noCache := by
  obtain ⟨c, h1, h2, h3, h4, -⟩ := h.config
  exact ⟨c, h1, h2, h3, h4⟩

/-- The files at the end of a run that writes `new` to `p`: other files are as they were (there may be a new one, the backup). -/
structure Wrote {C : Type} (files final : Files C) (p : Path) (new : C) : Prop where
  target : final p = some new
  others : ∀ q c, q ≠ p → files q = some c → final q = some c

theorem run_wrote {ts : List Text} {partials : Text → List Text} {backup ov : Bool} {p : Path} {s : Sheet} {cuts : List Nat} {files : Files Text}
    (hb : backup = true → (backupFile ts files p).isSome = true) :
    (run ts partials backup p (some s) (csvTarget ov cuts) files).1 = .success ∧
    ∃ final, (run ts partials backup p (some s) (csvTarget ov cuts) files).2.getLast? = some final ∧ Wrote files final p (writeCsv ov s (files p)) := by
  cases backup with
  | false =>
    refine ⟨rfl, files.set p (writeCsv ov s (files p)), ?_, set_eq, fun q c hq hc => by rw [set_ne hq, hc]⟩
    simp only [run, csvTarget, Bool.false_eq_true, if_false]
    rw [← List.cons_append, List.getLast?_append]
    rfl
  | true =>
    obtain ⟨⟨fs', new⟩, hbk⟩ := Option.isSome_iff_exists.mp (hb rfl)
    obtain ⟨hn, ⟨c, h1, h2⟩, h3⟩ := C43_backup hbk
    have hne : new ≠ p := by rintro rfl; rw [hn] at h1; cases h1
    have ht : fs' p = files p := h3 p (fun h => hne h.symm)
    refine ⟨by simp [run, hbk, csvTarget], fs'.set p (writeCsv ov s (files p)), ?_, set_eq, fun q c hq hc => ?_⟩
    · simp only [run, hbk, csvTarget, if_true, ht]
      rw [← List.cons_append, ← List.append_assoc, List.getLast?_append]
      rfl
    · rw [set_ne hq]; exact C43_nothing_lost hbk q c hc

section
variable {E : Env} {version : Nat} {ts : List Text} {partials : Text → List Text} {cuts : List Nat} {a : Args} {fs : FS Text} {files : Files Text}
  {mp : MPath} {p : Path} {kv : Text → Option Ast} {src : Text} {m : Parsed}

/-- What a run can end with. -/
theorem main_alone (hs : Setup E a mp p kv) (hb : CanBackup ts a files p) (hf : Fresh fs mp src) (hp : parseModule E src = .ok m)
    (hr : m.required = []) {e : Option Exit} {states : List (Files Text)} {w : List (MPath × Module Text)}
    (h : Main E version ts partials cuts a fs files e states w) :
    (∀ x ∈ w, x.1 = mp) ∧
    ((∃ s final, EvalSheet m.scope kv m.sheet (.ok s) ∧ e = some .success ∧ states.getLast? = some final ∧
        Wrote files final p (writeCsv (!a.safe) s (files p))) ∨
      ((e = some .failure ∨ e = some .panic) ∧ states = [files] ∧
        (evalFills m.sheet = none ∨ ∃ pos er, EvalSheet m.scope kv m.sheet (.err pos er)))) := by
  obtain ⟨c, hc, h1, h2, h3⟩ := hs.configured
  cases h with
  | badArgs h' => rw [hc] at h'; cases h'
  | noName h' h'' => rw [hs.main] at h''; cases h''
  | failed h' hm hcomp he =>
    rw [hc] at h'; cases h'
    rw [hs.main] at hm; cases hm
    obtain ⟨hw, ⟨_, h⟩ | ⟨_, h⟩ | ⟨s, h, _⟩⟩ := compile_alone hf hp hr hcomp
    · refine ⟨hw, .inr ⟨?_, rfl, .inl h⟩⟩
      rcases he with rfl | rfl
      · exact .inl rfl
      · exact .inr rfl
    · refine ⟨hw, .inr ⟨?_, rfl, .inr h⟩⟩
      rcases he with rfl | rfl
      · exact .inl rfl
      · exact .inr rfl
    · cases h
  | panics h' hm hcomp =>
    rw [hc] at h'; cases h'
    rw [hs.main] at hm; cases hm
    obtain ⟨hw, ⟨h, _⟩ | ⟨h, _⟩ | ⟨s, h, _⟩⟩ := compile_alone hf hp hr hcomp <;> cases h
  | hangs h' hm hcomp =>
    rw [hc] at h'; cases h'
    rw [hs.main] at hm; cases hm
    obtain ⟨hw, ⟨h, _⟩ | ⟨h, _⟩ | ⟨s, h, _⟩⟩ := compile_alone hf hp hr hcomp <;> cases h
  | @compiled _ _ _ _ _ s h' hm hcomp =>
    rw [hc] at h'; cases h'
    rw [hs.main] at hm; cases hm
    obtain ⟨hw, ⟨h, _⟩ | ⟨h, _⟩ | ⟨_, h, hev⟩⟩ := compile_alone hf hp hr hcomp
    · cases h
    · cases h
    · cases h
      obtain ⟨e1, final, e2, e3⟩ := run_wrote (ts := ts) (partials := partials) (backup := c.backup) (ov := c.overwrite) (p := p) (s := s) (cuts := cuts)
        (files := files) (by rw [h1]; exact hb)
      refine ⟨hw, .inl ⟨s, final, hev, by rw [e1], e2, ?_⟩⟩
      rw [h2] at e3; exact e3

/-- There is a run with any result that the evaluation can have. -/
theorem main_alone_exists (hs : Setup E a mp p kv) (hf : Fresh fs mp src) (hp : parseModule E src = .ok m) (hr : m.required = []) {s : Sheet}
    (h : EvalSheet m.scope kv m.sheet (.ok s)) : ∃ e states w, Main E version ts partials cuts a fs files e states w := by
  obtain ⟨c, hc, h1, h2, h3⟩ := hs.configured
  obtain ⟨w, hw⟩ := compile_alone_ok (version := version) (useCache := c.useCache) (kv := kv) hf hp hr h
  exact ⟨_, _, w, .compiled hc hs.main hw⟩

/-- The run that has a certain one. -/
theorem main_alone_with (hs : Setup E a mp p kv) (hb : CanBackup ts a files p) (hf : Fresh fs mp src) (hp : parseModule E src = .ok m) (hr : m.required = [])
    {s : Sheet} (h : EvalSheet m.scope kv m.sheet (.ok s)) : ∃ states w final, Main E version ts partials cuts a fs files (some .success) states w ∧
      states.getLast? = some final ∧ Wrote files final p (writeCsv (!a.safe) s (files p)) := by
  obtain ⟨c, hc, h1, h2, h3⟩ := hs.configured
  obtain ⟨w, hw⟩ := compile_alone_ok (version := version) (useCache := c.useCache) (kv := kv) hf hp hr h
  obtain ⟨e1, final, e2, e3⟩ := run_wrote (ts := ts) (partials := partials) (ov := c.overwrite) (p := p) (s := s) (cuts := cuts) (files := files) (backup := c.backup)
    (by rw [h1]; exact hb)
  have := MainFile.compiled (E := E) (version := version) (timestamps := ts) (partials := partials) (out := .csv) (write := fun c => csvTarget c.overwrite cuts)
    (fs := fs) (files := files) hc hs.main hw
  rw [e1] at this
  exact ⟨_, w, final, this, e2, by rw [h2] at e3; exact e3⟩

end
end Verif.Cli
