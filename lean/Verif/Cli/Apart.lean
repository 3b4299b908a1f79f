import Verif.Cli.Workbook
import Verif.Target.GoogleRun
/-
C121: an option changes only what it is for; and C122 for files.
-/
namespace Verif.Cli
open Verif.Ast Verif.Loader Verif.Sheet Verif.Cache
open Verif.Cell hiding Target
open Verif.Target hiding MPath

/-! ## Specification -/

/-- `a` and `a'` have the same options and arguments except for `-v`, which neither has more than four times. -/
def SameButVerbose (a a' : Args) : Prop := ∃ v, a.verbose ≤ 4 ∧ v ≤ 4 ∧ a' = { a with verbose := v }

/-- They are the same except for `--sheet-name`; without it the input has a name. -/
def SameButSheetName (a a' : Args) : Prop :=
  (a.sheetName ≠ none ∨ a.inputFilename.fileName ≠ none) ∧ (a'.sheetName ≠ none ∨ a.inputFilename.fileName ≠ none) ∧ ∃ n, a' = { a with sheetName := n }

/-- They are the same except for the offsets. -/
def SameButOffsets (a a' : Args) : Prop := ∃ x y, a' = { a with xOffset := x, yOffset := y }

/-- `a` and `a'` are the same, but `a'` has `--backup` and `a` has not. -/
def BackupToo (a a' : Args) : Prop := a.backup = false ∧ a' = { a with backup := true }

/-- `files` and `files'` are the same, except that `files'` has a backup of what `target` had before, in a file that was not there. -/
def PlusBackup {C : Type} (target : Path) (before files files' : Files C) : Prop :=
  ∃ new c, before target = some c ∧ before new = none ∧ files' new = some c ∧ ∀ q, q ≠ new → files' q = files q

/-! ## Proofs -/

section
variable {E : Env} {version : Nat} {ts : List Text} {fs : FS Text} {a a' : Args} {e : Option Exit} {w : List (MPath × Module Text)}

/-- Two command lines that mean the same up to the configuration. -/
structure Interchangeable {C : Type} (E : Env) (out : Path → Output) (write : Config → Sheet → Option C → WriteOut C) (a a' : Args) : Prop where
  input : a'.inputFilename = a.inputFilename
  none : configured E a = none → configured E a' = none
  some : ∀ kv c p, configured E a = some (kv, c, out p) → ∃ c', configured E a' = some (kv, c', out p) ∧ c'.useCache = c.useCache ∧ c'.backup = c.backup ∧
    write c' = write c

theorem main_interchangeable {C : Type} {partials : C → List C} {out : Path → Output} {write : Config → Sheet → Option C → WriteOut C} {files : Files C}
    {states : List (Files C)} (h : Interchangeable E out write a a') (hr : MainFile E version ts partials out write a fs files e states w) :
    MainFile E version ts partials out write a' fs files e states w := by
  cases hr with
  | badArgs h1 => exact .badArgs (h.none h1)
  | noName h1 h2 =>
    obtain ⟨c', k1, -, -, -⟩ := h.some _ _ _ h1
    exact .noName k1 (by rw [h.input]; exact h2)
  | failed h1 h2 h3 h4 =>
    obtain ⟨c', k1, k2, -, -⟩ := h.some _ _ _ h1
    exact .failed k1 (by rw [h.input]; exact h2) (by rw [k2]; exact h3) h4
  | panics h1 h2 h3 =>
    obtain ⟨c', k1, k2, -, -⟩ := h.some _ _ _ h1
    exact .panics k1 (by rw [h.input]; exact h2) (by rw [k2]; exact h3)
  | hangs h1 h2 h3 =>
    obtain ⟨c', k1, k2, -, -⟩ := h.some _ _ _ h1
    exact .hangs k1 (by rw [h.input]; exact h2) (by rw [k2]; exact h3)
  | @compiled kv c p mp w sheet h1 h2 h3 =>
    obtain ⟨c', k1, k2, k3, k4⟩ := h.some _ _ _ h1
    have := MainFile.compiled (timestamps := ts) (partials := partials) (write := write) (files := files) k1 (by rw [h.input]; exact h2) (by rw [k2]; exact h3)
    rw [k3, k4] at this
    exact this

theorem configured_eq {E : Env} {a : Args} : configured E a = (Parser.parseKeyValues E.uni E.f64 a.keyValues).bind fun kv =>
    (configOf a.toCliArgs).bind fun c => (outputOf E.alnum a.googleSheetId a.outputFilename).map fun o => (collect kv, c, o) := by
  unfold configured
  cases Parser.parseKeyValues E.uni E.f64 a.keyValues with
  | none => rfl
  | some kv => cases configOf a.toCliArgs <;> rfl

/-- Command lines with the same `-k` values and target whose options differ in the configuration only. -/
theorem interchangeable {C : Type} {out : Path → Output} {write : Config → Sheet → Option C → WriteOut C} (hi : a'.inputFilename = a.inputFilename)
    (hk : a'.keyValues = a.keyValues) (hg : a'.googleSheetId = a.googleSheetId) (ho : a'.outputFilename = a.outputFilename)
    (hn : configOf a.toCliArgs = none → configOf a'.toCliArgs = none)
    (hc : ∀ c, configOf a.toCliArgs = some c → ∃ c', configOf a'.toCliArgs = some c' ∧ c'.useCache = c.useCache ∧ c'.backup = c.backup ∧ write c' = write c) :
    Interchangeable E out write a a' := by
  refine ⟨hi, fun h => ?_, fun kv c p h => ?_⟩
  · rw [configured_eq] at h ⊢
    rw [hk, hg, ho]
    cases h1 : Parser.parseKeyValues E.uni E.f64 a.keyValues with
    | none => rfl
    | some kv =>
      rw [h1] at h
      cases h2 : configOf a.toCliArgs with
      | none => rw [hn h2]; rfl
      | some c =>
        obtain ⟨c', k1, -⟩ := hc c h2
        rw [h2] at h
        rw [k1]
        cases h3 : outputOf E.alnum a.googleSheetId a.outputFilename with
        | none => rfl
        | some o => rw [h3] at h; cases h
  · rw [configured_eq] at h ⊢
    rw [hk, hg, ho]
    cases h1 : Parser.parseKeyValues E.uni E.f64 a.keyValues with
    | none => rw [h1] at h; cases h
    | some kv' =>
      rw [h1] at h
      cases h2 : configOf a.toCliArgs with
      | none => rw [h2] at h; cases h
      | some c₁ =>
        rw [h2] at h
        obtain ⟨c', k1, k2⟩ := hc c₁ h2
        rw [k1]
        cases h3 : outputOf E.alnum a.googleSheetId a.outputFilename with
        | none => rw [h3] at h; cases h
        | some o =>
          rw [h3] at h
          cases h
          exact ⟨c', rfl, k2⟩

theorem verbose_interchangeable {C : Type} {out : Path → Output} {write : Config → Sheet → Option C → WriteOut C}
    (hw : ∀ c l, write { c with verbosity := l } = write c) (h : SameButVerbose a a') : Interchangeable E out write a a' := by
  obtain ⟨v, h1, h2, rfl⟩ := h
  obtain ⟨l, hl⟩ : ∃ l, levelOf a.verbose = some l := by
    have : a.verbose = 0 ∨ a.verbose = 1 ∨ a.verbose = 2 ∨ a.verbose = 3 ∨ a.verbose = 4 := by omega
    rcases this with h | h | h | h | h <;> rw [h] <;> exact ⟨_, rfl⟩
  obtain ⟨l', hl'⟩ : ∃ l, levelOf v = some l := by
    have : v = 0 ∨ v = 1 ∨ v = 2 ∨ v = 3 ∨ v = 4 := by omega
    rcases this with h | h | h | h | h <;> rw [h] <;> exact ⟨_, rfl⟩
  refine interchangeable rfl rfl rfl rfl (fun h => ?_) fun c h => ?_
  · unfold configOf at h ⊢
    change (match sheetNameOf a.toCliArgs, levelOf v with | some n, some v => _ | _, _ => none) = none
    rw [hl] at h
    cases hs : sheetNameOf a.toCliArgs with
    | none => rfl
    | some n => rw [hs] at h; cases h
  · unfold configOf at h ⊢
    change ∃ c', (match sheetNameOf a.toCliArgs, levelOf v with
      | some n, some v => some (⟨a.backup, (a.xOffset, a.yOffset), !a.safe, n, !a.noCache, v⟩ : Config) | _, _ => none) = some c' ∧ _
    rw [hl] at h
    rw [hl']
    cases hs : sheetNameOf a.toCliArgs with
    | none => rw [hs] at h; cases h
    | some n =>
      rw [hs] at h
      cases h
      exact ⟨_, rfl, rfl, rfl, hw ⟨a.backup, (a.xOffset, a.yOffset), !a.safe, n, !a.noCache, l⟩ l'⟩

theorem SameButVerbose.symm (h : SameButVerbose a a') : SameButVerbose a' a := by
  obtain ⟨v, h1, h2, rfl⟩ := h
  exact ⟨a.verbose, h2, h1, rfl⟩

theorem SameButSheetName.symm (h : SameButSheetName a a') : SameButSheetName a' a := by
  obtain ⟨h1, h2, n, rfl⟩ := h
  exact ⟨h2, h1, a.sheetName, rfl⟩

theorem SameButOffsets.symm (h : SameButOffsets a a') : SameButOffsets a' a := by
  obtain ⟨x, y, rfl⟩ := h
  exact ⟨a.xOffset, a.yOffset, rfl⟩

/-- C121 (CSV): `-v` changes neither how a run ends, nor any state of the files on the way, nor what object files it writes. -/
theorem C121_verbose_csv {partials : Text → List Text} {cuts : List Nat} {files : Files Text} {states : List (Files Text)} (h : SameButVerbose a a') :
    Main E version ts partials cuts a fs files e states w ↔ Main E version ts partials cuts a' fs files e states w :=
  ⟨main_interchangeable (verbose_interchangeable (fun _ _ => rfl) h), main_interchangeable (verbose_interchangeable (fun _ _ => rfl) h.symm)⟩

/-- C121 (Excel): neither there. -/
theorem C121_verbose_excel {partials : Option Workbook → List (Option Workbook)} {between : List (Option Workbook)} {den : Text → DateVal}
    {files : Files (Option Workbook)} {states : List (Files (Option Workbook))} (h : SameButVerbose a a') :
    MainExcel E version ts partials between den a fs files e states w ↔ MainExcel E version ts partials between den a' fs files e states w :=
  ⟨main_interchangeable (verbose_interchangeable (fun _ _ => rfl) h), main_interchangeable (verbose_interchangeable (fun _ _ => rfl) h.symm)⟩

/-- C121 (Google Sheets): nor the calls to the services, whatever they reply; nor does `--sheet-name` (it should: C95). -/
theorem C121_google {c c' : Config} (h : ∃ l n, c' = { c with verbosity := l, sheetName := n }) (env : CredEnv) (id : Text) (compiled : Option Sheet) :
    googleRun env c' id compiled = googleRun env c id compiled := by
  obtain ⟨l, n, rfl⟩ := h
  rfl

theorem sheetNameOf_some (h : a.sheetName ≠ none ∨ a.inputFilename.fileName ≠ none) : ∃ n, sheetNameOf a.toCliArgs = some n := by
  unfold sheetNameOf
  cases h' : a.sheetName with
  | some n => exact ⟨n, rfl⟩
  | none =>
    rw [h'] at h
    have h := h.resolve_left (by simp)
    unfold Path.fileStem
    cases hf : a.inputFilename.fileName with
    | none => exact absurd hf h
    | some f =>
      have : ∃ n, (rsplitDot f).1.or (rsplitDot f).2 = some n := by
        unfold rsplitDot
        split
        · exact ⟨f, rfl⟩
        · split
          · split
            · exact ⟨f, rfl⟩
            · exact ⟨_, rfl⟩
          · exact ⟨f, rfl⟩
      simpa using this

theorem sheetName_interchangeable {C : Type} {out : Path → Output} {write : Config → Sheet → Option C → WriteOut C}
    (hw : ∀ c n, write { c with sheetName := n } = write c) (h : SameButSheetName a a') : Interchangeable E out write a a' := by
  obtain ⟨h1, h2, n, rfl⟩ := h
  obtain ⟨m, hm⟩ := sheetNameOf_some h1
  obtain ⟨m', hm'⟩ := sheetNameOf_some (a := { a with sheetName := n }) h2
  refine interchangeable rfl rfl rfl rfl (fun h => ?_) fun c h => ?_
  · unfold configOf at h ⊢
    rw [hm'] 
    rw [hm] at h
    change (match some m', levelOf a.verbose with | some n, some v => _ | _, _ => none) = none
    cases hs : levelOf a.verbose with
    | none => rfl
    | some n => rw [hs] at h; cases h
  · unfold configOf at h ⊢
    rw [hm']
    rw [hm] at h
    change ∃ c', (match some m', levelOf a.verbose with
      | some n, some v => some (⟨a.backup, (a.xOffset, a.yOffset), !a.safe, n, !a.noCache, v⟩ : Config) | _, _ => none) = some c' ∧ _
    cases hs : levelOf a.verbose with
    | none => rw [hs] at h; cases h
    | some l =>
      rw [hs] at h
      cases h
      exact ⟨_, rfl, rfl, rfl, hw ⟨a.backup, (a.xOffset, a.yOffset), !a.safe, m, !a.noCache, l⟩ m'⟩

/-- C121 (CSV): `--sheet-name` changes nothing: a CSV file has no tabs. -/
theorem C121_sheet_name_csv {partials : Text → List Text} {cuts : List Nat} {files : Files Text} {states : List (Files Text)} (h : SameButSheetName a a') :
    Main E version ts partials cuts a fs files e states w ↔ Main E version ts partials cuts a' fs files e states w :=
  ⟨main_interchangeable (sheetName_interchangeable (fun _ _ => rfl) h), main_interchangeable (sheetName_interchangeable (fun _ _ => rfl) h.symm)⟩

theorem offsets_interchangeable {C : Type} {out : Path → Output} {write : Config → Sheet → Option C → WriteOut C}
    (hw : ∀ c o, write { c with offset := o } = write c) (h : SameButOffsets a a') : Interchangeable E out write a a' := by
  obtain ⟨x, y, rfl⟩ := h
  refine interchangeable rfl rfl rfl rfl (fun h => ?_) fun c h => ?_
  · unfold configOf at h ⊢
    change (match sheetNameOf a.toCliArgs, levelOf a.verbose with | some n, some v => _ | _, _ => none) = none
    cases hs : sheetNameOf a.toCliArgs with
    | none => rfl
    | some n =>
      cases hl : levelOf a.verbose with
      | none => rfl
      | some l => rw [hs, hl] at h; cases h
  · unfold configOf at h ⊢
    change ∃ c', (match sheetNameOf a.toCliArgs, levelOf a.verbose with
      | some n, some v => some (⟨a.backup, (x, y), !a.safe, n, !a.noCache, v⟩ : Config) | _, _ => none) = some c' ∧ _
    cases hs : sheetNameOf a.toCliArgs with
    | none => rw [hs] at h; cases h
    | some n =>
      cases hl : levelOf a.verbose with
      | none => rw [hs, hl] at h; cases h
      | some l =>
        rw [hs, hl] at h
        cases h
        exact ⟨_, rfl, rfl, rfl, hw ⟨a.backup, (a.xOffset, a.yOffset), !a.safe, n, !a.noCache, l⟩ (x, y)⟩

/-- C122 is false for CSV files: the offsets change nothing at all. -/
theorem C122_csv_violated {partials : Text → List Text} {cuts : List Nat} {files : Files Text} {states : List (Files Text)} (h : SameButOffsets a a') :
    Main E version ts partials cuts a fs files e states w ↔ Main E version ts partials cuts a' fs files e states w :=
  ⟨main_interchangeable (offsets_interchangeable (fun _ _ => rfl) h), main_interchangeable (offsets_interchangeable (fun _ _ => rfl) h.symm)⟩

/-- C122 is false for workbooks: neither there. -/
theorem C122_excel_violated {partials : Option Workbook → List (Option Workbook)} {between : List (Option Workbook)} {den : Text → DateVal}
    {files : Files (Option Workbook)} {states : List (Files (Option Workbook))} (h : SameButOffsets a a') :
    MainExcel E version ts partials between den a fs files e states w ↔ MainExcel E version ts partials between den a' fs files e states w :=
  ⟨main_interchangeable (offsets_interchangeable (fun _ _ => rfl) h), main_interchangeable (offsets_interchangeable (fun _ _ => rfl) h.symm)⟩

/-! ### Backups -/

/-- A run with a backup, compared with the same run without one. -/
theorem run_backup {C : Type} {partials : C → List C} {target : Path} {sheet : Sheet} {write : Sheet → Option C → WriteOut C} {files : Files C} :
    (backupFile ts files target = none ∧ run ts partials true target (some sheet) write files = (.failure, [files])) ∨
    (∃ s s', (run ts partials true target (some sheet) write files).1 = (run ts partials false target (some sheet) write files).1 ∧
      (run ts partials false target (some sheet) write files).2.getLast? = some s ∧ (run ts partials true target (some sheet) write files).2.getLast? = some s' ∧
      PlusBackup target files s s') := by
  cases hb : backupFile ts files target with
  | none => exact .inl ⟨rfl, by simp [run, hb]⟩
  | some x =>
    obtain ⟨fs', new⟩ := x
    obtain ⟨hn, ⟨c, h1, h2⟩, h3⟩ := C43_backup hb
    have hne : target ≠ new := by rintro rfl; rw [hn] at h1; cases h1
    have ht : fs' target = files target := h3 _ hne
    have hset : ∀ d : C, PlusBackup target files (files.set target d) (fs'.set target d) := fun d =>
      ⟨new, c, h1, hn, by rw [set_ne hne.symm, h2], fun q hq => by
        by_cases hqt : q = target
        · subst hqt; rw [set_eq, set_eq]
        · rw [set_ne hqt, set_ne hqt, h3 q hq]⟩
    have h0 : PlusBackup target files files fs' := ⟨new, c, h1, hn, h2, h3⟩
    right
    cases hw : write sheet (files target) with
    | panic => exact ⟨files, fs', by simp [run, hb, ht, hw], by simp [run, hw], by simp [run, hb, ht, hw, List.getLast?_cons], h0⟩
    | failed cs =>
      rcases List.eq_nil_or_concat cs with rfl | ⟨l, d, rfl⟩
      · exact ⟨files, fs', by simp [run, hb, ht, hw], by simp [run, hw], by simp [run, hb, ht, hw, List.getLast?_cons], h0⟩
      · exact ⟨files.set target d, fs'.set target d, by simp [run, hb, ht, hw], by simp [run, hw, List.getLast?_cons],
          by simp [run, hb, ht, hw, List.getLast?_append, List.getLast?_cons], hset d⟩
    | ok cs d =>
      exact ⟨files.set target d, fs'.set target d, by simp [run, hb, ht, hw], by simp [run, hw, List.getLast?_cons],
        by simp [run, hb, ht, hw, List.getLast?_append, List.getLast?_cons], hset d⟩

theorem configured_backup {b : Bool} : configured E { a with backup := b } = (configured E a).map fun x => (x.1, { x.2.1 with backup := b }, x.2.2) := by
  rw [configured_eq, configured_eq]
  change ((Parser.parseKeyValues E.uni E.f64 a.keyValues).bind fun kv => (match sheetNameOf a.toCliArgs, levelOf a.verbose with
      | some n, some v => some (⟨b, (a.xOffset, a.yOffset), !a.safe, n, !a.noCache, v⟩ : Config) | _, _ => none).bind fun c =>
      (outputOf E.alnum a.googleSheetId a.outputFilename).map fun o => (collect kv, c, o)) = _
  unfold configOf
  cases Parser.parseKeyValues E.uni E.f64 a.keyValues with
  | none => rfl
  | some kv =>
    cases sheetNameOf a.toCliArgs with
    | none => rfl
    | some n =>
      cases levelOf a.verbose with
      | none => rfl
      | some l => cases outputOf E.alnum a.googleSheetId a.outputFilename <;> rfl

/-- With `--backup` a run ends as without, and leaves the same files and a backup; or the target cannot be backed up, and nothing is done; or the run ends before that
point, and is the same. -/
theorem backup_main {C : Type} {partials : C → List C} {out : Path → Output} {write : Config → Sheet → Option C → WriteOut C} {files : Files C}
    {states : List (Files C)} (hw : ∀ c b, write { c with backup := b } = write c) (h : BackupToo a a')
    (hr : MainFile E version ts partials out write a fs files e states w) :
    (e ≠ some .success ∧ states = [files] ∧ MainFile E version ts partials out write a' fs files e states w) ∨
    ∃ c target, configured E a = some c ∧ c.2.2 = out target ∧
      ((backupFile ts files target = none ∧ MainFile E version ts partials out write a' fs files (some .failure) [files] w) ∨
       ∃ states' s s', MainFile E version ts partials out write a' fs files e states' w ∧ states.getLast? = some s ∧ states'.getLast? = some s' ∧
        PlusBackup target files s s') := by
  obtain ⟨hb, rfl⟩ := h
  have hc : ∀ {x}, configured E a = x → configured E { a with backup := true } = x.map fun x => (x.1, { x.2.1 with backup := true }, x.2.2) := by
    rintro _ rfl; exact configured_backup
  have hcb : ∀ {kv c o}, configured E a = some (kv, c, o) → c.backup = false := by
    intro kv c o h
    have h2 := @configured_backup E a false
    rw [show ({ a with backup := false } : Args) = a by rw [← hb], h] at h2
    have h3 := congrArg (fun x => x.map fun y => y.2.1.backup) h2
    simpa using h3
  cases hr with
  | badArgs h1 => exact .inl ⟨by simp, rfl, .badArgs (hc h1)⟩
  | noName h1 h2 => exact .inl ⟨by simp, rfl, .noName (hc h1) h2⟩
  | failed h1 h2 h3 h4 => exact .inl ⟨by rcases h4 with rfl | rfl <;> simp, rfl, .failed (hc h1) h2 h3 h4⟩
  | panics h1 h2 h3 => exact .inl ⟨by simp, rfl, .panics (hc h1) h2 h3⟩
  | hangs h1 h2 h3 => exact .inl ⟨by simp, rfl, .hangs (hc h1) h2 h3⟩
  | @compiled kv c p mp w sheet h1 h2 h3 =>
    right
    refine ⟨_, p, h1, rfl, ?_⟩
    have hm := MainFile.compiled (timestamps := ts) (partials := partials) (write := write) (files := files) (hc h1) h2 h3
    rw [hw, hcb h1] at *
    rcases run_backup (ts := ts) (partials := partials) (target := p) (sheet := sheet) (write := write c) (files := files) with ⟨k1, k2⟩ | ⟨s, s', k1, k2, k3, k4⟩
    · rw [k2] at hm
      exact .inl ⟨k1, hm⟩
    · rw [k1] at hm
      exact .inr ⟨_, s, s', hm, k2, k3, k4⟩

/-- C121 (CSV): `--backup` only adds the backup: the run ends as without it, with the same object files, the same target and the same other files; unless it cannot be
made (the target is not there, say, C43), and then the target is not written.  Runs that end before that point are the same. -/
theorem C121_backup_csv {partials : Text → List Text} {cuts : List Nat} {files : Files Text} {states : List (Files Text)} (h : BackupToo a a')
    (hr : Main E version ts partials cuts a fs files e states w) :
    (e ≠ some .success ∧ states = [files] ∧ Main E version ts partials cuts a' fs files e states w) ∨
    ∃ c target, configured E a = some c ∧ c.2.2 = .csv target ∧
      ((backupFile ts files target = none ∧ Main E version ts partials cuts a' fs files (some .failure) [files] w) ∨
       ∃ states' s s', Main E version ts partials cuts a' fs files e states' w ∧ states.getLast? = some s ∧ states'.getLast? = some s' ∧
        PlusBackup target files s s') :=
  backup_main (fun _ _ => rfl) h hr

/-- C121 (Excel): likewise. -/
theorem C121_backup_excel {partials : Option Workbook → List (Option Workbook)} {between : List (Option Workbook)} {den : Text → DateVal}
    {files : Files (Option Workbook)} {states : List (Files (Option Workbook))} (h : BackupToo a a')
    (hr : MainExcel E version ts partials between den a fs files e states w) :
    (e ≠ some .success ∧ states = [files] ∧ MainExcel E version ts partials between den a' fs files e states w) ∨
    ∃ c target, configured E a = some c ∧ c.2.2 = .excel target ∧
      ((backupFile ts files target = none ∧ MainExcel E version ts partials between den a' fs files (some .failure) [files] w) ∨
       ∃ states' s s', MainExcel E version ts partials between den a' fs files e states' w ∧ states.getLast? = some s ∧ states'.getLast? = some s' ∧
        PlusBackup target files s s') :=
  backup_main (fun _ _ => rfl) h hr

end
end Verif.Cli
