import Verif.Cli.Model
import Verif.Loader.Outcome
/-
C89: a failing run says why.  Model of src/error/display.rs, of the logger as far as errors go (src/logger.rs), and of src/main.rs with what it prints.
-/
namespace Verif.Cli
open Verif.Ast Verif.Loader
open Verif.Target hiding MPath

/-! ## Model -/

/-- src/error/mod.rs:30-82 `Error`.  File names are given as they are shown, in quotes; of a `ParseError` only its display is kept (Verif.Parser.Message). -/
inductive Err where
  | cellSyntax (filename : Text) (address : Addr) (parseError : Text)
  | codeSyntax (filename parseError : Text)
  | csvParse (filename parseError : Text)
  | eval (filename : Text) (address : Option Addr) (message badInput : Text)
  | googleSetup (message : Text)
  | init (message : Text)
  | moduleLoad (message : Text)
  | moduleLoads (errors : List (MPath × Err))
  | sourceCode (filename message : Text)
  | targetWrite (output : Output) (message : Text)

/-- `writeln!`. -/
def line (t : Text) : Text := t ++ ['\n']

/-- src/module_path/display.rs:4-8. -/
def modulePathText (m : MPath) : Text := List.intercalate ['/'] m

/-- src/output/display.rs:4-13, where `shown` is `Path::display`. -/
def outputText (shown : Path → Text) : Output → Text
  | .googleSheets id => "https://docs.google.com/spreadsheets/d/".toList ++ id
  | .csv p => shown p
  | .excel p => shown p
  | .openDocument p => shown p

/-- src/error/display.rs:49-58: the advice about Google credentials. -/
def googleAdvice : Text := ("Unable to access the specified spreadsheet on Google Sheets.\n\n" ++
  "Are you sure that you have the `gcloud` CLI tools installed and properly configured? To \nauthenticate using your Google user account try running:\n\n" ++
  "$ gcloud init\n$ gcloud auth login --enable-gdrive-access --update-adc\n\n" ++
  "If you would like to specify service credentials or the path to your own user credentials, call \n" ++
  "csv++ with `GOOGLE_APPLICATION_CREDENTIALS` or the `--google-account-credentials` flag.\n\n").toList

mutual
/-- src/error/display.rs:4-86 `Display for Error`. -/
def errText (shown : Path → Text) : Err → Text
  | .cellSyntax f a e => line ("Syntax error in cell ".toList ++ a.text ++ " of ".toList ++ f) ++ line e
  | .codeSyntax f e => line ("Syntax error in code section of ".toList ++ f) ++ line e
  | .csvParse f e => line ("Syntax error in CSV section of ".toList ++ f) ++ line e
  | .eval f a m b =>
    (match a with
      | some a => line ("Error evaluating formula in cell ".toList ++ a.text ++ " (".toList ++ natText a.x ++ ", ".toList ++ natText a.y ++ ") of ".toList ++ f)
      | none => line ("Error evaluating formula in ".toList ++ f)) ++ line (m ++ ": ".toList ++ b)
  | .googleSetup m => line (googleAdvice ++ m)
  | .init m => line m
  | .moduleLoad m => line m
  | .moduleLoads es => errTexts shown es
  | .sourceCode f m => line ("Error reading source ".toList ++ f) ++ line m
  | .targetWrite o m => line ("Error writing to \"".toList ++ outputText shown o ++ "\"".toList) ++ line m
/-- src/error/display.rs:67-73: the modules in the order of the hash map. -/
def errTexts (shown : Path → Text) : List (MPath × Err) → Text
  | [] => []
  | (m, e) :: es => line ("Error loading module ".toList ++ modulePathText m) ++ line (errText shown e) ++ errTexts shown es
end

/-- The logger: `none` until `logger::init`, when `log::max_level()` is `Off` and nothing is printed; and what `error!` has printed. -/
structure Console where
  level : Option Level
  printed : List Text

/-- `log::error!`: every level of `LevelFilter` but `Off` lets errors pass. -/
def Console.error (c : Console) (t : Text) : Console :=
  match c.level with
  | none => c
  | some _ => { c with printed := c.printed ++ [t] }

/-- src/logger.rs:21-38 `init`: only the first call counts. -/
def Console.init (c : Console) (l : Level) : Console :=
  match c.level with
  | none => { c with level := some l }
  | some _ => c

/-- src/parser/ast_parser.rs:63-91: the error for the first `-k` value that is not accepted.  `bad` is the display of the syntax error of a value. -/
def keyValueError (E : Cell.Env) (file : Text) (bad : Text → Text) : List Text → Option Err
  | [] => none
  | kv :: rest =>
    match kv.span (· != '=') with
    | (_, '=' :: value) =>
      match Parser.parse E.uni E.f64 value with
      | .ok _ => keyValueError E file bad rest
      | .error _ => some (.codeSyntax file (bad kv))
    | _ => some (.init ("Invalid key/value variables: ".toList ++ kv))

/-- src/config/try_from.rs:9-20 with its errors: src/config/mod.rs:35-47 and src/logger.rs:4-17. -/
def configErr (shown : Path → Text) (a : CliArgs) : Except Err Config :=
  match sheetNameOf a with
  | none => .error (.init ("Could not determine base filename from input filename: ".toList ++ shown a.inputFilename))
  | some n =>
    match levelOf a.verbose with
    | none => .error (.init (natText a.verbose ++ " is not a valid verbosity level - the most you can do is -vvvv".toList))
    | some v => .ok ⟨a.backup, (a.xOffset, a.yOffset), !a.safe, n, !a.noCache, v⟩

/-- src/output/mod.rs:40-72 and src/output/try_from.rs:6-16 with their errors. -/
def outputErr (alnum : Char → Bool) (googleSheetId : Option Text) (outputFilename : Option Path) : Except Err Output :=
  match googleSheetId with
  | some id => if id.all alnum then .ok (.googleSheets id) else .error (.init "The GOOGLE_SHEET_ID must be all letters and digits.".toList)
  | none =>
    match outputFilename with
    | none => .error (.init "Must specify either -g/--google-sheet-id or -o/--output-filename".toList)
    | some p =>
      match p.extension with
      | none => .error (.init "Output filename must end with .csv, .xlsx or .ods".toList)
      | some e =>
        if csvExtension e then .ok (.csv p)
        else if excelExtension e then .ok (.excel p)
        else if odsExtension e then .ok (.openDocument p)
        else .error (.init (e ++ " is an unsupported extension: only .csv, .xlsx or .ods are supported.".toList))

/-- What the program was told to do: src/compiler/mod.rs:14-19. -/
structure Job where
  keyValues : Text → Option Ast
  config : Config
  output : Output

/-- src/compiler/try_from.rs:9-29: the logger is started after the `-k` values and the options, and before the output. -/
def startUp (E : Cell.Env) (shown : Path → Text) (file : Text) (bad : Text → Text) (a : Args) (con : Console) : Console × Except Err Job :=
  match keyValueError E file bad a.keyValues, Parser.parseKeyValues E.uni E.f64 a.keyValues with
  | none, some kv =>
    match configErr shown a.toCliArgs with
    | .error e => (con, .error e)
    | .ok c =>
      match outputErr E.alnum a.googleSheetId a.outputFilename with
      | .error e => (con.init c.verbosity, .error e)
      | .ok o => (con.init c.verbosity, .ok ⟨collect kv, c, o⟩)
  | some e, _ => (con, .error e)
  | none, none => (con, .error (.init []))

/-- src/main.rs:7-25: how the program ends and what it has printed of errors, where `work` is what compiling, backing up and writing (lines 9-15) end with
and the errors they log on the way.  Panics are not part of this. -/
def mainProgram (E : Cell.Env) (shown : Path → Text) (file : Text) (bad : Text → Text) (a : Args) (work : Job → List Text × Except Err Unit) : Exit × List Text :=
  match startUp E shown file bad a ⟨none, []⟩ with
  | (con, .error e) => (.failure, (con.error (errText shown e)).printed)
  | (con, .ok job) =>
    let con' := (work job).1.foldl Console.error con
    match (work job).2 with
    | .error e => (.failure, (con'.error (errText shown e)).printed)
    | .ok () => (.success, con'.printed)

/-! ## Specification -/

/-- The `-k` values are `key=formula`. -/
def GoodKeyValues (E : Cell.Env) (kvs : List Text) : Prop :=
  ∀ kv ∈ kvs, ∃ key value f, kv = key ++ '=' :: value ∧ '=' ∉ key ∧ Parser.parse E.uni E.f64 value = .ok f

/-- There is a name for the sheet: it is given, or the input has a file name. -/
def HasSheetName (a : Args) : Prop := a.sheetName ≠ none ∨ a.inputFilename.fileName ≠ none

/-- The run fails, and the last thing it prints is the display of the error that ended it. -/
def SaysWhy (r : Exit × List Text) (e : Text) : Prop := r.1 = .failure ∧ ∃ before, r.2 = before ++ [e]

/-! ## Proofs -/

section
variable {E : Cell.Env} {shown : Path → Text} {file : Text} {bad : Text → Text} {a : Args} {work : Job → List Text × Except Err Unit}

theorem span_split {kv key value : Text} (h : kv = key ++ '=' :: value) (hk : '=' ∉ key) : kv.span (· != '=') = (key, '=' :: value) := by
  subst h
  rw [List.span_eq_takeWhile_dropWhile]
  have hall : ∀ c ∈ key, (c != '=') = true := by
    intro c hc
    simp only [bne_iff_ne, ne_eq]
    rintro rfl
    exact hk hc
  rw [List.takeWhile_append_of_pos hall, List.dropWhile_append_of_pos hall, List.takeWhile_cons_of_neg (by simp), List.dropWhile_cons_of_neg (by simp),
    List.append_nil]

theorem span_good {kv key rest : Text} (h : kv.span (· != '=') = (key, rest)) : kv = key ++ rest ∧ '=' ∉ key := by
  rw [List.span_eq_takeWhile_dropWhile] at h
  cases h
  refine ⟨(List.takeWhile_append_dropWhile).symm, fun hm => ?_⟩
  have : ∀ l : Text, '=' ∉ l.takeWhile (· != '=') := by
    intro l
    induction l with
    | nil => simp
    | cons c l ih =>
      rw [List.takeWhile_cons]
      split
      · rename_i hc
        simp only [List.mem_cons, not_or]
        exact ⟨by rintro rfl; simp at hc, ih⟩
      · simp
  exact this kv hm

theorem keyValueError_none (kvs : List Text) : keyValueError E file bad kvs = none ↔ GoodKeyValues E kvs := by
  induction kvs with
  | nil => simp [keyValueError, GoodKeyValues]
  | cons kv rest ih =>
    rw [keyValueError]
    constructor
    · intro h
      split at h
      · rename_i key value hs
        split at h
        · rename_i f hf
          intro kv' hk
          rcases List.mem_cons.mp hk with rfl | hk
          · exact ⟨_, _, _, (span_good hs).1, (span_good hs).2, hf⟩
          · exact ih.mp h kv' hk
        · cases h
      · cases h
    · intro h
      obtain ⟨key, value, f, h1, h2, h3⟩ := h kv List.mem_cons_self
      rw [span_split h1 h2]
      simp only [h3]
      exact ih.mpr fun kv' hk => h kv' (List.mem_cons_of_mem _ hk)

theorem parseKeyValues_some (kvs : List Text) : (∃ l, Parser.parseKeyValues E.uni E.f64 kvs = some l) ↔ keyValueError E file bad kvs = none := by
  induction kvs with
  | nil => simp [keyValueError, Parser.parseKeyValues]
  | cons kv rest ih =>
    rw [keyValueError, Parser.parseKeyValues]
    rcases hs : kv.span (· != '=') with ⟨key, rest'⟩
    cases rest' with
    | nil => simp
    | cons c value =>
      by_cases hc : c = '='
      · subst hc
        cases hp : Parser.parse E.uni E.f64 value with
        | error e => simp only [hp]; simp
        | ok f =>
          simp only [hp, ← ih]
          simp [Option.map_eq_some_iff]
      · constructor
        · rintro ⟨l, h⟩
          split at h
          · rename_i heq
            cases heq
            exact absurd rfl hc
          · cases h
        · intro h
          split at h
          · rename_i heq
            cases heq
            exact absurd rfl hc
          · cases h

/-- The arguments are accepted as in `configured`. -/
theorem startUp_configured (con : Console) :
    (startUp E shown file bad a con).2.toOption.map (fun j => (j.keyValues, j.config, j.output)) = configured E a := by
  have ho : (outputErr E.alnum a.googleSheetId a.outputFilename).toOption = outputOf E.alnum a.googleSheetId a.outputFilename := by
    unfold outputErr outputOf
    cases a.googleSheetId with
    | some id =>
      dsimp only
      unfold fromGoogleSheetId
      by_cases h : (id.all E.alnum) = true
      · rw [if_pos h, if_pos h]; rfl
      · rw [if_neg h, if_neg h]; rfl
    | none =>
      cases a.outputFilename with
      | none => rfl
      | some p =>
        dsimp only
        unfold fromFilename
        cases p.extension with
        | none => rfl
        | some e =>
          dsimp only
          by_cases h1 : csvExtension e = true
          · rw [if_pos h1, if_pos h1]; rfl
          · rw [if_neg h1, if_neg h1]
            by_cases h2 : excelExtension e = true
            · rw [if_pos h2, if_pos h2]; rfl
            · rw [if_neg h2, if_neg h2]
              by_cases h3 : odsExtension e = true
              · rw [if_pos h3, if_pos h3]; rfl
              · rw [if_neg h3, if_neg h3]; rfl
  unfold startUp configured
  cases hk : keyValueError E file bad a.keyValues with
  | some e =>
    cases hp : Parser.parseKeyValues E.uni E.f64 a.keyValues with
    | none => rfl
    | some l => rw [(parseKeyValues_some a.keyValues).mp ⟨l, hp⟩] at hk; cases hk
  | none =>
    obtain ⟨l, hl⟩ := (parseKeyValues_some a.keyValues).mpr hk
    simp only [hl]
    unfold configErr configOf
    cases sheetNameOf a.toCliArgs with
    | none => rfl
    | some n =>
      cases levelOf a.verbose with
      | none => rfl
      | some v =>
        simp only [← ho]
        cases outputErr E.alnum a.googleSheetId a.outputFilename <;> rfl

theorem sheetName_iff : (∃ n, sheetNameOf a.toCliArgs = some n) ↔ HasSheetName a := by
  unfold sheetNameOf HasSheetName
  cases a.sheetName with
  | some n => simp
  | none =>
    simp only [Path.fileStem, ne_eq, not_true_eq_false, false_or]
    cases a.inputFilename.fileName with
    | none => simp
    | some f =>
      have : ∃ n, (rsplitDot f).1.or (rsplitDot f).2 = some n := by
        unfold rsplitDot
        split
        · exact ⟨f, rfl⟩
        · split
          · split
            · exact ⟨f, rfl⟩
            · exact ⟨_, rfl⟩
          · exact ⟨f, rfl⟩
      simpa using this

theorem levelOf_iff (v : Nat) : (∃ l, levelOf v = some l) ↔ v ≤ 4 := by
  match v with
  | 0 | 1 | 2 | 3 | 4 => simp [levelOf]
  | n + 5 => simp [levelOf]

theorem errors_printed (l : Level) (p ts : List Text) : (ts.foldl Console.error ⟨some l, p⟩) = ⟨some l, p ++ ts⟩ := by
  induction ts generalizing p with
  | nil => simp
  | cons t ts ih =>
    rw [List.foldl_cons]
    have : Console.error ⟨some l, p⟩ t = ⟨some l, p ++ [t]⟩ := rfl
    rw [this, ih, List.append_assoc]
    rfl

/-- What is printed once the logger runs. -/
theorem mainProgram_started {c : Config} (hk : GoodKeyValues E a.keyValues) (hc : configErr shown a.toCliArgs = .ok c) :
    ∃ kv, Parser.parseKeyValues E.uni E.f64 a.keyValues = some kv ∧ mainProgram E shown file bad a work =
      match outputErr E.alnum a.googleSheetId a.outputFilename with
      | .error e => (.failure, [errText shown e])
      | .ok o =>
        match (work ⟨collect kv, c, o⟩).2 with
        | .error e => (.failure, (work ⟨collect kv, c, o⟩).1 ++ [errText shown e])
        | .ok () => (.success, (work ⟨collect kv, c, o⟩).1) := by
  have hk' := (keyValueError_none (file := file) (bad := bad) a.keyValues).mpr hk
  obtain ⟨kv, hkv⟩ := (parseKeyValues_some a.keyValues).mpr hk'
  refine ⟨kv, hkv, ?_⟩
  unfold mainProgram startUp
  simp only [hk', hkv, hc]
  cases outputErr E.alnum a.googleSheetId a.outputFilename with
  | error e => rfl
  | ok o =>
    simp only [Console.init, errors_printed, List.nil_append]
    cases (work ⟨collect kv, c, o⟩).2 <;> rfl

theorem configErr_ok (hn : HasSheetName a) (hv : a.verbose ≤ 4) : ∃ c, configErr shown a.toCliArgs = .ok c := by
  obtain ⟨n, h1⟩ := sheetName_iff.mpr hn
  obtain ⟨l, h2⟩ := (levelOf_iff a.verbose).mpr hv
  unfold configErr
  rw [h1, h2]
  exact ⟨_, rfl⟩

/-- C89, for runs whose `-k` values are good, whose sheet has a name and which are given at most four `-v`: the run succeeds or says why; and it says why with the
display of the error of the arguments that name the target, or of the error that compiling or writing ended with. -/
theorem C89_says_why_partial (hk : GoodKeyValues E a.keyValues) (hn : HasSheetName a) (hv : a.verbose ≤ 4) :
    (∃ e, outputErr E.alnum a.googleSheetId a.outputFilename = .error e ∧ SaysWhy (mainProgram E shown file bad a work) (errText shown e)) ∨
    (∃ j e, configured E a = some (j.keyValues, j.config, j.output) ∧ (work j).2 = .error e ∧ SaysWhy (mainProgram E shown file bad a work) (errText shown e)) ∨
    (∃ j, configured E a = some (j.keyValues, j.config, j.output) ∧ (work j).2 = .ok () ∧ mainProgram E shown file bad a work = (.success, (work j).1)) := by
  obtain ⟨c, hc⟩ := configErr_ok (shown := shown) hn hv
  obtain ⟨kv, hkv, he⟩ := mainProgram_started (file := file) (bad := bad) (work := work) hk hc
  have hj := startUp_configured (E := E) (shown := shown) (file := file) (bad := bad) (a := a) ⟨none, []⟩
  unfold startUp at hj
  simp only [(keyValueError_none (file := file) (bad := bad) a.keyValues).mpr hk, hkv, hc] at hj
  rw [he]
  cases ho : outputErr E.alnum a.googleSheetId a.outputFilename with
  | error e => exact .inl ⟨e, rfl, rfl, [], rfl⟩
  | ok o =>
    rw [ho] at hj
    dsimp only at hj
    dsimp only
    cases hw : (work ⟨collect kv, c, o⟩).2 with
    | error e => exact .inr (.inl ⟨⟨collect kv, c, o⟩, e, hj.symm, hw, rfl, _, rfl⟩)
    | ok _ => exact .inr (.inr ⟨⟨collect kv, c, o⟩, hj.symm, hw, rfl⟩)

/-- C89 is violated by every run with a bad `-k` value, without a name for the sheet, or with more than four `-v`: it fails and prints nothing. -/
theorem C89_violated (h : ¬ GoodKeyValues E a.keyValues ∨ ¬ HasSheetName a ∨ 4 < a.verbose) : mainProgram E shown file bad a work = (.failure, []) := by
  unfold mainProgram startUp
  cases hk : keyValueError E file bad a.keyValues with
  | some e => cases Parser.parseKeyValues E.uni E.f64 a.keyValues <;> rfl
  | none =>
    cases Parser.parseKeyValues E.uni E.f64 a.keyValues with
    | none => rfl
    | some kv =>
      rcases h with h | h
      · exact absurd ((keyValueError_none _).mp hk) h
      · have : ∃ e, configErr shown a.toCliArgs = .error e := by
          unfold configErr
          cases hs : sheetNameOf a.toCliArgs with
          | none => exact ⟨_, rfl⟩
          | some n =>
            cases hl : levelOf a.verbose with
            | none => exact ⟨_, rfl⟩
            | some l =>
              rcases h with h | h
              · exact absurd (sheetName_iff.mp ⟨n, hs⟩) h
              · have := (levelOf_iff a.verbose).mp ⟨l, hl⟩
                omega
        obtain ⟨e, he⟩ := this
        simp only [he]
        rfl

/-- C89.  Every error has something to say: its display is empty only for a report about no module. -/
theorem C89_not_empty (e : Err) (h : ∀ es, e = .moduleLoads es → es ≠ []) : errText shown e ≠ [] := by
  cases e with
  | moduleLoads es =>
    cases es with
    | nil => exact absurd rfl (h [] rfl)
    | cons x es => obtain ⟨m, e⟩ := x; simp [errText, errTexts, line]
  | eval f a m b => cases a <;> simp [errText, line]
  | _ => simp [errText, line]

theorem errTexts_mem {es : List (MPath × Err)} {m : MPath} {e : Err} (h : (m, e) ∈ es) :
    ∃ before after, errTexts shown es = before ++ ("Error loading module ".toList ++ modulePathText m ++ '\n' :: errText shown e) ++ '\n' :: after := by
  induction es with
  | nil => cases h
  | cons x es ih =>
    obtain ⟨m', e'⟩ := x
    rcases List.mem_cons.mp h with h | h
    · cases h
      exact ⟨[], errTexts shown es, by simp only [errTexts, line, List.nil_append, List.append_assoc, List.cons_append]⟩
    · obtain ⟨b, af, hb⟩ := ih h
      exact ⟨line ("Error loading module ".toList ++ modulePathText m') ++ line (errText shown e') ++ b, af, by rw [errTexts, hb]; simp only [List.append_assoc]⟩

/-- C89.  The report about modules that cannot be loaded says why for each of them, in whatever order they are: if the modules fail with the errors `cause`, the message
names every module that fails and quotes its error; and the message is not empty. -/
theorem C89_modules {fetch : MPath → Except LoadError Mod} {mainPath : MPath} {main : Mod} {f : List (MPath × LoadError)} (h : LoadMain fetch mainPath main (.loadErrors f))
    (cause : MPath → LoadError → Err) {es : List (MPath × Err)} (hes : es.Perm (f.map fun x => (x.1, cause x.1 x.2))) :
    errText shown (.moduleLoads es) ≠ [] ∧
    ∀ p e, Reach fetch main p → fetch p = .error e →
      ∃ before after, errText shown (.moduleLoads es) = before ++ ("Error loading module ".toList ++ modulePathText p ++ '\n' :: errText shown (cause p e)) ++ '\n' :: after := by
  obtain ⟨h1, -, h2⟩ := C34_report_exact h
  refine ⟨C89_not_empty _ ?_, ?_⟩
  · rintro es' he rfl
    cases he
    have := hes.length_eq
    simp only [List.length_nil, List.length_map] at this
    exact h1 (List.length_eq_zero_iff.mp this.symm)
  · intro p e hr he
    rw [errText]
    exact errTexts_mem (hes.mem_iff.mpr (List.mem_map.mpr ⟨(p, e), (h2 p e).mpr ⟨hr, he⟩, rfl⟩))

/-- C89, names.  The report names a module as it is written after `use`. -/
theorem C89_module_named {fetch : MPath → Except LoadError Mod} {mainPath : MPath} {main : Mod} {f : List (MPath × LoadError)} (h : LoadMain fetch mainPath main (.loadErrors f))
    (cause : MPath → LoadError → Err) {es : List (MPath × Err)} (hes : es.Perm (f.map fun x => (x.1, cause x.1 x.2))) (t : Text) (e : LoadError)
    (hr : Reach fetch main (Parser.modulePath t)) (he : fetch (Parser.modulePath t) = .error e) :
    ∃ before after, errText shown (.moduleLoads es) =
      before ++ ("Error loading module ".toList ++ t ++ '\n' :: errText shown (cause (Parser.modulePath t) e)) ++ '\n' :: after := by
  have := (C89_modules (shown := shown) h cause hes).2 _ e hr he
  rwa [show modulePathText (Parser.modulePath t) = t from List.intercalate_splitOn '/'] at this

/-- What a user calls a target: the file, or the id of the spreadsheet. -/
def targetName (shown : Path → Text) : Output → Text
  | .googleSheets id => id
  | .csv p | .excel p | .openDocument p => shown p

/-- What a user needs to know about an error: where it happened and the reason. -/
def needed (shown : Path → Text) : Err → List Text
  | .cellSyntax f a e => [f, a.text, e]
  | .codeSyntax f e => [f, e]
  | .csvParse f e => [f, e]
  | .eval f none m b => [f, m, b]
  | .eval f (some a) m b => [f, a.text, m, b]
  | .googleSetup m => [m]
  | .init m => [m]
  | .moduleLoad m => [m]
  | .moduleLoads es => es.map fun x => modulePathText x.1
  | .sourceCode f m => [f, m]
  | .targetWrite o m => [targetName shown o, m]

/-- C89: the text of an error tells where it happened and the reason; that of failed modules names them and gives the error of each. -/
theorem C89_tells (e : Err) : (∀ t ∈ needed shown e, ∃ before after, errText shown e = before ++ t ++ after) ∧
    ∀ es, e = .moduleLoads es → ∀ x ∈ es, ∃ before after, errText shown e = before ++ errText shown x.2 ++ after := by
  constructor
  · intro t ht
    cases e with
    | cellSyntax f a e =>
      simp only [needed, List.mem_cons, List.not_mem_nil, or_false] at ht
      rcases ht with rfl | rfl | rfl
      · exact ⟨"Syntax error in cell ".toList ++ a.text ++ " of ".toList, '\n' :: line e, by simp [errText, line]⟩
      · exact ⟨"Syntax error in cell ".toList, " of ".toList ++ line f ++ line e, by simp [errText, line]⟩
      · exact ⟨line ("Syntax error in cell ".toList ++ a.text ++ " of ".toList ++ f), ['\n'], by simp [errText, line]⟩
    | codeSyntax f e =>
      simp only [needed, List.mem_cons, List.not_mem_nil, or_false] at ht
      rcases ht with rfl | rfl
      · exact ⟨"Syntax error in code section of ".toList, '\n' :: line e, by simp [errText, line]⟩
      · exact ⟨line ("Syntax error in code section of ".toList ++ f), ['\n'], by simp [errText, line]⟩
    | csvParse f e =>
      simp only [needed, List.mem_cons, List.not_mem_nil, or_false] at ht
      rcases ht with rfl | rfl
      · exact ⟨"Syntax error in CSV section of ".toList, '\n' :: line e, by simp [errText, line]⟩
      · exact ⟨line ("Syntax error in CSV section of ".toList ++ f), ['\n'], by simp [errText, line]⟩
    | eval f a m b =>
      cases a with
      | none =>
        simp only [needed, List.mem_cons, List.not_mem_nil, or_false] at ht
        rcases ht with rfl | rfl | rfl
        · exact ⟨"Error evaluating formula in ".toList, '\n' :: line (m ++ ": ".toList ++ b), by simp [errText, line]⟩
        · exact ⟨line ("Error evaluating formula in ".toList ++ f), ": ".toList ++ line b, by simp [errText, line]⟩
        · exact ⟨line ("Error evaluating formula in ".toList ++ f) ++ m ++ ": ".toList, ['\n'], by simp [errText, line]⟩
      | some a =>
        simp only [needed, List.mem_cons, List.not_mem_nil, or_false] at ht
        rcases ht with rfl | rfl | rfl | rfl
        · exact ⟨"Error evaluating formula in cell ".toList ++ a.text ++ " (".toList ++ natText a.x ++ ", ".toList ++ natText a.y ++ ") of ".toList, '\n' :: line (m ++ ": ".toList ++ b), by simp [errText, line]⟩
        · exact ⟨"Error evaluating formula in cell ".toList, " (".toList ++ natText a.x ++ ", ".toList ++ natText a.y ++ ") of ".toList ++ line f ++ line (m ++ ": ".toList ++ b), by simp [errText, line]⟩
        · exact ⟨line ("Error evaluating formula in cell ".toList ++ a.text ++ " (".toList ++ natText a.x ++ ", ".toList ++ natText a.y ++ ") of ".toList ++ f), ": ".toList ++ line b, by simp [errText, line]⟩
        · exact ⟨line ("Error evaluating formula in cell ".toList ++ a.text ++ " (".toList ++ natText a.x ++ ", ".toList ++ natText a.y ++ ") of ".toList ++ f) ++ m ++ ": ".toList, ['\n'], by simp [errText, line]⟩
    | googleSetup m => obtain rfl := List.mem_singleton.mp ht; exact ⟨googleAdvice, ['\n'], by simp only [errText, line]⟩
    | init m => obtain rfl := List.mem_singleton.mp ht; exact ⟨[], ['\n'], by simp [errText, line]⟩
    | moduleLoad m => obtain rfl := List.mem_singleton.mp ht; exact ⟨[], ['\n'], by simp [errText, line]⟩
    | moduleLoads es =>
      obtain ⟨x, hx, rfl⟩ := List.mem_map.mp ht
      obtain ⟨before, after, h⟩ := errTexts_mem (shown := shown) (m := x.1) (e := x.2) hx
      exact ⟨before ++ "Error loading module ".toList, '\n' :: (errText shown x.2 ++ '\n' :: after), by rw [errText, h]; simp only [List.append_assoc, List.cons_append]⟩
    | sourceCode f m =>
      simp only [needed, List.mem_cons, List.not_mem_nil, or_false] at ht
      rcases ht with rfl | rfl
      · exact ⟨"Error reading source ".toList, '\n' :: line m, by simp [errText, line]⟩
      · exact ⟨line ("Error reading source ".toList ++ f), ['\n'], by simp [errText, line]⟩
    | targetWrite o m =>
      simp only [needed, List.mem_cons, List.not_mem_nil, or_false] at ht
      rcases ht with rfl | rfl
      · have : ∃ b, outputText shown o = b ++ targetName shown o := by
          cases o with
          | googleSheets id => exact ⟨_, rfl⟩
          | _ => exact ⟨[], rfl⟩
        obtain ⟨b, hb⟩ := this
        exact ⟨"Error writing to \"".toList ++ b, "\"".toList ++ '\n' :: line m, by simp [errText, line, hb]⟩
      · exact ⟨line ("Error writing to \"".toList ++ outputText shown o ++ "\"".toList), ['\n'], by simp [errText, line]⟩
  · rintro es rfl x hx
    obtain ⟨before, after, h⟩ := errTexts_mem (shown := shown) (m := x.1) (e := x.2) hx
    exact ⟨before ++ "Error loading module ".toList ++ modulePathText x.1 ++ ['\n'], '\n' :: after, by rw [errText, h]; simp only [List.append_assoc, List.cons_append, List.nil_append]⟩

end

/-! ## Examples -/

/-- `csv++ -o out.pdf foo.csvpp`, with `verbose` times `-v`. -/
def pdfArgs (verbose : Nat) (kvs : List Text) : Args :=
  ⟨⟨false, none, false, some ⟨false, ["out.pdf".toList]⟩, false, none, verbose, 0, 0, ⟨false, ["foo.csvpp".toList]⟩⟩, kvs⟩

/-- The hypotheses of `C89_says_why_partial` hold, and the run says why. -/
example (E : Cell.Env) (shown : Path → Text) (file : Text) (bad : Text → Text) (work : Job → List Text × Except Err Unit) :
    GoodKeyValues E (pdfArgs 0 []).keyValues ∧ HasSheetName (pdfArgs 0 []) ∧ (pdfArgs 0 []).verbose ≤ 4 ∧
    mainProgram E shown file bad (pdfArgs 0 []) work = (.failure, ["pdf is an unsupported extension: only .csv, .xlsx or .ods are supported.\n".toList]) := by
  refine ⟨(by intro kv h; cases h), .inr (by decide), by decide, ?_⟩
  obtain ⟨c, hc⟩ := configErr_ok (shown := shown) (a := pdfArgs 0 []) (.inr (by decide)) (by decide)
  obtain ⟨kv, -, he⟩ := mainProgram_started (E := E) (file := file) (bad := bad) (work := work) (by intro kv h; cases h) hc
  rw [he]
  have : outputErr E.alnum (pdfArgs 0 []).googleSheetId (pdfArgs 0 []).outputFilename =
      .error (.init ("pdf is an unsupported extension: only .csv, .xlsx or .ods are supported.".toList)) := by rfl
  rw [this]
  rfl

/-- With a fifth `-v`, or with `-k foo`, nothing is printed. -/
example (E : Cell.Env) (shown : Path → Text) (file : Text) (bad : Text → Text) (work : Job → List Text × Except Err Unit) :
    mainProgram E shown file bad (pdfArgs 5 []) work = (.failure, []) ∧ mainProgram E shown file bad (pdfArgs 0 ["foo".toList]) work = (.failure, []) := by
  refine ⟨C89_violated (.inr (.inr (by decide))), C89_violated (.inl ?_)⟩
  intro h
  obtain ⟨key, value, f, h1, -, -⟩ := h "foo".toList List.mem_cons_self
  have : '=' ∈ "foo".toList := by rw [h1]; simp
  revert this
  decide

/-- A run that compiles but cannot write its target says so. -/
example (E : Cell.Env) (bad : Text → Text) :
    mainProgram E (fun _ => "out.csv".toList) [] bad (⟨⟨false, none, false, some ⟨false, ["out.csv".toList]⟩, false, none, 0, 0, 0, ⟨false, ["foo.csvpp".toList]⟩⟩, []⟩)
      (fun j => ([], .error (.targetWrite j.output "disk full".toList))) = (.failure, ["Error writing to \"out.csv\"\ndisk full\n".toList]) := by
  obtain ⟨c, hc⟩ := configErr_ok (shown := fun _ => "out.csv".toList) (a := ⟨⟨false, none, false, some ⟨false, ["out.csv".toList]⟩, false, none, 0, 0, 0, ⟨false, ["foo.csvpp".toList]⟩⟩, []⟩)
    (.inr (by decide)) (by decide)
  obtain ⟨kv, -, he⟩ := mainProgram_started (E := E) (file := []) (bad := bad)
    (work := fun j => ([], .error (.targetWrite j.output "disk full".toList))) (by intro kv h; cases h) hc
  rw [he]
  rfl

end Verif.Cli
