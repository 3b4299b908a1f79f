import Verif.Cli.Workbook
/-
What every run of the program does to files, whatever the arguments and sources are (C85).
-/
namespace Verif.Cli
open Verif.Ast Verif.Loader Verif.Sheet Verif.Cache
open Verif.Cell hiding Target
open Verif.Target hiding MPath

/-! ## Specification -/

/-- The target that the arguments name. -/
def Names (E : Env) (a : Args) (o : Output) : Prop := outputOf E.alnum a.googleSheetId a.outputFilename = some o

/-- The contents `c` that a file had are in another file, one that was not there before. -/
def Saved {C : Type} (files s : Files C) (p : Path) (c : C) : Prop := ∃ new, new ≠ p ∧ files new = none ∧ s new = some c

/-! ## Proofs -/

section
variable {C : Type} {E : Env} {version : Nat} {ts : List Text} {partials : C → List C} {out : Path → Output} {write : Config → Sheet → Option C → WriteOut C}
  {a : Args} {fs : FS Text} {files : Files C} {e : Option Exit} {states : List (Files C)} {w : List (MPath × Module Text)}

theorem configured_of {kv : Text → Option Ast} {c : Config} {o : Output} (h : configured E a = some (kv, c, o)) :
    Names E a o ∧ configOf a.toCliArgs = some c ∧ c.backup = a.backup ∧ c.overwrite = (!a.safe) ∧ c.useCache = (!a.noCache) := by
  rw [configured] at h
  split at h
  · cases h
  · split at h
    · cases h
    · rename_i c' hc'
      simp only [Option.map_eq_some_iff] at h
      obtain ⟨o', h1, h2⟩ := h
      cases h2
      refine ⟨h1, hc', ?_⟩
      rw [configOf] at hc'
      split at hc'
      · cases hc'; exact ⟨rfl, rfl, rfl⟩
      · cases hc'

/-- A run changes nothing, or compiled the source and writes the target. -/
theorem main_cases (h : MainFile E version ts partials out write a fs files e states w) :
    (e ≠ some .success ∧ states = [files]) ∨
    ∃ p c s, Names E a (out p) ∧ c.backup = a.backup ∧ c.overwrite = (!a.safe) ∧
      e = some (run ts partials c.backup p (some s) (write c) files).1 ∧ states = (run ts partials c.backup p (some s) (write c) files).2 := by
  cases h with
  | badArgs h => exact .inl ⟨by simp, rfl⟩
  | noName h h' => exact .inl ⟨by simp, rfl⟩
  | failed _ _ _ he => exact .inl ⟨by rcases he with rfl | rfl <;> simp, rfl⟩
  | panics => exact .inl ⟨by simp, rfl⟩
  | hangs => exact .inl ⟨by simp, rfl⟩
  | @compiled _ c p _ _ s h _ _ =>
    obtain ⟨h1, -, h2, h3, -⟩ := configured_of h
    exact .inr ⟨p, c, s, h1, h2, h3, rfl, rfl⟩

/-- C85.  At whatever point a run of the program stops, whatever its arguments and sources are, every file but the one that the arguments name as the
target is as it was. -/
theorem C85_other_files (h : MainFile E version ts partials out write a fs files e states w) {s : Files C} (hs : s ∈ states) {q : Path} {c : C}
    (hq : files q = some c) (ht : ¬ Names E a (out q)) : s q = some c := by
  rcases main_cases h with ⟨-, rfl⟩ | ⟨p, cfg, sheet, h1, -, -, -, rfl⟩
  · rw [List.mem_singleton.mp hs, hq]
  · exact C59_other_files hs hq (by rintro rfl; exact ht h1)

/-- C85.  With `--backup`, at whatever point a run stops, crashes and partly written files included, what any file had is still in it, or in a file that
was not there before. -/
theorem C85_crash_safe (h : MainFile E version ts partials out write a fs files e states w) (hb : a.backup = true) {s : Files C} (hs : s ∈ states)
    {q : Path} {c : C} (hq : files q = some c) : s q = some c ∨ Saved files s q c := by
  rcases main_cases h with ⟨-, rfl⟩ | ⟨p, cfg, sheet, h1, h2, -, -, rfl⟩
  · rw [List.mem_singleton.mp hs]; exact .inl hq
  · rw [h2, hb] at hs
    by_cases hp : q = p
    · subst hp; exact C59_crash_safe hs hq
    · exact .inl (C59_other_files hs hq hp)

/-- C85.  With `--backup`, a run that succeeds has left what the target had in a file that was not there before. -/
theorem C85_backup (h : MainFile E version ts partials out write a fs files e states w) (hb : a.backup = true) (he : e = some .success) :
    ∃ p c final, Names E a (out p) ∧ files p = some c ∧ states.getLast? = some final ∧ Saved files final p c := by
  rcases main_cases h with ⟨h, -⟩ | ⟨p, cfg, sheet, h1, h2, -, rfl, rfl⟩
  · exact absurd he h
  · rw [h2, hb] at he ⊢
    obtain ⟨c, new, e1, e2, e3, e4⟩ := C59_backup_made (by simpa using he)
    cases hl : (run ts partials true p (some sheet) (write cfg) files).2.getLast? with
    | none => rw [hl] at e4; cases e4
    | some final => rw [hl] at e4; exact ⟨p, c, final, h1, e1, rfl, new, e3, e2, e4⟩

/-- C85.  Without `--backup`, no file is made or changed but the target. -/
theorem C85_only_target (h : MainFile E version ts partials out write a fs files e states w) (hb : a.backup = false) {s : Files C} (hs : s ∈ states)
    {q : Path} (ht : ¬ Names E a (out q)) : s q = files q := by
  rcases main_cases h with ⟨-, rfl⟩ | ⟨p, cfg, sheet, h1, h2, -, -, rfl⟩
  · rw [List.mem_singleton.mp hs]
  · rw [h2, hb] at hs
    rcases run_cases hs with rfl | ⟨h, -⟩ | ⟨h, -⟩ | ⟨-, c, rfl⟩
    · rfl
    · cases h
    · cases h
    · exact set_ne (by rintro rfl; exact ht h1)

/-- C85.  A run whose source does not compile changes no file but object files: if a run changes a file, the source was compiled. -/
theorem C85_unsuccessful (h : MainFile E version ts partials out write a fs files e states w) :
    states = [files] ∨ ∃ kv c p mp s, configured E a = some (kv, c, out p) ∧ mainModulePath a.inputFilename = some mp ∧
      Compile (parseModule E) version c.useCache kv fs mp (.ok s) w := by
  cases h with
  | badArgs h => exact .inl rfl
  | noName h h' => exact .inl rfl
  | failed _ _ _ he => exact .inl rfl
  | panics => exact .inl rfl
  | hangs => exact .inl rfl
  | compiled h1 h2 h3 => exact .inr ⟨_, _, _, _, _, h1, h2, h3⟩

end

/-- C85.  A target that is there but cannot be read as a workbook is never changed, and the run does not succeed. -/
theorem C85_unreadable {E : Env} {version : Nat} {ts : List Text} {partials : Option Workbook → List (Option Workbook)} {between : List (Option Workbook)}
    {den : Text → DateVal} {a : Args} {fs : FS Text} {files : Files (Option Workbook)} {e : Option Exit} {states : List (Files (Option Workbook))}
    {w : List (MPath × Module Text)} (h : MainExcel E version ts partials between den a fs files e states w) {p : Path} (hp : Names E a (.excel p))
    (hr : files p = some none) : e ≠ some .success ∧ ∀ s ∈ states, s p = some none := by
  rcases main_cases h with ⟨he, rfl⟩ | ⟨p', cfg, sheet, h1, h2, -, rfl, rfl⟩
  · exact ⟨he, fun s hs => by rw [List.mem_singleton.mp hs, hr]⟩
  · have : Output.excel p' = .excel p := by rw [Names, h1] at hp; exact Option.some.inj hp
    cases this
    cases hb : cfg.backup with
    | false => 
      simp only [run, Bool.false_eq_true, if_false, hr, excelTarget]
      refine ⟨by simp, fun s hs => ?_⟩
      simp only [List.map_nil, List.mem_singleton] at hs
      rw [hs, hr]
    | true =>
      cases hbk : backupFile ts files p with
      | none =>
        simp only [run, if_true, hbk]
        exact ⟨by simp, fun s hs => by rw [List.mem_singleton.mp hs, hr]⟩
      | some x =>
        obtain ⟨fs', new⟩ := x
        obtain ⟨hn, -, h3⟩ := C43_backup hbk
        have hne : p ≠ new := by rintro rfl; rw [hn] at hr; cases hr
        have ht : fs' p = some none := by rw [h3 p hne, hr]
        simp only [run, if_true, hbk, hr, ht, excelTarget]
        refine ⟨by simp, fun s hs => ?_⟩
        simp only [List.map_nil, List.cons_append, List.mem_cons, List.mem_append, List.mem_map, List.not_mem_nil, or_false] at hs
        rcases hs with rfl | ⟨c, -, rfl⟩ | rfl
        · exact hr
        · rw [set_ne hne, hr]
        · exact ht

/-- C68.  With an OpenDocument file as the target no run succeeds, and the target is never changed. -/
theorem C68_program_violated {C : Type} {E : Env} {version : Nat} {ts : List Text} {partials : C → List C} {a : Args} {fs : FS Text} {files : Files C}
    {e : Option Exit} {states : List (Files C)} {w : List (MPath × Module Text)}
    (h : MainFile E version ts partials .openDocument (fun _ => odsTarget) a fs files e states w) {p : Path} (hp : Names E a (.openDocument p)) :
    e ≠ some .success ∧ ∀ s ∈ states, s p = files p := by
  rcases main_cases h with ⟨he, rfl⟩ | ⟨p', cfg, sheet, h1, h2, -, rfl, rfl⟩
  · exact ⟨he, fun s hs => by rw [List.mem_singleton.mp hs]⟩
  · have : Output.openDocument p' = .openDocument p := by rw [Names, h1] at hp; exact Option.some.inj hp
    cases this
    cases hb : cfg.backup with
    | false =>
      simp only [run, Bool.false_eq_true, if_false, odsTarget]
      exact ⟨by simp, fun s hs => by rw [List.mem_singleton.mp hs]⟩
    | true =>
      cases hbk : backupFile ts files p with
      | none =>
        simp only [run, if_true, hbk]
        exact ⟨by simp, fun s hs => by rw [List.mem_singleton.mp hs]⟩
      | some x =>
        obtain ⟨fs', new⟩ := x
        obtain ⟨hn, ⟨c, hc, -⟩, h3⟩ := C43_backup hbk
        have hne : p ≠ new := by rintro rfl; rw [hn] at hc; cases hc
        simp only [run, if_true, hbk, odsTarget, hc]
        refine ⟨by simp, fun s hs => ?_⟩
        simp only [List.cons_append, List.mem_cons, List.mem_append, List.mem_map, List.not_mem_nil, or_false] at hs
        rcases hs with rfl | ⟨c, -, rfl⟩ | rfl
        · exact hc
        · rw [set_ne hne, hc]
        · rw [h3 p hne, hc]

end Verif.Cli
