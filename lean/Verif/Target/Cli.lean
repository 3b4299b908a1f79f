import Verif.Target.FileProps
/-
The options of the command line (C78).
-/
namespace Verif.Target
open Verif.Cell Verif.Sheet

/-- The documented levels: errors only by default, and `-v`, `-vv`, `-vvv`, `-vvvv` for more (src/cli_args.rs:69-73). -/
def verbosities : List (Nat × Level) := [(0, .error), (1, .warn), (2, .info), (3, .debug), (4, .trace)]

/-- The name of a file without its extension, if it has one. -/
def StemOf (f stem : Text) : Prop := (∃ ext, HasExt f stem ext) ∨ (f = stem ∧ '.' ∉ f)

theorem levelOf_iff {v : Nat} {l : Level} : levelOf v = some l ↔ (v, l) ∈ verbosities := by
  constructor
  · intro h
    unfold levelOf at h
    split at h <;> first | (cases h; decide) | cases h
  · intro h
    simp only [verbosities, List.mem_cons, List.not_mem_nil, or_false, Prod.mk.injEq] at h
    rcases h with ⟨rfl, rfl⟩ | ⟨rfl, rfl⟩ | ⟨rfl, rfl⟩ | ⟨rfl, rfl⟩ | ⟨rfl, rfl⟩ <;> rfl

theorem levelOf_none {v : Nat} : levelOf v = none ↔ 4 < v := by
  constructor
  · intro h
    by_contra hv
    have : v = 0 ∨ v = 1 ∨ v = 2 ∨ v = 3 ∨ v = 4 := by omega
    rcases this with rfl | rfl | rfl | rfl | rfl <;> cases h
  · intro h
    cases hv : levelOf v with
    | none => rfl
    | some l =>
      have := levelOf_iff.mp hv
      simp only [verbosities, List.mem_cons, List.not_mem_nil, or_false, Prod.mk.injEq] at this
      omega

theorem stem_of {dir : Option Text} {f stem : Text} (hf : FileName f) (hs : StemOf f stem) : (Path.ofText (inDir dir f)).fileStem = some stem := by
  have hc : (Path.ofText (inDir dir f)).comps = (dirPath dir).comps ++ [f] := by rw [ofText_inDir hf]
  rw [stem_last hc hf]
  rcases hs with ⟨ext, h⟩ | ⟨rfl, h⟩
  · rw [h.split]; rfl
  · rw [rsplitDot_none h]; rfl

/-- C78: with an input file that has a name, the options are accepted exactly when `-v` is given at most four times, and then: a backup is made
exactly with `--backup`, existing values are overwritten exactly without `--safe`, object files are used exactly without `--no-cache`, the
offsets are those given, the sheet has the given name or else that of the input file without its extension, and the level is the documented
one. -/
theorem C78_config {a : CliArgs} {dir : Option Text} {f stem : Text} (hi : a.inputFilename = Path.ofText (inDir dir f)) (hf : FileName f)
    (hs : StemOf f stem) :
    (4 < a.verbose → configOf a = none) ∧
    (a.verbose ≤ 4 → ∃ c, configOf a = some c ∧
      (c.backup = true ↔ a.backup = true) ∧ (c.overwrite = true ↔ a.safe = false) ∧ (c.useCache = true ↔ a.noCache = false) ∧
      c.offset.1 = a.xOffset ∧ c.offset.2 = a.yOffset ∧
      (∀ n, a.sheetName = some n → c.sheetName = n) ∧ (a.sheetName = none → c.sheetName = stem) ∧
      (a.verbose, c.verbosity) ∈ verbosities) := by
  constructor
  · intro h
    rw [configOf, levelOf_none.mpr h]
    cases sheetNameOf a <;> rfl
  · intro h
    have hl : ∃ l, levelOf a.verbose = some l := by
      cases hl : levelOf a.verbose with
      | none => have := levelOf_none.mp hl; omega
      | some l => exact ⟨l, rfl⟩
    obtain ⟨l, hl⟩ := hl
    have hn : ∃ n, sheetNameOf a = some n ∧ (∀ n', a.sheetName = some n' → n = n') ∧ (a.sheetName = none → n = stem) := by
      rw [sheetNameOf]
      cases hn : a.sheetName with
      | none => rw [hi]; exact ⟨stem, stem_of hf hs, by simp, fun _ => rfl⟩
      | some n => exact ⟨n, rfl, by simp, by simp⟩
    obtain ⟨n, hn, h1, h2⟩ := hn
    refine ⟨_, by rw [configOf, hn, hl], Iff.rfl, ?_, ?_, rfl, rfl, h1, h2, levelOf_iff.mp hl⟩
    · simp
    · simp

/-- `-vv --safe --no-cache -x 2 -y 3 dir/my.sheet.csvpp`. -/
example : ∃ a : CliArgs, a.inputFilename = Path.ofText (inDir (some "dir".toList) "my.sheet.csvpp".toList) ∧ a.verbose ≤ 4 ∧
    FileName "my.sheet.csvpp".toList ∧ StemOf "my.sheet.csvpp".toList "my.sheet".toList ∧ a.sheetName = none ∧
    ∃ c, configOf a = some c ∧ c.overwrite = false ∧ c.useCache = false ∧ c.verbosity = .info := by
  have hf : FileName "my.sheet.csvpp".toList := by unfold FileName; decide
  have hs : StemOf "my.sheet.csvpp".toList "my.sheet".toList := .inl ⟨"csvpp".toList, by unfold HasExt; decide⟩
  refine ⟨⟨false, none, true, none, true, none, 2, 2, 3, Path.ofText (inDir (some "dir".toList) "my.sheet.csvpp".toList)⟩, rfl, by decide, hf, hs, rfl, ?_⟩
  refine ⟨⟨false, (2, 3), false, "my.sheet".toList, false, .info⟩, ?_, rfl, rfl, rfl⟩
  rw [configOf, sheetNameOf]
  simp only [stem_of (dir := some "dir".toList) hf hs, levelOf]
  rfl

end Verif.Target
