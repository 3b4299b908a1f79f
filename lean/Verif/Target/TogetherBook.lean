import Verif.Target.ExcelProps
import Mathlib.Logic.Relation
import Mathlib.Tactic.Common
import Mathlib.Data.List.Nodup
/-
C116: several runs of the program at the same time, with the same workbook as their target.

The model: each run reads the workbook (src/target/excel/mod.rs:153-162), and later writes the whole workbook with its worksheet changed
(src/target/excel/compilation_target.rs:25).  The steps of different runs are interleaved in every possible way; a run that crashes is one that makes no
more steps.  Simplifications: reading a workbook and writing one are each a single step (so the library is assumed to be better than it may be), both are
faithful, the runs have compiled their sources before, and the backups are left out.
-/
namespace Verif.Target
open Verif.Cell Verif.Sheet

/-- One run: the option --safe (src/cli_options.rs), the name of its worksheet, and its sheet. -/
structure BookJob where
  ov : Bool
  name : Text
  sheet : Sheet

/-- Where a run is. -/
inductive BookPhase where
  /-- src/target/excel/compilation_target.rs:13: the workbook will be read -/
  | toRead
  /-- src/target/excel/compilation_target.rs:15-23: this has been read (`none`: there was no file) -/
  | opened (file : Option Workbook)
  | done
  /-- src/target/excel/mod.rs:84-97: a panic -/
  | failed

/-- A step of one run, with the file before and after: src/target/excel/compilation_target.rs:12-31. -/
inductive BookStep (den : Text → DateVal) (j : BookJob) : Option Workbook → BookPhase → Option Workbook → BookPhase → Prop
  /-- src/target/excel/mod.rs:153-162 `open_spreadsheet` -/
  | read {file} : BookStep den j file .toRead file (.opened file)
  /-- src/target/excel/compilation_target.rs:15-28: the worksheet is changed in what was read, and everything is written -/
  | write {now file wb} : writeExcel den j.ov j.name j.sheet file = some wb → BookStep den j now (.opened file) (some wb) .done
  | panic {now file} : writeExcel den j.ov j.name j.sheet file = none → BookStep den j now (.opened file) now .failed

/-- The workbook in the target file, and where the runs are. -/
structure BookRuns where
  file : Option Workbook
  phase : Nat → BookPhase

/-- Some run makes a step. -/
def BookTogether (den : Text → DateVal) (jobs : Nat → BookJob) (s t : BookRuns) : Prop :=
  ∃ i, BookStep den (jobs i) s.file (s.phase i) t.file (t.phase i) ∧ ∀ k, k ≠ i → t.phase k = s.phase k

/-- All runs are at their beginning. -/
def bookBegin (file : Option Workbook) : BookRuns := ⟨file, fun _ => .toRead⟩

/-! ### Specification -/

/-- What these runs leave, one after the other: each of them succeeds, and begins with what the one before has left. -/
inductive OneByOne (den : Text → DateVal) (jobs : Nat → BookJob) : List Nat → Option Workbook → Option Workbook → Prop
  | none {file} : OneByOne den jobs [] file file
  | next {is i start file wb} : OneByOne den jobs is start file → writeExcel den (jobs i).ov (jobs i).name (jobs i).sheet file = some wb →
      OneByOne den jobs (is ++ [i]) start (some wb)

/-- The worksheet of a name in the target file. -/
def inFile (file : Option Workbook) (name : Text) : Option Worksheet := sheetNamed (file.getD []) name

variable {den : Text → DateVal} {jobs : Nat → BookJob} {file₀ : Option Workbook}

/-! ### Lemmas -/

/-- What is invariant. -/
structure BookInv (den : Text → DateVal) (jobs : Nat → BookJob) (file₀ : Option Workbook) (s : BookRuns) : Prop where
  now : ∃ is : List Nat, is.Nodup ∧ (∀ i ∈ is, s.phase i = .done) ∧ OneByOne den jobs is file₀ s.file
  seen : ∀ k f, s.phase k = .opened f → ∃ is : List Nat, is.Nodup ∧ (∀ i ∈ is, s.phase i = .done) ∧ OneByOne den jobs is file₀ f

theorem bookInv_begin : BookInv den jobs file₀ (bookBegin file₀) :=
  ⟨⟨[], List.nodup_nil, by simp, .none⟩, fun k f h => by cases h⟩

theorem bookInv_step {s t : BookRuns} (h : BookInv den jobs file₀ s) (hst : BookTogether den jobs s t) : BookInv den jobs file₀ t := by
  obtain ⟨i, hstep, hother⟩ := hst
  obtain ⟨file, phase⟩ := s
  obtain ⟨file', phase'⟩ := t
  simp only at hstep hother
  obtain ⟨hnow, hseen⟩ := h
  simp only at hnow hseen
  -- the finished runs remain finished
  have keep : phase i ≠ .done → ∀ is : List Nat, (∀ k ∈ is, phase k = .done) → ∀ k ∈ is, phase' k = .done := by
    intro hi is his k hk
    have : k ≠ i := by rintro rfl; exact hi (his _ hk)
    rw [hother k this]
    exact his k hk
  generalize hp : phase i = p at hstep keep
  generalize hp' : phase' i = p' at hstep
  cases hstep with
  | read =>
    have keep := keep (by simp)
    obtain ⟨is, h1, h2, h3⟩ := hnow
    refine ⟨⟨is, h1, keep is h2, h3⟩, fun k f hk => ?_⟩
    simp only at hk ⊢
    by_cases hki : k = i
    · subst hki
      rw [hp'] at hk
      cases hk
      exact ⟨is, h1, keep is h2, h3⟩
    · rw [hother k hki] at hk
      obtain ⟨is, h1, h2, h3⟩ := hseen k f hk
      exact ⟨is, h1, keep is h2, h3⟩
  | write hw =>
    have keep := keep (by simp)
    obtain ⟨is, h1, h2, h3⟩ := hseen i _ hp
    have hni : i ∉ is := fun hmem => by
      have := h2 i hmem
      rw [hp] at this
      cases this
    refine ⟨⟨is ++ [i], ?_, ?_, .next h3 hw⟩, fun k f hk => ?_⟩
    · rw [List.nodup_append]
      refine ⟨h1, List.nodup_singleton _, ?_⟩
      intro a ha b hb
      rw [List.mem_singleton] at hb
      subst hb
      rintro rfl
      exact hni ha
    · intro k hk
      rw [List.mem_append, List.mem_singleton] at hk
      rcases hk with hk | rfl
      · exact keep is h2 k hk
      · exact hp'
    · simp only at hk ⊢
      by_cases hki : k = i
      · subst hki
        rw [hp'] at hk
        cases hk
      · rw [hother k hki] at hk
        obtain ⟨is, h1, h2, h3⟩ := hseen k f hk
        exact ⟨is, h1, keep is h2, h3⟩
  | panic hw =>
    have keep := keep (by simp)
    obtain ⟨is, h1, h2, h3⟩ := hnow
    refine ⟨⟨is, h1, keep is h2, h3⟩, fun k f hk => ?_⟩
    simp only at hk ⊢
    by_cases hki : k = i
    · subst hki
      rw [hp'] at hk
      cases hk
    · rw [hother k hki] at hk
      obtain ⟨is, h1, h2, h3⟩ := hseen k f hk
      exact ⟨is, h1, keep is h2, h3⟩

theorem bookInv_reach {s : BookRuns} (h : Relation.ReflTransGen (BookTogether den jobs) (bookBegin file₀) s) : BookInv den jobs file₀ s := by
  induction h with
  | refl => exact bookInv_begin
  | tail _ hst ih => exact bookInv_step ih hst

theorem oneByOne_other {is : List Nat} {a b : Option Workbook} (h : OneByOne den jobs is a b) {n : Text} (hn : ∀ i ∈ is, (jobs i).name ≠ n) :
    inFile b n = inFile a n := by
  induction h with
  | none => rfl
  | @next is i _ _ _ _ hw ih =>
    have hi : n ≠ (jobs i).name := Ne.symm (hn i (by simp))
    have := (C69_worksheets hw).2 n hi
    rw [← ih fun k hk => hn k (List.mem_append_left _ hk)]
    exact this

theorem oneByOne_named {is : List Nat} {a b : Option Workbook} (h : OneByOne den jobs is a b) {i : Nat} (hi : i ∈ is) :
    (inFile b (jobs i).name).isSome = true := by
  induction h with
  | none => cases hi
  | @next is k _ file _ _ hw ih =>
    obtain ⟨⟨ws, hs, -⟩, hother⟩ := C69_worksheets hw
    by_cases hn : (jobs i).name = (jobs k).name
    · rw [hn]
      show (sheetNamed _ _).isSome = true
      rw [Option.getD_some, hs]
      rfl
    · rw [List.mem_append, List.mem_singleton] at hi
      rcases hi with hi | rfl
      · show (sheetNamed _ _).isSome = true
        rw [Option.getD_some, hother _ hn]
        exact ih hi
      · exact absurd rfl hn

/-! ### C116 -/

/-- C116, the part that holds: whatever the schedule, at every moment the workbook is what some of the runs that have succeeded would leave one after the
other (each once).  Missing: it need not be all of them (`C116_violated`). -/
theorem C116_some_partial {s : BookRuns} (h : Relation.ReflTransGen (BookTogether den jobs) (bookBegin file₀) s) :
    ∃ is : List Nat, is.Nodup ∧ (∀ i ∈ is, s.phase i = .done) ∧ OneByOne den jobs is file₀ s.file := (bookInv_reach h).now

/-- C116, the part that holds: worksheets that no run names stay as they are, at every moment. -/
theorem C116_others {s : BookRuns} (h : Relation.ReflTransGen (BookTogether den jobs) (bookBegin file₀) s) {n : Text} (hn : ∀ i, (jobs i).name ≠ n) :
    inFile s.file n = inFile file₀ n := by
  obtain ⟨is, -, -, h3⟩ := (bookInv_reach h).now
  exact oneByOne_other h3 fun i _ => hn i

/-- C116, the part that holds: no worksheet is lost that was there before the runs; and a worksheet that is there was there before, or is one of a run that has succeeded. -/
theorem C116_kept {s : BookRuns} (h : Relation.ReflTransGen (BookTogether den jobs) (bookBegin file₀) s) (n : Text) :
    ((inFile file₀ n).isSome = true → (inFile s.file n).isSome = true) ∧
    ((inFile s.file n).isSome = true → (inFile file₀ n).isSome = true ∨ ∃ i, s.phase i = .done ∧ (jobs i).name = n) := by
  obtain ⟨is, -, h2, h3⟩ := (bookInv_reach h).now
  by_cases hn : ∃ i ∈ is, (jobs i).name = n
  · obtain ⟨i, hi, rfl⟩ := hn
    exact ⟨fun _ => oneByOne_named h3 hi, fun _ => .inr ⟨i, h2 i hi, rfl⟩⟩
  · push Not at hn
    rw [oneByOne_other h3 hn]
    exact ⟨id, .inl⟩

/-- C116, the part that holds: just after a run has succeeded its worksheet is in the workbook. -/
theorem C116_last {s t : BookRuns} {i : Nat} (hstep : BookStep den (jobs i) s.file (s.phase i) t.file (t.phase i)) (hd : t.phase i = .done) :
    ∃ f ws, s.phase i = .opened f ∧ buildWorksheet den (jobs i).ov (jobs i).sheet ((inFile f (jobs i).name).getD blankSheet) = some ws ∧
      inFile t.file (jobs i).name = some ws := by
  obtain ⟨file, phase⟩ := s
  obtain ⟨file', phase'⟩ := t
  simp only at hstep hd ⊢
  rw [hd] at hstep
  generalize phase i = p at hstep
  cases hstep with
  | write hw =>
    obtain ⟨⟨ws, hs, hb⟩, -⟩ := C69_worksheets hw
    exact ⟨_, ws, rfl, hb, hs⟩

/-- C116 holds of runs that do not overlap: one after the other they leave the worksheets of all of them. -/
theorem C116_alone {is : List Nat} {file : Option Workbook} (h : OneByOne den jobs is file₀ file) {i : Nat} (hi : i ∈ is) :
    (inFile file (jobs i).name).isSome = true := oneByOne_named h hi

/-- C116, violated: two runs with worksheets of different names, both of which succeed, can leave the workbook without the worksheet of one of them (for all
workbooks that do not have it yet, and all sheets that can be written). -/
theorem C116_violated {wb₀ wb₁ : Workbook} (hne : (jobs 0).name ≠ (jobs 1).name) (hnew : inFile file₀ (jobs 0).name = none)
    (h0 : writeExcel den (jobs 0).ov (jobs 0).name (jobs 0).sheet file₀ = some wb₀)
    (h1 : writeExcel den (jobs 1).ov (jobs 1).name (jobs 1).sheet file₀ = some wb₁) :
    ∃ s, Relation.ReflTransGen (BookTogether den jobs) (bookBegin file₀) s ∧ s.phase 0 = .done ∧ s.phase 1 = .done ∧
      inFile s.file (jobs 0).name = none ∧ (inFile s.file (jobs 1).name).isSome = true := by
  let ph (a b : BookPhase) : Nat → BookPhase := fun i => if i = 0 then a else if i = 1 then b else .toRead
  have e0 : bookBegin file₀ = ⟨file₀, ph .toRead .toRead⟩ := by
    simp only [bookBegin, BookRuns.mk.injEq, true_and]
    funext i
    simp only [ph]
    split <;> [rfl; (split <;> rfl)]
  have st0 : ∀ {f f' a a' b}, BookStep den (jobs 0) f a f' a' → BookTogether den jobs ⟨f, ph a b⟩ ⟨f', ph a' b⟩ := fun h =>
    ⟨0, by simpa [ph] using h, fun k hk => by simp [ph, hk]⟩
  have st1 : ∀ {f f' a b b'}, BookStep den (jobs 1) f b f' b' → BookTogether den jobs ⟨f, ph a b⟩ ⟨f', ph a b'⟩ := fun h =>
    ⟨1, by simpa [ph] using h, fun k hk => by simp [ph, hk]⟩
  refine ⟨⟨some wb₁, ph .done .done⟩, ?_, by simp [ph], by simp [ph], ?_, ?_⟩
  · rw [e0]
    exact .tail (.tail (.tail (.tail .refl (st0 .read)) (st1 .read)) (st0 (.write h0))) (st1 (.write h1))
  · show sheetNamed _ _ = none
    rw [Option.getD_some, (C69_worksheets h1).2 _ hne]
    exact hnew
  · obtain ⟨⟨ws, hs, -⟩, -⟩ := C69_worksheets h1
    show (sheetNamed _ _).isSome = true
    rw [Option.getD_some, hs]
    rfl

/-! ### A case -/

/-- Two runs for a workbook that does not exist, with the worksheets a and b. -/
def twoBooks : Nat → BookJob
  | 0 => ⟨true, "a".toList, ⟨[], false⟩⟩
  | _ => ⟨true, "b".toList, ⟨[], false⟩⟩

/-- Both succeed, and the worksheet a is not there. -/
example : ∃ s, Relation.ReflTransGen (BookTogether (fun _ => .time) twoBooks) (bookBegin none) s ∧ s.phase 0 = .done ∧ s.phase 1 = .done ∧
    inFile s.file "a".toList = none ∧ (inFile s.file "b".toList).isSome = true :=
  C116_violated (jobs := twoBooks) (wb₀ := [("a".toList, blankSheet)]) (wb₁ := [("b".toList, blankSheet)]) (by decide) rfl rfl rfl

end Verif.Target
