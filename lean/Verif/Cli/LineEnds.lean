import Verif.Cli.Model
import Verif.Cli.Split
import Mathlib.Data.List.TakeWhile
import Mathlib.Tactic.Common
/-
Line endings (C74).
-/
namespace Verif.Cli
open Verif Verif.Csvp.Spec Verif.Source

/-- The text with `\r\n` for every newline. -/
def crlf (t : Text) : Text := t.flatMap fun c => if c = '\n' then ['\r', '\n'] else [c]

theorem crlf_cons (c : Char) (t : Text) : crlf (c :: t) = (if c = '\n' then ['\r', '\n'] else [c]) ++ crlf t := rfl

theorem stripCr_snoc (l : Text) : stripCr (l ++ ['\r']) = l := by simp [stripCr]

theorem rlinesFrom_crlf (cur t : Text) (hc : '\r' ∉ cur) (ht : '\r' ∉ t) : rlinesFrom cur (crlf t) = rlinesFrom cur t := by
  induction t generalizing cur with
  | nil => rfl
  | cons c t ih =>
    simp only [List.mem_cons, not_or] at ht
    rw [crlf_cons]
    by_cases h : c = '\n'
    · subst h
      rw [if_pos rfl, List.cons_append, List.singleton_append, rlinesFrom, if_neg (by decide), rlinesFrom, if_pos rfl, rlinesFrom, if_pos rfl,
        ih [] (by simp) ht.2, stripCr_snoc, stripCr_self hc]
    · rw [if_neg h, List.singleton_append, rlinesFrom, if_neg h, rlinesFrom, if_neg h, ih _ (by simp [hc, ht.1]) ht.2]

theorem rlines_crlf {t : Text} (ht : '\r' ∉ t) : rlines (crlf t) = rlines t := rlinesFrom_crlf [] t (by simp) ht

/-- C74.  If there is a separator line, a source file with `\r\n` line endings is the same program as the one with `\n`. -/
theorem C74_program (E : Cell.Env) (t : Text) (ht : '\r' ∉ t) (hsep : ∃ l ∈ rlines t, trim l = ['-', '-', '-']) :
    parseModule E (crlf t) = parseModule E t := by
  have key : (SourceCode.new (crlf t)).code = (SourceCode.new t).code ∧ (SourceCode.new (crlf t)).csv = (SourceCode.new t).csv ∧
      (SourceCode.new (crlf t)).lenCode = (SourceCode.new t).lenCode := by
    cases hf : (rlines t).findIdx? isSepLine with
    | none =>
      obtain ⟨l, hl, h⟩ := hsep
      rw [List.findIdx?_eq_none_iff] at hf
      have := hf l hl
      simp [isSepLine, h] at this
    | some p => simp only [SourceCode.new, rlines_crlf ht, hf]; exact ⟨trivial, trivial, trivial⟩
  rw [parseModule, parseModule, key.1, key.2.1, key.2.2]

theorem trim_cr (s : Text) : trim (s ++ ['\r']) = trim s := by
  simp only [trim, trimEnd, trimStart]
  by_cases h : s.all isWs = true
  · have h1 : s.dropWhile isWs = [] := by
      rw [List.dropWhile_eq_nil_iff]; simpa using h
    have h2 : (s ++ ['\r']).dropWhile isWs = [] := by
      rw [List.dropWhile_eq_nil_iff]
      intro c hc
      rcases List.mem_append.mp hc with hc | hc
      · exact List.all_eq_true.mp h c hc
      · rw [List.mem_singleton] at hc; subst hc; decide
    rw [h1, h2]
  · have hne : s.dropWhile isWs ≠ [] := by
      intro he; apply h
      rw [List.dropWhile_eq_nil_iff] at he
      simpa using he
    rw [List.dropWhile_append, if_neg (by simpa using hne), List.reverse_append]
    simp only [List.reverse_cons, List.reverse_nil, List.nil_append, List.singleton_append]
    rw [List.dropWhile_cons_of_pos (by decide)]

theorem splitAt_cons_ne {s c : Char} {t : Text} (h : c ≠ s) {p : Text} {ps : List Text} (hp : splitAt s t = p :: ps) : splitAt s (c :: t) = (c :: p) :: ps := by
  rw [splitAt, if_neg h, hp]

theorem splitAt_crlf (t : Text) : ∃ front last, splitAt '\n' t = front ++ [last] ∧ splitAt '\n' (crlf t) = front.map (· ++ ['\r']) ++ [last] := by
  induction t with
  | nil => exact ⟨[], [], rfl, rfl⟩
  | cons c t ih =>
    obtain ⟨front, last, h1, h2⟩ := ih
    rw [crlf_cons]
    by_cases h : c = '\n'
    · subst h
      refine ⟨[] :: front, last, by rw [splitAt, if_pos rfl, h1]; rfl, ?_⟩
      rw [if_pos rfl, List.cons_append, List.singleton_append]
      exact splitAt_cons_ne (by decide) (by rw [splitAt, if_pos rfl, h2]; rfl)
    · rw [if_neg h, List.singleton_append]
      cases front with
      | nil => exact ⟨[], c :: last, splitAt_cons_ne h h1, splitAt_cons_ne h h2⟩
      | cons f front => exact ⟨(c :: f) :: front, last, splitAt_cons_ne h h1, splitAt_cons_ne h h2⟩

theorem splitAt_cr {sep : Char} (hs : sep ≠ '\r') (l : Text) : ∃ front last, splitAt sep l = front ++ [last] ∧ splitAt sep (l ++ ['\r']) = front ++ [last ++ ['\r']] := by
  induction l with
  | nil => exact ⟨[], [], rfl, by rw [List.nil_append, splitAt, if_neg (Ne.symm hs)]; rfl⟩
  | cons c l ih =>
    obtain ⟨front, last, h1, h2⟩ := ih
    by_cases h : c = sep
    · exact ⟨[] :: front, last, by rw [splitAt, if_pos h, h1]; rfl, by rw [List.cons_append, splitAt, if_pos h, h2]; rfl⟩
    · cases front with
      | nil => exact ⟨[], c :: last, splitAt_cons_ne h h1, splitAt_cons_ne h h2⟩
      | cons f front => exact ⟨(c :: f) :: front, last, splitAt_cons_ne h h1, splitAt_cons_ne h h2⟩

theorem naiveLine_cr {sep : Char} (hs : sep ≠ '\r') (l : Text) : naiveLine sep (l ++ ['\r']) = naiveLine sep l := by
  have hh : (l ++ ['\r']).head? = some '#' ↔ l.head? = some '#' := by
    cases l with
    | nil => simp
    | cons c l => simp
  obtain ⟨front, last, h1, h2⟩ := splitAt_cr hs l
  rw [naiveLine, naiveLine, h1, h2]
  simp only [hh, List.map_append, List.map_cons, List.map_nil, trim_cr]

theorem naive_crlf {sep : Char} (hs : sep ≠ '\r') {t : Text} (h : t.head? ≠ some '\n') : naive sep (crlf t) = naive sep t := by
  have e1 : t.dropWhile (· = '\n') = t := by
    cases t with
    | nil => rfl
    | cons c t => rw [List.dropWhile_cons_of_neg]; simpa using h
  have e2 : (crlf t).dropWhile (· = '\n') = crlf t := by
    cases t with
    | nil => rfl
    | cons c t =>
      rw [crlf_cons]
      split <;> rename_i hc
      · simp
      · rw [List.singleton_append, List.dropWhile_cons_of_neg]; simpa using hc
  obtain ⟨front, last, h1, h2⟩ := splitAt_crlf t
  rw [naive, naive, e1, e2, h1, h2]
  simp only [List.dropLast_concat, List.getLast?_append, List.getLast?_singleton, Option.some_or, Option.getD_some, List.flatMap_map, naiveLine_cr hs]

theorem not_mem_crlf {t : Text} {c : Char} (h : c ∉ t) (hc : c ≠ '\r') : c ∉ crlf t := by
  intro hm
  rw [crlf, List.mem_flatMap] at hm
  obtain ⟨d, hd, h'⟩ := hm
  split at h'
  · simp only [List.mem_cons, List.not_mem_nil, or_false] at h'
    rcases h' with h' | h'
    · exact hc h'
    · subst h'; rename_i hd'; subst hd'; exact h hd
  · rw [List.mem_singleton] at h'; subst h'; exact h hd

/-- C74 (partial: without quotes, backslashes and an empty line at the beginning).  Cells are read the same with both line endings. -/
theorem C74_cells_partial (cfg : Csvp.Config) (hs : SepOk cfg.sep) (t : Text) (hq : '"' ∉ t) (hb : '\\' ∉ t) (h : t.head? ≠ some '\n') :
    Csvp.Spec.values (Csvp.parse cfg (crlf t)) = Csvp.Spec.values (Csvp.parse cfg t) := by
  have hcr : cfg.sep ≠ '\r' := fun he => by have := hs.1; rw [he] at this; exact absurd this (by decide)
  rw [Csvp.C47_naive cfg hs _ (not_mem_crlf hq (by decide)) (not_mem_crlf hb (by decide)), Csvp.C47_naive cfg hs _ hq hb, naive_crlf hcr h]

/-- C74 is violated: without a separator line, empty lines at the beginning are skipped with `\n` only. -/
theorem C74_violated (n : Nat) : Csvp.Spec.values (Csvp.parse ⟨',', n⟩ "\na".toList) = some [["a".toList]] ∧
    Csvp.Spec.values (Csvp.parse ⟨',', n⟩ (crlf "\na".toList)) = some [[[]], ["a".toList]] := by
  rw [Csvp.values_parse, Csvp.values_parse]
  simp only []
  decide +kernel

/-- C74 is violated: without a separator line, line breaks in a quoted field stay what they are. -/
theorem C74_violated_quoted (n : Nat) : Csvp.Spec.values (Csvp.parse ⟨',', n⟩ "\"a\nb\"".toList) = some [["a\nb".toList]] ∧
    Csvp.Spec.values (Csvp.parse ⟨',', n⟩ (crlf "\"a\nb\"".toList)) = some [["a\r\nb".toList]] := by
  rw [Csvp.values_parse, Csvp.values_parse]
  simp only []
  decide +kernel

example : crlf "x := 1\n---\n=x\n".toList = "x := 1\r\n---\r\n=x\r\n".toList ∧ ∃ l ∈ rlines "x := 1\n---\n=x\n".toList, trim l = ['-', '-', '-'] :=
  ⟨by decide, ['-', '-', '-'], by decide, by decide⟩

end Verif.Cli
