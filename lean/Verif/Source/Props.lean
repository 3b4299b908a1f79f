import Verif.Source.Lemmas
import Verif.Csvp.Props
/-
Property theorems C10 (code/csv split) and C11 (error excerpt).
-/
namespace Verif.Source
open Verif Verif.Csvp Verif.Csvp.Spec

/-! ## C10 -/

/-- C10, the split: if some line consists of `---` and blanks, then the first such line (index `p`)
separates the sections: the code section is the `p` lines before it, the csv section the lines after
it, and `length_of_code_section` counts the code lines and the separator. -/
theorem C10_split (t : Text) (hsep : ∃ l ∈ rlines t, trim l = ['-', '-', '-']) :
    ∃ (p : Nat) (l : Text), (rlines t)[p]? = some l ∧ trim l = ['-', '-', '-'] ∧
      (∀ (q : Nat) (m : Text), q < p → (rlines t)[q]? = some m → trim m ≠ ['-', '-', '-']) ∧
      (SourceCode.new t).code = some (List.intercalate ['\n'] ((rlines t).take p)) ∧
      (SourceCode.new t).csv = List.intercalate ['\n'] ((rlines t).drop (p + 1)) ∧
      (SourceCode.new t).lenCode = p + 1 ∧
      (SourceCode.new t).lenCode + (SourceCode.new t).lenCsv = (SourceCode.new t).lines := by
  unfold SourceCode.new
  cases hf : (rlines t).findIdx? isSepLine with
  | none =>
    obtain ⟨l, hl, ht⟩ := hsep
    rw [List.findIdx?_eq_none_iff] at hf
    have := hf l hl
    simp [isSepLine, ht] at this
  | some p =>
    rw [List.findIdx?_eq_some_iff_getElem] at hf
    obtain ⟨hp, h1, h2⟩ := hf
    refine ⟨p, (rlines t)[p], List.getElem?_eq_getElem hp, by simpa [isSepLine] using h1, ?_, rfl, rfl, ?_, ?_⟩
    · intro q m hq hm
      have := h2 q hq
      have hq' : q < (rlines t).length := by omega
      rw [List.getElem?_eq_getElem hq'] at hm
      rw [Option.some.inj hm] at this
      simpa [isSepLine] using this
    · simp; omega
    · simp; omega

/-- C10, no separator line: everything is csv, there is no code section. -/
theorem C10_no_separator (t : Text) (hsep : ∀ l ∈ rlines t, trim l ≠ ['-', '-', '-']) :
    (SourceCode.new t).code = none ∧ (SourceCode.new t).csv = t ∧ (SourceCode.new t).lenCode = 0 := by
  unfold SourceCode.new
  have : (rlines t).findIdx? isSepLine = none := by
    rw [List.findIdx?_eq_none_iff]
    intro l hl
    simpa [isSepLine] using hsep l hl
  rw [this]; exact ⟨rfl, rfl, rfl⟩

/-- C10, line numbers: the character at index `i` of the csv section stands in the original file on
line `length_of_code_section + (its line in the csv section)`, at the same column.  (Newlines and
carriage returns, which are not part of a line, excepted.) -/
theorem C10_line_mapping (t : Text) (i : Nat) (c : Char) (h : (SourceCode.new t).csv[i]? = some c)
    (hn : c ≠ '\n') (hr : c ≠ '\r') :
    ∃ l, (rlines t)[(SourceCode.new t).lenCode + lineOf (SourceCode.new t).csv i]? = some l ∧
      l[colOf (SourceCode.new t).csv i]? = some c := by
  by_cases hsep : ∃ l ∈ rlines t, trim l = ['-', '-', '-']
  · obtain ⟨p, l, -, -, -, -, h5, h6, -⟩ := C10_split t hsep
    rw [h5] at h ⊢
    rw [h6]
    obtain ⟨m, h1, h2⟩ := splitAt_lineOf _ i c h hn
    refine ⟨m, ?_, h2⟩
    have hne : (rlines t).drop (p + 1) ≠ [] := by
      intro he; rw [he] at h; simp [List.intercalate] at h
    have := splitAt_joinNl _ hne (fun l hl => rlines_nl t l (List.mem_of_mem_drop hl))
    unfold joinNl at this
    rw [this] at h1
    rwa [List.getElem?_drop] at h1
  · obtain ⟨-, h2, h3⟩ := C10_no_separator t (fun l hl hh => hsep ⟨l, hl, hh⟩)
    rw [h2] at h ⊢
    rw [h3, Nat.zero_add]
    exact rlines_get t i c h hn hr

/-- C10 end to end: in the csv parse of a source file, the line number reported for every character
(not a line break) is the line of the original file that holds this character; the reported column
is right on the first csv line and one too large on the others (see C05). -/
theorem C10_reported_line (t : Text) (sep : Char) (rs : List (List Field))
    (h : Csvp.parse ⟨sep, (SourceCode.new t).lenCode⟩ (SourceCode.new t).csv = .ok rs) :
    ReadAll (fun p i => ∀ c, (SourceCode.new t).csv[i]? = some c → c ≠ '\n' → c ≠ '\r' →
      ∃ l, (rlines t)[p.line]? = some l ∧
        l[p.off - (if p.line = (SourceCode.new t).lenCode then 0 else 1)]? = some c)
      (SourceCode.new t).csv rs := by
  obtain ⟨idx, h1, h2⟩ := C05_positions_partial _ _ rs h
  refine ⟨idx, Forall₂.imp_mem h1 fun _ _ hh => Forall₂.imp_mem hh fun f is hf => ?_, h2⟩
  refine ⟨hf.inside, hf.value, Forall₂.imp_mem hf.positions fun p i hp c hc hn hr => ?_⟩
  obtain ⟨l, hl1, hl2⟩ := C10_line_mapping t i c hc hn hr
  obtain ⟨hp1, hp2⟩ := hp.1 (by rw [hc]; simpa using hn)
  refine ⟨l, by rw [hp1]; exact hl1, ?_⟩
  rw [hp2]
  simp only at hp1
  split <;> rename_i h0
  · rw [h0] at hp1
    rw [if_pos (by omega)]; exact hl2
  · rw [if_neg (by omega)]; simpa using hl2

example : SourceCode.new "x := 1\n --- \na,b\n---\n".toList =
    ⟨4, 2, 2, some "x := 1".toList, "a,b\n---".toList, "x := 1\n --- \na,b\n---\n".toList⟩ := by decide
example : ∃ rs, Csvp.parse ⟨',', (SourceCode.new "x\n---\na\nb".toList).lenCode⟩
    (SourceCode.new "x\n---\na\nb".toList).csv = .ok rs ∧ rs.length = 2 := ⟨_, rfl, by decide⟩

/-! ## C11 -/

/-- The lines within three of line `n`, with their indices. -/
def window (lines : List Text) (n : Nat) : List (Text × Nat) :=
  lines.zipIdx.filter fun x => n ≤ x.2 + 3 ∧ x.2 ≤ n + 3

def numbered (x : Text × Nat) : Entry := ⟨some (x.2 + 1), x.1⟩

/-- C11.  The excerpt for line `n` (0-based) is the window around it in order, each line with its
1-based number, and a caret line below line `n` whose caret is in column `off`. -/
theorem C11_excerpt (lines : List Text) (n off : Nat) (h : n < lines.length) :
    highlight lines n off =
      ((window lines n).filter (fun x => x.2 ≤ n)).map numbered ++
      ⟨none, List.replicate off '-' ++ ['^']⟩ ::
      ((window lines n).filter (fun x => n < x.2)).map numbered := by
  have e1 : (window lines n).filter (fun x => x.2 ≤ n) =
      ((lines.drop (n - 3)).take (n + 1 - (n - 3))).zipIdx (n - 3) := by
    unfold window
    rw [List.filter_filter, zipIdx_window lines 0 (n - 3) (n + 1), List.drop_take]
    · simp
    · intro x; simp only [Bool.decide_and]
      by_cases h1 : x.2 ≤ n <;> by_cases h2 : n ≤ x.2 + 3 <;> simp [h1, h2] <;> omega
  have e2 : (window lines n).filter (fun x => n < x.2) =
      ((lines.take (n + 4)).drop (n + 1)).zipIdx (n + 1) := by
    unfold window
    rw [List.filter_filter, zipIdx_window lines 0 (n + 1) (n + 4)]
    · simp
    · intro x; simp only [Bool.decide_and]
      by_cases h1 : n < x.2 <;> by_cases h2 : x.2 ≤ n + 3 <;> by_cases h3 : n ≤ x.2 + 3 <;>
        simp [h1, h2, h3] <;> omega
  rw [e1, e2]
  unfold highlight
  rw [dif_neg (by omega)]
  simp only [contextLines]
  have hb : (lines.take n).drop (n - 3) ++ [lines[n]] = (lines.drop (n - 3)).take (n + 1 - (n - 3)) := by
    rw [← List.drop_take, List.take_succ_eq_append_getElem h, List.drop_append_of_le_length]
    simp; omega
  rw [hb]
  have hlen : ((lines.drop (n - 3)).take (n + 1 - (n - 3))).length = n + 1 - (n - 3) := by
    simp; omega
  rw [List.append_assoc, numberLines_append _ 0 _ _ _ (by omega), mapIdx_zipIdx]
  congr 1
  rw [List.cons_append, List.nil_append, numberLines, if_pos (by omega), numberLines_after _ _ _ _ (by omega),
    hlen, mapIdx_zipIdx]
  have e3 : (lines.take (min lines.length (n + 3 + 1))).drop (n + 1) = (lines.take (n + 4)).drop (n + 1) := by
    rcases Nat.le_total lines.length (n + 4) with hh | hh
    · rw [show min lines.length (n + 3 + 1) = lines.length by omega, List.take_length,
        List.take_of_length_le hh]
    · rw [show min lines.length (n + 3 + 1) = n + 4 by omega]
  rw [e3, show n - 3 + (n + 1 - (n - 3)) = n + 1 by omega]
  rfl

/-- C11, corollary: the highlighted line itself is the last numbered line before the caret. -/
theorem C11_contains_line (lines : List Text) (n off : Nat) (h : n < lines.length) :
    (⟨some (n + 1), lines[n]⟩ : Entry) ∈ highlight lines n off := by
  rw [C11_excerpt lines n off h]
  apply List.mem_append_left
  refine List.mem_map.mpr ⟨(lines[n], n), ?_, rfl⟩
  simp only [window, List.mem_filter]
  refine ⟨⟨?_, by simp⟩, by simp⟩
  rw [List.mem_zipIdx_iff_getElem?]
  simp [h]

/-- C11: a line outside the file gives an empty excerpt. -/
theorem C11_outside (lines : List Text) (n off : Nat) (h : lines.length ≤ n) :
    highlight lines n off = [] := by
  unfold highlight; rw [dif_pos h]

/-- C11: at most seven source lines are shown. -/
theorem C11_at_most_seven (lines : List Text) (n off : Nat) :
    ((highlight lines n off).filter (·.num.isSome)).length ≤ 7 := by
  rcases Nat.lt_or_ge n lines.length with h | h
  · rw [C11_excerpt lines n off h]
    have hw : (window lines n).length ≤ 7 := by
      unfold window
      rw [zipIdx_window lines 0 (n - 3) (n + 4)]
      · simp; omega
      · intro x; simp only [Bool.decide_and]
        by_cases h1 : n ≤ x.2 + 3 <;> by_cases h2 : x.2 ≤ n + 3 <;> simp [h1, h2] <;> omega
    have hs : ∀ l : List (Text × Nat), ((l.map numbered).filter (·.num.isSome)).length = l.length := by
      intro l; rw [List.filter_eq_self.mpr]; simp
      intro a ha; obtain ⟨x, -, rfl⟩ := List.mem_map.mp ha; rfl
    rw [List.filter_append, List.filter_cons_of_neg (by simp), List.length_append, hs, hs]
    have : ∀ l : List (Text × Nat), (l.filter (fun x => decide (x.2 ≤ n))).length +
        (l.filter (fun x => decide (n < x.2))).length = l.length := by
      intro l
      induction l with
      | nil => rfl
      | cons a l ih =>
        by_cases ha : a.2 ≤ n
        · rw [List.filter_cons_of_pos (by simpa using ha), List.filter_cons_of_neg (by simpa using ha)]
          simp; omega
        · rw [List.filter_cons_of_neg (by simpa using ha), List.filter_cons_of_pos (by simpa using ha)]
          simp; omega
    have := this (window lines n)
    omega
  · rw [C11_outside _ _ _ h]; simp

example : highlight ["a".toList, "b".toList, "c".toList] 1 2 =
    [⟨some 1, ['a']⟩, ⟨some 2, ['b']⟩, ⟨none, "--^".toList⟩, ⟨some 3, ['c']⟩] := by decide

end Verif.Source
