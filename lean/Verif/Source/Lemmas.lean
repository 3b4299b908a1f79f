import Verif.Source.Model
import Verif.Csvp.Naive
/- Helper lemmas for C10, C11. -/
namespace Verif.Source
open Verif Verif.Csvp Verif.Csvp.Spec

theorem lineOf_cons (c : Char) (t : Text) (i : Nat) :
    lineOf (c :: t) (i + 1) = (if c = '\n' then 1 else 0) + lineOf t i := by
  unfold lineOf
  rw [List.take_succ_cons, List.count_cons]
  simp only [beq_iff_eq]; omega

theorem takeWhile_append_len (a b : Text) (p : Char → Bool) :
    ((a ++ b).takeWhile p).length =
      if a.all p then a.length + (b.takeWhile p).length else (a.takeWhile p).length := by
  induction a with
  | nil => simp
  | cons c a ih =>
    rw [List.cons_append, List.takeWhile_cons, List.takeWhile_cons]
    by_cases hc : p c
    · simp only [hc, if_true, List.length_cons, ih, List.all_cons, Bool.true_and]
      split <;> omega
    · simp [hc]

theorem takeWhile_all (a : Text) (p : Char → Bool) (h : a.all p = true) : a.takeWhile p = a := by
  induction a with
  | nil => rfl
  | cons c a ih =>
    simp only [List.all_cons, Bool.and_eq_true] at h
    rw [List.takeWhile_cons, if_pos h.1, ih h.2]

theorem colOf_cons (c : Char) (t : Text) (i : Nat) :
    colOf (c :: t) (i + 1) =
      if lineOf t i = 0 ∧ c ≠ '\n' then colOf t i + 1 else colOf t i := by
  unfold colOf lineOf
  rw [List.take_succ_cons, List.reverse_cons, takeWhile_append_len]
  by_cases h : (t.take i).count '\n' = 0
  · have hall : (t.take i).reverse.all (fun x => decide (x ≠ '\n')) = true := by
      rw [List.count_eq_zero] at h
      simp only [List.all_eq_true, List.mem_reverse, decide_eq_true_eq]
      rintro x hx rfl; exact h hx
    have htw : (t.take i).reverse.takeWhile (fun x => decide (x ≠ '\n')) = (t.take i).reverse := by
      exact takeWhile_all _ _ hall
    rw [if_pos hall]
    by_cases hc : c = '\n'
    · subst hc; rw [if_neg (fun x => x.2 rfl), htw]; simp [List.takeWhile_cons]
    · rw [if_pos ⟨h, hc⟩, htw]; simp [hc]
  · have hall : ¬ (t.take i).reverse.all (fun x => decide (x ≠ '\n')) = true := by
      intro ha
      apply h
      rw [List.count_eq_zero]
      intro hm
      simp only [List.all_eq_true, List.mem_reverse, decide_eq_true_eq] at ha
      exact ha _ hm rfl
    rw [if_neg hall, if_neg (fun x => h x.1)]

/-- The character at index `i` is on line `lineOf t i` at column `colOf t i`. -/
theorem splitAt_lineOf (t : Text) (i : Nat) (c : Char) (h : t[i]? = some c) (hc : c ≠ '\n') :
    ∃ l, (splitAt '\n' t)[lineOf t i]? = some l ∧ l[colOf t i]? = some c := by
  induction t generalizing i with
  | nil => simp at h
  | cons d t ih =>
    cases i with
    | zero =>
      simp at h; subst h
      unfold splitAt
      rw [if_neg hc]
      split
      · exact ⟨[d], rfl, rfl⟩
      · rename_i p ps hs; exact ⟨d :: p, rfl, rfl⟩
    | succ i =>
      rw [List.getElem?_cons_succ] at h
      obtain ⟨l, h1, h2⟩ := ih i h
      rw [lineOf_cons, colOf_cons]
      unfold splitAt
      by_cases hd : d = '\n'
      · refine ⟨l, ?_, ?_⟩
        · rw [if_pos hd, if_pos hd, Nat.add_comm, List.getElem?_cons_succ, h1]
        · rw [if_neg (fun x => x.2 hd), h2]
      · rw [if_neg hd, if_neg hd, Nat.zero_add]
        split
        · rename_i hs; exact absurd hs (splitAt_ne _ _)
        · rename_i p ps hs
          rw [hs] at h1
          by_cases h0 : lineOf t i = 0
          · rw [h0] at h1 ⊢
            simp at h1; subst h1
            exact ⟨d :: p, rfl, by rw [if_pos ⟨rfl, hd⟩, List.getElem?_cons_succ, h2]⟩
          · refine ⟨l, ?_, by rw [if_neg (fun x => h0 x.1), h2]⟩
            obtain ⟨k, hk⟩ : ∃ k, lineOf t i = k + 1 := ⟨lineOf t i - 1, by omega⟩
            rw [hk] at h1 ⊢
            simpa using h1

theorem splitAt_joinNl (ls : List Text) (hne : ls ≠ []) (h : ∀ l ∈ ls, '\n' ∉ l) :
    splitAt '\n' (joinNl ls) = ls := by
  unfold joinNl
  induction ls with
  | nil => exact absurd rfl hne
  | cons l ls ih =>
    cases ls with
    | nil => simp [List.intercalate, splitAt_of_not_mem _ _ (h l (by simp))]
    | cons m ls =>
      have e : List.intercalate ['\n'] (l :: m :: ls) = l ++ '\n' :: List.intercalate ['\n'] (m :: ls) := by
        simp [List.intercalate]
      rw [e, splitAt_append _ _ _ (h l (by simp)), ih (by simp) (fun x hx => h x (by simp [hx]))]

/-- Rust's lines are the pieces between newlines with trailing carriage returns removed. -/
theorem rlinesFrom_get (cur t : Text) (k : Nat) (l : Text) (hcur : '\n' ∉ cur)
    (h : (splitAt '\n' (cur ++ t))[k]? = some l) (hne : l ≠ []) :
    ∃ l', (rlinesFrom cur t)[k]? = some l' ∧ (l' = l ∨ l' = stripCr l) := by
  induction t generalizing cur k with
  | nil =>
    rw [List.append_nil, splitAt_of_not_mem _ _ hcur] at h
    cases k with
    | zero =>
      simp at h; subst h
      exact ⟨cur, by unfold rlinesFrom; rw [if_neg hne]; rfl, Or.inl rfl⟩
    | succ k => simp at h
  | cons c t ih =>
    unfold rlinesFrom
    by_cases hc : c = '\n'
    · subst hc
      rw [if_pos rfl]
      rw [splitAt_append _ _ _ hcur] at h
      cases k with
      | zero => simp at h; subst h; exact ⟨stripCr cur, rfl, Or.inr rfl⟩
      | succ k =>
        rw [List.getElem?_cons_succ] at h
        obtain ⟨l', h1, h2⟩ := ih [] k (by simp) h
        exact ⟨l', by rw [List.getElem?_cons_succ]; exact h1, h2⟩
    · rw [if_neg hc]
      have : cur ++ c :: t = (cur ++ [c]) ++ t := by simp
      rw [this] at h
      exact ih (cur ++ [c]) k (by simp; exact ⟨hcur, fun h => hc h.symm⟩) h

theorem stripCr_get (l : Text) (k : Nat) (c : Char) (h : l[k]? = some c) (hc : c ≠ '\r') :
    (stripCr l)[k]? = some c := by
  unfold stripCr
  split
  · rename_i hl
    have hk : k < l.length := (List.getElem?_eq_some_iff.mp h).1
    rw [List.getElem?_dropLast, if_pos, h]
    rcases Nat.lt_or_ge k (l.length - 1) with h' | h'
    · exact h'
    · have : k = l.length - 1 := by omega
      subst this
      rw [List.getLast?_eq_getElem?, h] at hl
      exact absurd (Option.some.inj hl) hc
  · exact h

theorem rlines_get (t : Text) (i : Nat) (c : Char) (h : t[i]? = some c) (hn : c ≠ '\n') (hr : c ≠ '\r') :
    ∃ l, (rlines t)[lineOf t i]? = some l ∧ l[colOf t i]? = some c := by
  obtain ⟨l, h1, h2⟩ := splitAt_lineOf t i c h hn
  obtain ⟨l', h3, h4⟩ := rlinesFrom_get [] t _ l (by simp) (by simpa using h1) (by rintro rfl; simp at h2)
  refine ⟨l', h3, ?_⟩
  rcases h4 with rfl | rfl
  · exact h2
  · exact stripCr_get l _ c h2 hr

theorem stripCr_subset (l : Text) (c : Char) (h : c ∈ stripCr l) : c ∈ l := by
  unfold stripCr at h
  split at h
  · exact List.dropLast_subset _ h
  · exact h

theorem rlinesFrom_nl (cur t : Text) (hcur : '\n' ∉ cur) (l : Text) (h : l ∈ rlinesFrom cur t) :
    '\n' ∉ l := by
  induction t generalizing cur with
  | nil =>
    unfold rlinesFrom at h
    split at h
    · simp at h
    · simp at h; subst h; exact hcur
  | cons c t ih =>
    unfold rlinesFrom at h
    split at h
    · rcases List.mem_cons.mp h with rfl | h
      · exact fun hm => hcur (stripCr_subset _ _ hm)
      · exact ih [] (by simp) h
    · rename_i hc
      exact ih (cur ++ [c]) (by simp; exact ⟨hcur, fun h => hc h.symm⟩) h

theorem rlines_nl (t : Text) (l : Text) (h : l ∈ rlines t) : '\n' ∉ l :=
  rlinesFrom_nl [] t (by simp) l h

/-! ### numbering -/

theorem numberLines_append (skip i count : Nat) (a b : List Text) (h : i + a.length ≤ skip) :
    numberLines skip i count (a ++ b) =
      a.mapIdx (fun k l => ⟨some (count + k + 1), l⟩) ++ numberLines skip (i + a.length) (count + a.length) b := by
  induction a generalizing i count with
  | nil => simp
  | cons l a ih =>
    simp only [List.length_cons] at h
    rw [List.cons_append, numberLines, if_neg (by omega), ih _ _ (by omega)]
    simp only [List.mapIdx_cons, List.cons_append, List.length_cons, Nat.add_zero]
    rw [show i + 1 + a.length = i + (a.length + 1) by omega,
      show count + 1 + a.length = count + (a.length + 1) by omega]
    congr 2
    apply List.ext_getElem? 
    intro k
    simp only [List.getElem?_mapIdx]
    cases a[k]? <;> simp; omega

theorem numberLines_after (skip i count : Nat) (a : List Text) (h : skip < i) :
    numberLines skip i count a = a.mapIdx (fun k l => ⟨some (count + k + 1), l⟩) := by
  induction a generalizing i count with
  | nil => rfl
  | cons l a ih =>
    rw [numberLines, if_neg (by omega), ih _ _ (by omega)]
    simp only [List.mapIdx_cons, Nat.add_zero]
    congr 1
    apply List.ext_getElem?
    intro k
    simp only [List.getElem?_mapIdx]
    cases a[k]? <;> simp; omega

theorem zipIdx_window (l : List Text) (n a b : Nat) (p : Text × Nat → Bool)
    (hp : ∀ x, p x = (decide (a ≤ x.2) && decide (x.2 < b))) :
    (l.zipIdx n).filter p = ((l.take (b - n)).drop (a - n)).zipIdx (max a n) := by
  induction l generalizing n with
  | nil => simp
  | cons c l ih =>
    rw [List.zipIdx_cons, List.filter_cons, hp, ih]
    simp only [Bool.and_eq_true, decide_eq_true_eq]
    by_cases h1 : n < b
    · obtain ⟨m, hm⟩ : ∃ m, b - n = m + 1 := ⟨b - n - 1, by omega⟩
      rw [hm, List.take_succ_cons, show b - (n + 1) = m by omega]
      by_cases h2 : a ≤ n
      · rw [if_pos ⟨h2, h1⟩, show a - n = 0 by omega, show a - (n + 1) = 0 by omega, List.drop_zero,
          List.drop_zero, List.zipIdx_cons, show max a n = n by omega, show max a (n + 1) = n + 1 by omega]
      · rw [if_neg (fun h => h2 h.1), show a - n = (a - (n + 1)) + 1 by omega, List.drop_succ_cons,
          show max a n = max a (n + 1) by omega]
    · rw [if_neg (fun h => h1 h.2), show b - n = 0 by omega, show b - (n + 1) = 0 by omega]
      simp

theorem mapIdx_zipIdx (l : List Text) (n : Nat) :
    l.mapIdx (fun k x => (⟨some (n + k + 1), x⟩ : Entry)) = (l.zipIdx n).map fun p => ⟨some (p.2 + 1), p.1⟩ := by
  apply List.ext_getElem?
  intro k
  simp only [List.getElem?_mapIdx, List.getElem?_map, List.getElem?_zipIdx]
  cases l[k]? <;> simp

end Verif.Source
