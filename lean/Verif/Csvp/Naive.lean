import Verif.Csvp.Glue
/- Helper lemmas: quote-free texts are read by splitting. -/
namespace Verif.Csvp
open Verif Verif.Csvp.Spec

theorem splitAt_ne (c : Char) (l : Text) : splitAt c l ≠ [] := by
  cases l with
  | nil => simp [splitAt]
  | cons d ds => unfold splitAt; split; simp; split <;> simp

theorem splitAt_join (c : Char) (l : Text) : List.intercalate [c] (splitAt c l) = l := by
  induction l with
  | nil => rfl
  | cons d ds ih =>
    unfold splitAt
    split
    · rename_i h; subst h
      cases hs : splitAt d ds with
      | nil => exact absurd hs (splitAt_ne _ _)
      | cons p ps => rw [hs] at ih; simp [List.intercalate] at *; exact ih
    · split
      · rename_i h; exact absurd h (splitAt_ne _ _)
      · rename_i p ps h; rw [h] at ih
        cases ps with
        | nil => simp [List.intercalate] at *; exact ih
        | cons q qs => simp [List.intercalate] at *; exact ih

theorem splitAt_mem (c : Char) (l : Text) (p : Text) (hp : p ∈ splitAt c l) :
    c ∉ p ∧ ∀ d ∈ p, d ∈ l := by
  induction l generalizing p with
  | nil => simp [splitAt] at hp; subst hp; simp
  | cons e ds ih =>
    unfold splitAt at hp
    split at hp
    · rcases List.mem_cons.mp hp with rfl | hp
      · simp
      · have := ih p hp; exact ⟨this.1, fun d hd => by simp [this.2 d hd]⟩
    · rename_i hne
      split at hp
      · rename_i h; exact absurd h (splitAt_ne _ _)
      · rename_i q qs h
        rcases List.mem_cons.mp hp with rfl | hp
        · have := ih q (by rw [h]; simp)
          refine ⟨?_, ?_⟩
          · simp; exact ⟨fun h => hne h.symm, this.1⟩
          · intro d hd
            rcases List.mem_cons.mp hd with rfl | hd
            · simp
            · simp [this.2 d hd]
        · have := ih p (by rw [h]; simp [hp]); exact ⟨this.1, fun d hd => by simp [this.2 d hd]⟩

theorem splitAt_of_not_mem (c : Char) (l : Text) (h : c ∉ l) : splitAt c l = [l] := by
  induction l with
  | nil => rfl
  | cons d ds ih =>
    simp at h
    unfold splitAt; rw [if_neg (fun e => h.1 e.symm), ih h.2]

theorem splitAt_append (c : Char) (l r : Text) (h : c ∉ l) :
    splitAt c (l ++ c :: r) = l :: splitAt c r := by
  induction l with
  | nil => simp [splitAt]
  | cons d ds ih =>
    simp at h
    rw [List.cons_append, splitAt, if_neg (fun e => h.1 e.symm), ih h.2]

theorem plainSrc_ok (sep : Char) (v : Text) (hs : sep ∉ v) (hn : '\n' ∉ v) (hq : '"' ∉ v) :
    (plainSrc v).Ok sep := by
  refine ⟨by rw [flatMap_ch_chars]; exact hs, by rw [flatMap_ch_chars]; exact hn, ?_⟩
  rw [flatMap_ch_chars]
  intro h
  have : '"' ∈ trimStart v := List.mem_of_mem_head? h
  exact hq ((List.dropWhile_suffix _).subset this)

/-- The written form of a quote-free line. -/
theorem line_src (sep : Char) (l : Text) (hn : '\n' ∉ l) (hq : '"' ∉ l) (hb : '\\' ∉ l) :
    ∃ v vs, splitAt sep l = v :: vs ∧ fieldsText sep (plainSrc v) (vs.map plainSrc) = l ∧
      (∀ w ∈ v :: vs, (plainSrc w).Ok sep ∧ '\\' ∉ w) := by
  cases hs : splitAt sep l with
  | nil => exact absurd hs (splitAt_ne _ _)
  | cons v vs =>
    refine ⟨v, vs, rfl, ?_, ?_⟩
    · rw [fieldsText_intercalate]
      have : (FieldSrc.text ∘ plainSrc) = id := by funext v; exact plainSrc_text v
      rw [List.map_cons, List.map_map, this, plainSrc_text, List.map_id, ← hs, splitAt_join]
    · intro w hw
      have := splitAt_mem sep l w (by rw [hs]; exact hw)
      exact ⟨plainSrc_ok sep w this.1 (fun h => hn (this.2 _ h)) (fun h => hq (this.2 _ h)),
        fun h => hb (this.2 _ h)⟩

theorem getLast_plain (v : Text) (vs : List Text) (h) :
    (plainSrc v :: vs.map plainSrc).getLast h = plainSrc ((v :: vs).getLast (by simp)) :=
  List.getLast_map (f := plainSrc) (l := v :: vs) h

theorem head_first (sep : Char) (hsep : SepOk sep) (v : Text) (vs : List Text) (l : Text)
    (hl : fieldsText sep (plainSrc v) (vs.map plainSrc) = l) (hh : l.head? ≠ some '#') :
    (plainSrc v).text.head? ≠ some '#' := by
  rw [plainSrc_text]
  intro h
  apply hh
  rw [← hl, fieldsText_intercalate]
  cases v with
  | nil => simp at h
  | cons c v => cases vs <;> simp [List.intercalate, plainSrc_text] at * <;> exact h

theorem cRecords_line (sep : Char) (hsep : SepOk sep) (n : Nat) (acc : List (List Text)) (l rest : Text)
    (hn : '\n' ∉ l) (hq : '"' ∉ l) (hb : '\\' ∉ l) :
    cRecords sep (n + 1) acc (l ++ '\n' :: rest) = cRecords sep n (acc ++ naiveLine sep l) rest := by
  unfold naiveLine
  by_cases hh : l.head? = some '#'
  · rw [if_pos hh]
    cases l with
    | nil => simp at hh
    | cons c l =>
      simp at hh; subst hh
      have := cRecords_item sep hsep n acc (.comment l) (by simp at hn; exact hn) rest
      simp only [Item.text, Item.values] at this
      simpa using this
  · rw [if_neg hh]
    obtain ⟨v, vs, h1, h2, h3⟩ := line_src sep l hn hq hb
    have := cRecords_item sep hsep n acc (.record (plainSrc v) (vs.map plainSrc)) ?_ rest
    · simp only [Item.text, Item.values, h2, plainSrc_value, List.map_map] at this
      have e : (FieldSrc.value ∘ plainSrc) = trim := by funext v; exact plainSrc_value v
      rw [e] at this
      rw [h1]
      simpa using this
    · refine ⟨head_first sep hsep v vs l h2 hh, (h3 v (by simp)).1, ?_, ?_⟩
      · intro g hg; obtain ⟨w, hw, rfl⟩ := List.mem_map.mp hg; exact (h3 w (by simp [hw])).1
      · rw [getLast_plain, plainSrc_endOk]
        intro he
        exact (h3 _ (List.getLast_mem (by simp))).2 (List.mem_of_mem_getLast? he)

/-- The field loop on a final stretch whose last field is blank. -/
theorem cFields_eof_blank (sep : Char) (hsep : SepOk sep) (n : Nat) (f : FieldSrc) (gs : List FieldSrc)
    (acc : List Text) (ps : List Piece) (hf : f.Ok sep) (hgs : ∀ g ∈ gs, g.Ok sep)
    (hlast : (f :: gs).getLast (by simp) = .plain ps) (hb : trimStart (ps.flatMap Piece.chars) = [])
    (hn : gs.length < n) :
    cFields sep n acc (fieldsText sep f gs) =
      some (if (acc ++ ((f :: gs).map FieldSrc.value).dropLast) = [] then none
            else some (acc ++ ((f :: gs).map FieldSrc.value).dropLast), []) := by
  induction gs generalizing f acc n with
  | nil =>
    cases n with
    | zero => simp at hn
    | succ n =>
      simp at hlast; subst hlast
      have hj : Joins ps [] := fun h => by simpa using h.2
      have := cField_pieces sep hsep ps [] hf hj
      rw [List.append_nil, if_pos hb, cField_nil] at this
      unfold cFields fieldsText
      simp only [FieldSrc.text, this]
      cases acc <;> simp
  | cons g gs ih =>
    cases n with
    | zero => simp at hn
    | succ n =>
      unfold cFields fieldsText
      rw [cField_src_sep sep hsep f hf]
      have := ih n g (acc ++ [f.value]) (hgs g (by simp)) (fun g hg => hgs g (by simp [hg]))
        (by simpa using hlast) (by simp at hn; omega)
      simp only [this, List.map_cons, List.dropLast_cons_cons, List.append_assoc, List.cons_append,
        List.nil_append]

theorem cRecords_last (sep : Char) (hsep : SepOk sep) (n : Nat) (acc : List (List Text)) (l : Text)
    (hn : '\n' ∉ l) (hq : '"' ∉ l) (hb : '\\' ∉ l) (hlen : l.length < n) :
    cRecords sep n acc l = some (acc ++ naiveLast sep l) := by
  obtain ⟨n, rfl⟩ : ∃ m, n = m + 1 := ⟨n - 1, by omega⟩
  have hend : ∀ m, m ≠ 0 → ∀ acc : List (List Text), cRecords sep m acc [] = some acc := by
    intro m hm acc
    cases m with
    | zero => exact absurd rfl hm
    | succ m => simp [cRecords, cFields, cField_nil]
  unfold naiveLast
  by_cases hh : l.head? = some '#'
  · rw [if_pos hh, List.append_nil]
    unfold cRecords
    rw [if_pos hh]
    have hign : ignoreLine' l = [] := by
      clear hh hlen hq hb
      induction l with
      | nil => rfl
      | cons c l ih =>
        simp at hn
        unfold ignoreLine'; rw [if_neg (fun h => hn.1 h.symm)]; exact ih hn.2
    have hne : l ≠ [] := by rintro rfl; simp at hh
    rw [hign]
    apply hend
    intro h0; subst h0
    have : 0 < l.length := List.length_pos_iff.mpr hne
    omega
  · rw [if_neg hh]
    obtain ⟨v, vs, h1, h2, h3⟩ := line_src sep l hn hq hb
    have hoks : ∀ g ∈ vs.map plainSrc, g.Ok sep := by
      intro g hg; obtain ⟨w, hw, rfl⟩ := List.mem_map.mp hg; exact (h3 w (by simp [hw])).1
    have hcnt : (vs.map plainSrc).length < l.length + 1 := by
      have := fieldsText_length sep (plainSrc v) (vs.map plainSrc)
      rw [h2] at this; omega
    have evals : (plainSrc v :: vs.map plainSrc).map FieldSrc.value = (splitAt sep l).map trim := by
      rw [h1]; simp [plainSrc_value]
    have hlastv : ((splitAt sep l).map trim).getLast? = some (trim ((v :: vs).getLast (by simp))) := by
      rw [h1, List.getLast?_map, List.getLast?_eq_getLast_of_ne_nil (by simp)]; rfl
    unfold cRecords
    rw [if_neg hh]
    by_cases hbl : trimStart ((v :: vs).getLast (by simp)) = []
    · have := cFields_eof_blank sep hsep (l.length + 1) (plainSrc v) (vs.map plainSrc) []
        (((v :: vs).getLast (by simp)).map .ch) (h3 v (by simp)).1 hoks (getLast_plain v vs _)
        (by rw [flatMap_ch_chars]; exact hbl) hcnt
      rw [h2, evals] at this
      rw [this]
      have htr : trim ((v :: vs).getLast (by simp)) = [] := by
        rw [← trim_trimStart, hbl]; rfl
      simp only [hlastv, htr, if_true, List.nil_append]
      by_cases hd : ((splitAt sep l).map trim).dropLast = []
      · rw [if_pos hd, if_pos hd]; simp
      · rw [if_neg hd, if_neg hd]
        simp only
        apply hend
        rintro rfl
        have : l = [] := List.eq_nil_of_length_eq_zero (by omega)
        subst this; simp [splitAt] at hd
    · have := cFields_eof sep hsep (l.length + 1) (plainSrc v) (vs.map plainSrc) []
        (h3 v (by simp)).1 hoks (by
          intro ps hps
          rw [getLast_plain] at hps
          unfold plainSrc at hps
          injection hps with hps
          rw [← hps, flatMap_ch_chars]; exact hbl) hcnt
      rw [h2, List.nil_append, ← List.map_cons (f := FieldSrc.value), evals] at this
      rw [this]
      have htr : trim ((v :: vs).getLast (by simp)) ≠ [] := by
        intro h
        apply hbl
        have hh := trimStart_of_trim_nil _ h
        exact hh
      simp only [hlastv, Option.some.injEq, htr, if_false]
      rw [if_neg (by rw [h1]; simp)]
      apply hend
      rintro rfl
      have : l = [] := List.eq_nil_of_length_eq_zero (by omega)
      subst this
      simp [splitAt] at h1
      obtain ⟨rfl, rfl⟩ := h1
      exact hbl rfl
where
  trimStart_of_trim_nil (s : Text) (h : trim s = []) : trimStart s = [] := by
    unfold trim trimEnd at h
    rw [List.reverse_eq_nil_iff] at h
    have h : ∀ c ∈ (trimStart s).reverse, isWs c = true := by
      generalize (trimStart s).reverse = r at h
      intro c hc
      induction r with
      | nil => simp at hc
      | cons d r ih =>
        rw [List.dropWhile_cons] at h
        split at h
        · rename_i hd
          rcases List.mem_cons.mp hc with rfl | hc
          · exact hd
          · exact ih h hc
        · simp at h
    cases hs : trimStart s with
    | nil => rfl
    | cons c cs =>
      have h1 := dropWhile_head s c (by show (trimStart s).head? = _; rw [hs]; rfl)
      have h2 := h c (by rw [hs]; simp)
      rw [h1] at h2; cases h2

theorem cRecords_naive (sep : Char) (hsep : SepOk sep) (n : Nat) (acc : List (List Text)) (t : Text)
    (hq : '"' ∉ t) (hb : '\\' ∉ t) (hlen : t.length < n) :
    cRecords sep n acc t = some (acc ++ ((splitAt '\n' t).dropLast.flatMap (naiveLine sep) ++
      naiveLast sep ((splitAt '\n' t).getLast?.getD []))) := by
  induction n generalizing acc t with
  | zero => omega
  | succ n ih =>
    by_cases hn : '\n' ∈ t
    · obtain ⟨l, r, rfl, hl⟩ : ∃ l r, t = l ++ '\n' :: r ∧ '\n' ∉ l := by
        exact first t hn
      simp only [List.mem_append, List.mem_cons, not_or] at hq hb
      rw [cRecords_line sep hsep n acc l r hl hq.1 hb.1,
        ih _ r hq.2.2 hb.2.2 (by simp at hlen; omega), splitAt_append _ _ _ hl]
      cases hs : splitAt '\n' r with
      | nil => exact absurd hs (splitAt_ne _ _)
      | cons p ps => simp
    · rw [splitAt_of_not_mem _ _ hn]
      simpa using cRecords_last sep hsep (n + 1) acc t hn hq hb hlen
where
  first (t : Text) (h : '\n' ∈ t) : ∃ l r, t = l ++ '\n' :: r ∧ '\n' ∉ l := by
    induction t with
    | nil => simp at h
    | cons c t ih =>
      by_cases hc : c = '\n'
      · exact ⟨[], t, by simp [hc], by simp⟩
      · have : '\n' ∈ t := by simp at h; rcases h with h | h; exact absurd h.symm hc; exact h
        obtain ⟨l, r, rfl, hl⟩ := ih this
        exact ⟨c :: l, r, rfl, by simp; exact ⟨fun h => hc h.symm, hl⟩⟩

end Verif.Csvp
