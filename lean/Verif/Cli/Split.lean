import Verif.Source.Props
/-
How a source file is split into its sections.
-/
namespace Verif.Source
open Verif Verif.Csvp Verif.Csvp.Spec

theorem splitAt_ne (c : Char) (t : Text) : splitAt c t ≠ [] := by
  cases t with
  | nil => simp [splitAt]
  | cons d t =>
    rw [splitAt]
    split
    · simp
    · split <;> simp

theorem rlinesFrom_append (cur c t : Text) (hcur : '\n' ∉ cur) :
    rlinesFrom cur (c ++ '\n' :: t) = (splitAt '\n' (cur ++ c)).map stripCr ++ rlines t := by
  have hs : ∀ (cur t : Text), '\n' ∉ cur → splitAt '\n' (cur ++ '\n' :: t) = cur :: splitAt '\n' t := by
    intro cur
    induction cur with
    | nil => intro t _; simp [splitAt]
    | cons d cur ih =>
      intro t h
      simp only [List.mem_cons, not_or] at h
      rw [List.cons_append, splitAt, if_neg (fun h' => h.1 h'.symm), ih t h.2]
  have hs0 : ∀ (cur : Text), '\n' ∉ cur → splitAt '\n' cur = [cur] := by
    intro cur
    induction cur with
    | nil => intro _; rfl
    | cons d cur ih =>
      intro h
      simp only [List.mem_cons, not_or] at h
      rw [splitAt, if_neg (fun h' => h.1 h'.symm), ih h.2]
  induction c generalizing cur with
  | nil => rw [List.nil_append, List.append_nil, rlinesFrom, if_pos rfl, hs0 _ hcur]; rfl
  | cons d c ih =>
    rw [List.cons_append, rlinesFrom]
    split
    · rename_i h; subst h
      rw [ih [] (by simp), hs _ _ hcur]; rfl
    · rename_i h
      rw [ih (cur ++ [d]) (by simp [hcur]; exact fun h' => h h'.symm)]
      simp

/-- The lines of a text followed by a newline and another text. -/
theorem rlines_append (c t : Text) : rlines (c ++ '\n' :: t) = (splitAt '\n' c).map stripCr ++ rlines t := by
  rw [rlines, rlinesFrom_append _ _ _ (by simp), List.nil_append]

theorem splitAt_subset (c : Char) (t l : Text) (h : l ∈ splitAt c t) : ∀ d ∈ l, d ∈ t := by
  induction t generalizing l with
  | nil => simp [splitAt] at h; simp [h]
  | cons d t ih =>
    rw [splitAt] at h
    split at h
    · rcases List.mem_cons.mp h with rfl | h
      · simp
      · exact fun x hx => List.mem_cons_of_mem _ (ih l h x hx)
    · split at h
      · simp at h; simp [h]
      · rename_i p ps he
        rcases List.mem_cons.mp h with rfl | h
        · intro x hx
          rcases List.mem_cons.mp hx with rfl | hx
          · exact List.mem_cons_self
          · exact List.mem_cons_of_mem _ (ih p (by rw [he]; exact List.mem_cons_self) x hx)
        · exact fun x hx => List.mem_cons_of_mem _ (ih l (by rw [he]; exact List.mem_cons_of_mem _ h) x hx)

theorem joinNl_cons (l : Text) {ls : List Text} (h : ls ≠ []) : joinNl (l :: ls) = l ++ '\n' :: joinNl ls := by
  cases ls with
  | nil => exact absurd rfl h
  | cons m ls => simp [joinNl, List.intercalate, List.intersperse]

theorem joinNl_splitAt (t : Text) : joinNl (splitAt '\n' t) = t := by
  induction t with
  | nil => rfl
  | cons d t ih =>
    rw [splitAt]
    split
    · rename_i h; subst h
      rw [joinNl_cons _ (splitAt_ne _ _), ih]; rfl
    · cases hs : splitAt '\n' t with
      | nil => exact absurd hs (splitAt_ne _ _)
      | cons p ps =>
        simp only
        rw [hs] at ih
        cases ps with
        | nil => rw [← ih]; simp [joinNl, List.intercalate]
        | cons q ps =>
          rw [joinNl_cons _ (by simp)] at ih ⊢
          rw [← ih]; rfl

theorem stripCr_self {l : Text} (h : '\r' ∉ l) : stripCr l = l := by
  rw [stripCr, if_neg]
  exact fun h' => h (List.mem_of_getLast? h')

theorem map_stripCr {t : Text} (h : '\r' ∉ t) : (splitAt '\n' t).map stripCr = splitAt '\n' t := by
  conv_rhs => rw [← List.map_id (splitAt '\n' t)]
  exact List.map_congr_left fun l hl => stripCr_self fun h' => h (splitAt_subset _ _ _ hl _ h')

theorem rlinesFrom_join (cur t : Text) (hcur : '\n' ∉ cur) (hr : '\r' ∉ cur ++ t) (he : t.getLast? ≠ some '\n') (hne : cur ++ t ≠ []) :
    rlinesFrom cur t = splitAt '\n' (cur ++ t) := by
  have hs0 : ∀ (cur : Text), '\n' ∉ cur → splitAt '\n' cur = [cur] := by
    intro cur
    induction cur with
    | nil => intro _; rfl
    | cons d cur ih =>
      intro h
      simp only [List.mem_cons, not_or] at h
      rw [splitAt, if_neg (fun h' => h.1 h'.symm), ih h.2]
  have hs : ∀ (cur t : Text), '\n' ∉ cur → splitAt '\n' (cur ++ '\n' :: t) = cur :: splitAt '\n' t := by
    intro cur
    induction cur with
    | nil => intro t _; simp [splitAt]
    | cons d cur ih =>
      intro t h
      simp only [List.mem_cons, not_or] at h
      rw [List.cons_append, splitAt, if_neg (fun h' => h.1 h'.symm), ih t h.2]
  induction t generalizing cur with
  | nil =>
    rw [List.append_nil] at hne ⊢
    rw [rlinesFrom, if_neg hne, hs0 _ hcur]
  | cons d t ih =>
    rw [rlinesFrom]
    split
    · rename_i h; subst h
      have hnt : t ≠ [] := by rintro rfl; exact he rfl
      have hr' : '\r' ∉ t := by simp at hr ⊢; exact hr.2
      rw [ih [] (by simp) (by simpa using hr') (by rwa [List.getLast?_cons_of_ne_nil hnt] at he) (by simpa using hnt), hs _ _ hcur,
        stripCr_self (by simp at hr; exact hr.1)]
      rfl
    · rename_i h
      rw [ih (cur ++ [d]) (by simp [hcur]; exact fun h' => h h'.symm) (by simpa using hr) ?_ (by simp)]
      · simp
      · cases t with
        | nil => simp
        | cons e t => rwa [List.getLast?_cons_cons] at he

/-- The lines of a text without carriage returns that does not end in a newline. -/
theorem joinNl_rlines {t : Text} (hr : '\r' ∉ t) (he : t.getLast? ≠ some '\n') : joinNl (rlines t) = t := by
  cases t with
  | nil => rfl
  | cons d t => rw [rlines, rlinesFrom_join _ _ (by simp) (by simpa using hr) he (by simp), List.nil_append, joinNl_splitAt]

/-- The text, with or without a newline at its end (without only if it does not end in one). -/
def Ended (t s : Text) : Prop := s = t ++ ['\n'] ∨ (s = t ∧ t.getLast? ≠ some '\n')

theorem joinNl_ended {t s : Text} (hr : '\r' ∉ t) (h : Ended t s) : joinNl (rlines s) = t := by
  rcases h with rfl | ⟨rfl, h⟩
  · rw [rlines_append, map_stripCr hr, show rlines [] = [] by rfl, List.append_nil, joinNl_splitAt]
  · exact joinNl_rlines hr h

/-- A source file with code section `c` and cells section `csv`. -/
theorem split_source (c sep csv t : Text) (hc : '\r' ∉ c) (hl : ∀ l ∈ splitAt '\n' c, trim l ≠ ['-', '-', '-']) (hs : trim sep = ['-', '-', '-'])
    (hn : '\n' ∉ sep) (hsr : '\r' ∉ sep) (hr : '\r' ∉ csv) (he : Ended csv t) :
    (SourceCode.new (c ++ '\n' :: (sep ++ '\n' :: t))).code = some c ∧ (SourceCode.new (c ++ '\n' :: (sep ++ '\n' :: t))).csv = csv ∧
    (SourceCode.new (c ++ '\n' :: (sep ++ '\n' :: t))).lenCode = (splitAt '\n' c).length + 1 := by
  have hsep : splitAt '\n' sep = [sep] := by
    have := splitAt_joinNl [sep] (by simp) (by simpa using hn)
    simpa [joinNl, List.intercalate] using this
  have hlines : rlines (c ++ '\n' :: (sep ++ '\n' :: t)) = splitAt '\n' c ++ sep :: rlines t := by
    rw [rlines_append, map_stripCr hc]
    have : rlines (sep ++ '\n' :: t) = sep :: rlines t := by
      rw [rlines_append, map_stripCr hsr, hsep]; rfl
    rw [this]
  have hidx : (splitAt '\n' c ++ sep :: rlines t).findIdx? isSepLine = some (splitAt '\n' c).length := by
    rw [List.findIdx?_append]
    have h1 : (splitAt '\n' c).findIdx? isSepLine = none := by
      rw [List.findIdx?_eq_none_iff]
      intro l hl'
      simpa [isSepLine] using hl l hl'
    have h2 : (sep :: rlines t).findIdx? isSepLine = some 0 := by
      rw [List.findIdx?_cons, if_pos (by simp [isSepLine, hs])]
    rw [h1, h2]; simp
  simp only [SourceCode.new, hlines, hidx]
  refine ⟨?_, ?_, ?_⟩
  · rw [List.take_left, joinNl_splitAt]
  · have : (splitAt '\n' c ++ sep :: rlines t).drop ((splitAt '\n' c).length + 1) = rlines t := by
      rw [List.drop_append, List.drop_of_length_le (by omega)]; simp
    rw [this, joinNl_ended hr he]
  · simp

end Verif.Source
