import Verif.Csvp.Render
/- Helper lemmas connecting the parser lemmas to the statements in `Verif.Csvp.Props`. -/
namespace Verif.Csvp
open Verif Verif.Csvp.Spec

/-- The position the code reports, in closed form. -/
def Reported (above : Nat) (t : Text) (p : SrcPos) (i : Nat) : Prop :=
  (t[i]? ≠ some '\n' → p.line = above + lineOf t i ∧
    p.off = colOf t i + (if lineOf t i = 0 then 0 else 1)) ∧
  (t[i]? = some '\n' → p.line = above + lineOf t i + 1 ∧ p.off = 0)

theorem charsAt_of_map (t : Text) (is : List Nat) (raw : Text)
    (h : is.map (fun i => t[i]?) = raw.map some) : charsAt t is = raw := by
  unfold charsAt
  induction is generalizing raw with
  | nil => cases raw <;> simp_all
  | cons i is ih =>
    cases raw with
    | nil => simp at h
    | cons c raw =>
      simp only [List.map_cons, List.cons.injEq] at h
      rw [List.filterMap_cons_some h.1, ih raw h.2]

theorem FieldIdx.readFrom {cfg t f is} (h : FieldIdx cfg t f is) :
    ReadFrom (Reported cfg.above t) t f is := by
  obtain ⟨raw, hs, hv, -⟩ := h.ex
  refine ⟨fun i hi => (hs.range i hi).2, ?_, ?_⟩
  · rw [charsAt_of_map t is raw hs.chars, hv]
  · rw [hs.pos]
    have hr : ∀ i ∈ is, i < t.length := fun i hi => (hs.range i hi).2
    clear hs hv h
    induction is with
    | nil => exact .nil
    | cons i is ih =>
      refine .cons ?_ (ih fun j hj => hr j (by simp [hj]))
      have hi := hr i (by simp)
      have hget : t[i]? = some t[i] := List.getElem?_eq_getElem hi
      rw [recPos_closed cfg t i _ hget]
      constructor
      · intro hne
        have : t[i] ≠ '\n' := fun h => hne (by rw [hget, h])
        rw [if_neg this]
        refine ⟨rfl, ?_⟩
        simp only; split <;> simp
      · intro he
        have : t[i] = '\n' := by rw [hget] at he; exact Option.some.inj he
        rw [if_pos this]; exact ⟨rfl, rfl⟩

theorem Forall₂.imp_mem {α β} {R S : α → β → Prop} {l : List α} {m : List β}
    (h : List.Forall₂ R l m) (hh : ∀ a b, R a b → S a b) : List.Forall₂ S l m := by
  induction h with
  | nil => exact .nil
  | cons a b ih => exact .cons (hh _ _ a) ih

theorem parse_idx {cfg t rs} (h : parse cfg t = .ok rs) :
    ∃ idx : List (List (List Nat)), List.Forall₂ (List.Forall₂ (FieldIdx cfg t)) rs idx ∧
      idx.flatten.flatten.Pairwise (· < ·) := by
  have := parse_post cfg t
  rw [h] at this
  obtain ⟨idx, h1, h2, -⟩ := RecsAt.idx this (Nat.le_refl _)
  exact ⟨idx, h1, h2⟩

theorem forall₂_mem_left {α β} {R : α → β → Prop} {l : List α} {m : List β}
    (h : List.Forall₂ R l m) (a : α) (ha : a ∈ l) : ∃ b ∈ m, R a b := by
  induction h with
  | nil => simp at ha
  | cons hd tl ih =>
    rename_i x y l m
    simp at ha
    rcases ha with rfl | ha
    · exact ⟨y, by simp, hd⟩
    · obtain ⟨b, h1, h2⟩ := ih ha; exact ⟨b, by simp [h1], h2⟩

theorem field_raw {cfg t rs} (h : parse cfg t = .ok rs) (r : List Field) (hr : r ∈ rs) (f : Field)
    (hf : f ∈ r) : ∃ is raw, Spells cfg t 0 t.length is raw f.positions ∧ f.value = trim raw ∧
      ('"' ∉ t → Unq cfg raw) := by
  obtain ⟨idx, h1, -⟩ := parse_idx h
  obtain ⟨ir, -, hr'⟩ := forall₂_mem_left h1 r hr
  obtain ⟨is, -, hf'⟩ := forall₂_mem_left hr' f hf
  obtain ⟨raw, h⟩ := hf'.ex
  exact ⟨is, raw, h⟩

theorem dropWhile_head {p : Char → Bool} (s : Text) (c : Char)
    (h : (s.dropWhile p).head? = some c) : p c = false := by
  induction s with
  | nil => simp at h
  | cons d s ih =>
    rw [List.dropWhile_cons] at h
    split at h
    · exact ih h
    · simp at h; subst h; simp_all

theorem trimEnd_prefix (s : Text) : trimEnd s <+: s := by
  unfold trimEnd
  have : s.reverse.dropWhile isWs <:+ s.reverse := List.dropWhile_suffix _
  have := List.reverse_prefix.mpr this
  simpa using this

theorem trim_head (s : Text) (c : Char) (h : (trim s).head? = some c) : isWs c = false := by
  unfold trim at h
  have hp := trimEnd_prefix (trimStart s)
  obtain ⟨tl, htl⟩ := hp
  have : (trimStart s).head? = some c := by
    rw [← htl, List.head?_append, h]; rfl
  exact dropWhile_head s c this

theorem trim_last (s : Text) (c : Char) (h : (trim s).getLast? = some c) : isWs c = false := by
  unfold trim trimEnd at h
  rw [List.getLast?_reverse] at h
  exact dropWhile_head _ c h

theorem trim_subset (s : Text) (c : Char) (h : c ∈ trim s) : c ∈ s := by
  have h1 : trim s <+: trimStart s := trimEnd_prefix _
  have h2 : trimStart s <:+ s := List.dropWhile_suffix _
  exact h2.subset (h1.subset h)

theorem trim_prefix_of_head (s : Text) (h : ∀ c, s.head? = some c → isWs c = false) :
    trim s <+: s := by
  have : trimStart s = s := by
    cases s with
    | nil => rfl
    | cons c s => rw [trimStart_cons, if_neg]; simpa using h c rfl
  unfold trim; rw [this]; exact trimEnd_prefix s

theorem grid_eq (cfg : Config) (t : Text) :
    grid (parse cfg t) = (values (parse cfg t)).map (addressed 0) := by
  have hp := parse_post cfg t
  revert hp
  generalize parse cfg t = x
  intro hp
  match x with
  | .error e => rfl
  | .ok rs =>
    simp only [grid, values, Option.map_some, Option.some.injEq, addressed]
    apply List.ext_getElem?
    intro y
    simp only [List.getElem?_map, List.getElem?_mapIdx, Option.map_map]
    cases hr : rs[y]? with
    | none => rfl
    | some r =>
      simp only [Option.map_some, Option.some.injEq, Function.comp]
      obtain ⟨-, l, m, hrec⟩ := RecsAt.get hp y r hr
      apply List.ext_getElem?
      intro x
      simp only [List.getElem?_map, List.getElem?_mapIdx, Option.map_map]
      cases hf : r[x]? with
      | none => rfl
      | some f =>
        have := hrec.addr x f hf
        simp only [Option.map_some, Function.comp, this, Nat.zero_add]

/-! ### plain values as pieces -/

def plainSrc (v : Text) : FieldSrc := .plain (v.map .ch)

theorem flatMap_ch_text (v : Text) : (v.map Piece.ch).flatMap Piece.text = v := by
  induction v with
  | nil => rfl
  | cons c v ih => simpa [Piece.text] using ih

theorem flatMap_ch_chars (v : Text) : (v.map Piece.ch).flatMap Piece.chars = v := by
  induction v with
  | nil => rfl
  | cons c v ih => simpa [Piece.chars] using ih

theorem plainSrc_text (v : Text) : (plainSrc v).text = v := flatMap_ch_text v

theorem plainSrc_value (v : Text) : (plainSrc v).value = trim v := by
  simp only [plainSrc, FieldSrc.value, flatMap_ch_chars]

theorem plainSrc_endOk (v : Text) : (plainSrc v).EndOk ↔ v.getLast? ≠ some '\\' := by
  simp only [plainSrc, FieldSrc.EndOk, List.getLast?_map]
  cases v.getLast? <;> simp

theorem fieldsText_intercalate (sep : Char) (f : FieldSrc) (gs : List FieldSrc) :
    fieldsText sep f gs = List.intercalate [sep] ((f :: gs).map FieldSrc.text) := by
  induction gs generalizing f with
  | nil => simp [fieldsText, List.intercalate]
  | cons g gs ih =>
    unfold fieldsText
    rw [ih]
    simp [List.intercalate]

theorem plain_items_ok (sep : Char) (rows : List (List Text))
    (hrow : ∀ r ∈ rows, r ≠ [] ∧ (∀ v ∈ r, PlainValue sep v) ∧
      (∀ v, r.head? = some v → v.head? ≠ some '#') ∧ (∀ v, r.getLast? = some v → v.getLast? ≠ some '\\')) :
    ∃ is : List Item, (∀ i ∈ is, i.Ok sep) ∧ is.flatMap (Item.text sep) = csvText sep rows ∧
      is.flatMap Item.values = rows := by
  induction rows with
  | nil => exact ⟨[], by simp, rfl, rfl⟩
  | cons r rows ih =>
    obtain ⟨is, h1, h2, h3⟩ := ih fun r hr => hrow r (by simp [hr])
    obtain ⟨hne, hv, hh, hl⟩ := hrow r (by simp)
    cases r with
    | nil => exact absurd rfl hne
    | cons v vs =>
      refine ⟨.record (plainSrc v) (vs.map plainSrc) :: is, ?_, ?_, ?_⟩
      · intro i hi
        rcases List.mem_cons.mp hi with rfl | hi
        · have hok : ∀ v, PlainValue sep v → (plainSrc v).Ok sep := by
            intro v hv
            obtain ⟨a, b, c, d⟩ := hv
            refine ⟨by rw [flatMap_ch_chars]; exact b, by rw [flatMap_ch_chars]; exact c, ?_⟩
            rw [flatMap_ch_chars]
            have : trimStart v = v := by
              cases v with
              | nil => rfl
              | cons e v =>
                rw [trimStart_cons, if_neg]
                have := trim_head (e :: v) e (by rw [a]; rfl)
                simp [this]
            rw [this]; exact d
          refine ⟨by rw [plainSrc_text]; exact hh v rfl, hok v (hv v (by simp)), ?_, ?_⟩
          · intro g hg
            obtain ⟨w, hw, rfl⟩ := List.mem_map.mp hg
            exact hok w (hv w (by simp [hw]))
          · have e : ∀ h, (plainSrc v :: vs.map plainSrc).getLast h = plainSrc ((v :: vs).getLast (by simp)) :=
              fun h => List.getLast_map (f := plainSrc) (l := v :: vs) h
            rw [e, plainSrc_endOk]
            apply hl
            rw [List.getLast?_eq_getLast_of_ne_nil (by simp)]
        · exact h1 i hi
      · rw [List.flatMap_cons, h2, csvText, csvText, List.flatMap_cons]
        simp only [Item.text, fieldsText_intercalate, List.map_cons, List.map_map, plainSrc_text]
        have : (FieldSrc.text ∘ plainSrc) = id := by funext v; exact plainSrc_text v
        rw [this]; simp
      · rw [List.flatMap_cons, h3]
        have hid : ∀ v, PlainValue sep v → (plainSrc v).value = v := fun v hv => by
          rw [plainSrc_value]; exact hv.1
        simp only [Item.values, List.map_map, List.cons_append, List.nil_append, List.cons.injEq]
        refine ⟨⟨hid v (hv v (by simp)), ?_⟩, trivial⟩
        conv => rhs; rw [← List.map_id vs]
        apply List.map_congr_left
        intro w hw
        exact hid w (hv w (by simp [hw]))

theorem eraseField_value (f : FieldSrc) : (eraseField f).value = f.value := by
  cases f with
  | quoted => rfl
  | plain ps =>
    simp only [eraseField, FieldSrc.value]
    congr 1
    induction ps with
    | nil => rfl
    | cons p ps ih => cases p <;> simp_all [Piece.chars]

theorem eraseItem_values (i : Item) : (eraseItem i).values = i.values := by
  cases i with
  | comment => rfl
  | record f fs =>
    simp only [eraseItem, Item.values, eraseField_value, List.map_map]
    congr 2
    apply List.map_congr_left
    intro g _; exact eraseField_value g

end Verif.Csvp
