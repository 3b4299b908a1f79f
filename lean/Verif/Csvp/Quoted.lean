import Verif.Csvp.Props
/-
C04, exactly: which files with quoted fields at the end of a line are rejected.
-/
namespace Verif.Csvp
open Verif Verif.Csvp.Spec

theorem cRest_garbage (sep : Char) (v a tl : Text) (c : Char) (ha : a.all isWs = true) (hc : isWs c = false) (hs : c ≠ sep) :
    cRest sep v (a ++ c :: tl) = none := by
  induction a with
  | nil => simp [cRest, hc, hs]
  | cons d a ih =>
    simp only [List.all_cons, Bool.and_eq_true] at ha
    rw [List.cons_append]; unfold cRest; rw [if_pos ha.1]; exact ih ha.2

theorem cFields_garbage (sep : Char) (hsep : SepOk sep) (n : Nat) (f : FieldSrc) (gs : List FieldSrc) (acc : List Text) (hf : f.Ok sep)
    (hgs : ∀ g ∈ gs, g.Ok sep) {b v a : Text} (hlast : (f :: gs).getLast (by simp) = .quoted b v a) {ws : Text} {c : Char} {rest : Text} (hws : ws.all isWs = true)
    (hc : isWs c = false) (hs : c ≠ sep) (hn : gs.length < n) : cFields sep n acc (fieldsText sep f gs ++ '\n' :: (ws ++ c :: rest)) = none := by
  induction gs generalizing f acc n with
  | nil =>
    cases n with
    | zero => simp at hn
    | succ n =>
      have hq : f = .quoted b v a := hlast
      subst hq
      obtain ⟨hb, ha⟩ := hf
      unfold cFields fieldsText
      have : cField sep [] ((FieldSrc.quoted b v a).text ++ '\n' :: (ws ++ c :: rest)) = none := by
        simp only [FieldSrc.text]
        rw [List.append_assoc, cField_blank _ _ _ hb, List.cons_append, cField_quote _ _ hsep, List.append_assoc, cQuoted_doubled, List.nil_append, List.cons_append]
        unfold cQuoted
        rw [if_pos rfl, if_neg (head_ws_ne_quote a ha _ (by simp))]
        have e : a ++ '\n' :: (ws ++ c :: rest) = (a ++ '\n' :: ws) ++ c :: rest := by simp
        rw [e]
        exact cRest_garbage sep _ _ _ c (by simp only [List.all_append, List.all_cons, ha, hws]; decide) hc hs
      rw [this]
  | cons g gs ih =>
    cases n with
    | zero => simp at hn
    | succ n =>
      unfold cFields fieldsText
      rw [List.append_assoc, List.cons_append, cField_src_sep sep hsep f hf]
      exact ih n g (acc ++ [f.value]) (hgs g (by simp)) (fun g hg => hgs g (by simp [hg])) (by simpa using hlast) (by simp at hn; omega)

/-- C04, what is rejected: a line that ends in a quoted field, if what follows (after blank lines and blanks) does not begin with a separator. -/
theorem C04_rejected (cfg : Config) (hsep : SepOk cfg.sep) (k : Nat) (lines : List Item) (hl : ∀ i ∈ lines, i.Ok cfg.sep) (f : FieldSrc) (fs : List FieldSrc)
    (hf : f.text.head? ≠ some '#') (hok : f.Ok cfg.sep) (hoks : ∀ g ∈ fs, g.Ok cfg.sep) {b v a : Text} (hlast : (f :: fs).getLast (by simp) = .quoted b v a)
    {ws : Text} {c : Char} {rest : Text} (hws : ws.all isWs = true) (hc : isWs c = false) (hs : c ≠ cfg.sep)
    (hhead : (lines.flatMap (Item.text cfg.sep) ++ (fieldsText cfg.sep f fs ++ '\n' :: (ws ++ c :: rest))).head? ≠ some '\n') :
    values (parse cfg (List.replicate k '\n' ++ (lines.flatMap (Item.text cfg.sep) ++ (fieldsText cfg.sep f fs ++ '\n' :: (ws ++ c :: rest))))) = none := by
  rw [values_parse, cParse_items cfg.sep hsep k lines hl _ hhead]
  have hh := fieldsText_head cfg.sep f fs ('\n' :: (ws ++ c :: rest)) hsep hf (by simp)
  unfold cRecords
  rw [if_neg hh, cFields_garbage cfg.sep hsep _ f fs [] hok hoks hlast hws hc hs]
  · rfl
  · have := fieldsText_length cfg.sep f fs
    simp only [List.length_append, List.length_cons]
    omega

theorem fieldsText_quoted (sep : Char) (v : Text) (vs : List Text) :
    fieldsText sep (.quoted [] v []) (vs.map fun w => .quoted [] w []) = List.intercalate [sep] ((v :: vs).map quote) := by
  rw [fieldsText_intercalate, List.map_cons, List.map_map]
  rfl

/-- A line of quoted fields with its newline, as one record in which the newline belongs to the blanks after the last field. -/
theorem quoted_line (sep : Char) (v : Text) (vs : List Text) : ∃ (f : FieldSrc) (fs : List FieldSrc),
    fieldsText sep f fs = List.intercalate [sep] ((v :: vs).map quote) ++ ['\n'] ∧ (∀ g ∈ f :: fs, g.Ok sep) ∧ (∀ g ∈ f :: fs, ∃ b w a, g = .quoted b w a) ∧
      f.text.head? = some '"' ∧ f.value :: fs.map FieldSrc.value = (v :: vs).map trim := by
  induction vs generalizing v with
  | nil =>
    refine ⟨.quoted [] v ['\n'], [], ?_, ?_, ?_, rfl, rfl⟩
    · simp [fieldsText, FieldSrc.text, List.intercalate, quote]
    · intro g hg; rw [List.mem_singleton.mp hg]; exact ⟨rfl, rfl⟩
    · intro g hg; exact ⟨_, _, _, List.mem_singleton.mp hg⟩
  | cons w vs ih =>
    obtain ⟨f, fs, e1, e2, e3, -, e5⟩ := ih w
    refine ⟨.quoted [] v [], f :: fs, ?_, ?_, ?_, rfl, ?_⟩
    · rw [fieldsText, e1]
      simp [FieldSrc.text, List.intercalate, quote]
    · intro g hg
      rcases List.mem_cons.mp hg with rfl | hg
      · exact ⟨rfl, rfl⟩
      · exact e2 g hg
    · intro g hg
      rcases List.mem_cons.mp hg with rfl | hg
      · exact ⟨_, _, _, rfl⟩
      · exact e3 g hg
    · rw [List.map_cons, e5]; rfl

/-- C04 for grids with all values quoted: a grid of at most one row is read back, every other grid is rejected. -/
theorem C04_all_quoted (cfg : Config) (hsep : SepOk cfg.sep) (rows : List (List Text)) (h : ∀ r ∈ rows, r ≠ [] ∧ ∀ v ∈ r, trim v = v) :
    values (parse cfg (csvText cfg.sep (rows.map (·.map quote)))) = if rows.length ≤ 1 then some rows else none := by
  match rows, h with
  | [], _ => rfl
  | [v :: vs], h =>
    have ht := (h (v :: vs) (by simp)).2
    obtain ⟨f, fs, e1, e2, e3, e4, e5⟩ := quoted_line cfg.sep v vs
    have e : csvText cfg.sep ([v :: vs].map (·.map quote)) = fieldsText cfg.sep f fs := by
      rw [e1]; simp [csvText]
    have := C04_quoted_partial cfg hsep 0 [] (by simp) f fs (by rw [e4]; decide) (e2 f (by simp)) (fun g hg => e2 g (by simp [hg]))
      (fun ps hps => by obtain ⟨b, w, a, hq⟩ := e3 _ (List.getLast_mem (by simp)); rw [hq] at hps; cases hps)
      (by rw [e1]; cases vs <;> simp [List.intercalate, quote])
    rw [e, if_pos (by simp)]
    simp only [List.replicate_zero, List.nil_append, List.flatMap_nil] at this
    rw [this, e5]
    have : (v :: vs).map trim = v :: vs := by
      conv => rhs; rw [← List.map_id (v :: vs)]
      exact List.map_congr_left fun w hw => ht w hw
    rw [this]
  | [] :: _, h => exact absurd rfl (h [] (by simp)).1
  | (v :: vs) :: [] :: _, h => exact absurd rfl (h [] (by simp)).1
  | (v :: vs) :: (w :: ws) :: rest, h =>
    have hlast : ∃ x, (FieldSrc.quoted [] v [] :: vs.map fun w => FieldSrc.quoted [] w []).getLast (by simp) = .quoted [] x [] := by
      have := List.getLast_mem (l := FieldSrc.quoted [] v [] :: vs.map fun w => FieldSrc.quoted [] w []) (by simp)
      rcases List.mem_cons.mp this with e | e
      · exact ⟨v, e⟩
      · obtain ⟨x, -, hx⟩ := List.mem_map.mp e
        exact ⟨x, hx.symm⟩
    obtain ⟨x, hx⟩ := hlast
    have hnext : ∃ tl, csvText cfg.sep (((w :: ws) :: rest).map (·.map quote)) = '"' :: tl := by
      simp only [csvText, List.map_cons, List.flatMap_cons, quote]
      cases ws <;> exact ⟨_, rfl⟩
    obtain ⟨tl, htl⟩ := hnext
    have e : csvText cfg.sep (((v :: vs) :: (w :: ws) :: rest).map (·.map quote)) =
        fieldsText cfg.sep (.quoted [] v []) (vs.map fun w => .quoted [] w []) ++ '\n' :: ([] ++ '"' :: tl) := by
      rw [fieldsText_quoted, List.nil_append, ← htl]
      simp [csvText]
    rw [e]
    have := C04_rejected cfg hsep 0 [] (by simp) (.quoted [] v []) (vs.map fun w => .quoted [] w []) (by simp [FieldSrc.text]) ⟨rfl, rfl⟩
      (by intro g hg; obtain ⟨w, -, rfl⟩ := List.mem_map.mp hg; exact ⟨rfl, rfl⟩) hx (ws := []) (c := '"') (rest := tl) rfl (by decide) (Ne.symm hsep.2.2.2)
      (by rw [fieldsText_quoted]; cases vs <;> simp [List.intercalate, quote])
    simpa using this

/-- `x⏎a,"b, c"⏎⏎d`: the quoted field in the second line makes the file unreadable. -/
example : values (parse ⟨',', 0⟩ "x\na,\"b, c\"\n\nd".toList) = none :=
  C04_rejected ⟨',', 0⟩ (by decide) 0 [.record (.plain [.ch 'x']) []] (by decide) (.plain [.ch 'a']) [.quoted [] "b, c".toList []] (by decide) (by decide) (by decide) (b := []) (a := []) rfl
    (ws := ['\n']) (c := 'd') (rest := []) (by decide) (by decide) (by decide) (by decide)

example : values (parse ⟨',', 0⟩ (csvText ',' ([["a,b".toList, "say \"hi\"".toList]].map (·.map quote)))) = some [["a,b".toList, "say \"hi\"".toList]] :=
  C04_all_quoted ⟨',', 0⟩ (by decide) _ (by decide)

end Verif.Csvp
