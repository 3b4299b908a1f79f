import Verif.Csvp.Core
/- Helper lemmas: parsing written-down grids. -/
namespace Verif.Csvp
open Verif Verif.Csvp.Spec

theorem trimStart_cons (c : Char) (s : Text) :
    trimStart (c :: s) = if isWs c then trimStart s else c :: s := by
  unfold trimStart; rw [List.dropWhile_cons]

theorem trim_trimStart (s : Text) : trim (trimStart s) = trim s := by
  unfold trim; congr 1
  induction s with
  | nil => rfl
  | cons c s ih =>
    rw [trimStart_cons]; split
    · exact ih
    · rename_i h; rw [trimStart_cons, if_neg h]

theorem trimStart_nil_of_ws (s : Text) (h : ∀ c ∈ s, isWs c = true) : trimStart s = [] := by
  induction s with
  | nil => rfl
  | cons c s ih =>
    rw [trimStart_cons, if_pos (h c (by simp))]; exact ih fun d hd => h d (by simp [hd])

theorem trim_nil : trim [] = [] := rfl

theorem cUnquoted_cont (sep : Char) (v cs : Text) :
    cUnquoted sep v ('\\' :: '\n' :: cs) = cUnquoted sep v cs := by
  conv => lhs; unfold cUnquoted
  simp

theorem cUnquoted_ch (sep : Char) (v : Text) (c : Char) (cs : Text)
    (h : ¬ (c = '\\' ∧ cs.head? = some '\n')) (hs : c ≠ sep) (hn : c ≠ '\n') :
    cUnquoted sep v (c :: cs) = cUnquoted sep (v ++ [c]) cs := by
  conv => lhs; unfold cUnquoted
  rw [if_neg h, if_neg hs, if_neg hn]

theorem cUnquoted_sep (sep : Char) (v cs : Text) (h : SepOk sep) :
    cUnquoted sep v (sep :: cs) = some (.some, trim v, cs) := by
  unfold cUnquoted
  rw [if_neg (fun x => h.2.1 x.1), if_pos rfl]

theorem _root_.Verif.Csvp.Spec.SepOk.ne_nl {sep : Char} (h : SepOk sep) : sep ≠ '\n' := by
  rintro rfl; exact absurd h.1 (by decide)

theorem cUnquoted_nl (sep : Char) (v cs : Text) (h : SepOk sep) :
    cUnquoted sep v ('\n' :: cs) = some (.last, trim v, cs) := by
  unfold cUnquoted
  rw [if_neg (by simp), if_neg (Ne.symm h.ne_nl), if_pos rfl]

theorem cUnquoted_nil (sep : Char) (v : Text) : cUnquoted sep v [] = some (.last, trim v, []) := by
  unfold cUnquoted; rfl

/-- A piece list that can be followed by `tl`: not a bare backslash before a newline. -/
def Joins (ps : List Piece) (tl : Text) : Prop :=
  ¬ (ps.getLast? = some (.ch '\\') ∧ tl.head? = some '\n')

theorem Joins.tail {p q ps tl} (h : Joins (p :: q :: ps) tl) : Joins (q :: ps) tl := by
  unfold Joins at *; rwa [List.getLast?_cons_cons] at h

theorem joins_nil (tl : Text) : Joins [] tl := by simp [Joins]

theorem Joins.tail' {p ps tl} (h : Joins (p :: ps) tl) : Joins ps tl := by
  cases ps with
  | nil => exact joins_nil _
  | cons q ps => exact h.tail

theorem head_pieces (ps : List Piece) (tl : Text) (hn : '\n' ∉ ps.flatMap Piece.chars)
    (hne : ps ≠ []) : (ps.flatMap Piece.text ++ tl).head? ≠ some '\n' := by
  cases ps with
  | nil => exact absurd rfl hne
  | cons p ps =>
    cases p with
    | ch c => simp [Piece.text, Piece.chars] at *; exact fun h => hn.1 h.symm
    | cont => simp [Piece.text]

theorem not_cont_pieces {c ps tl} (hj : Joins (.ch c :: ps) tl)
    (hn : '\n' ∉ ps.flatMap Piece.chars) :
    ¬ (c = '\\' ∧ (ps.flatMap Piece.text ++ tl).head? = some '\n') := by
  rintro ⟨rfl, h⟩
  cases ps with
  | nil => exact hj ⟨rfl, by simpa using h⟩
  | cons q ps => exact head_pieces (q :: ps) tl hn (by simp) h

theorem cUnquoted_pieces (sep : Char) (ps : List Piece) (v tl : Text)
    (hs : sep ∉ ps.flatMap Piece.chars) (hn : '\n' ∉ ps.flatMap Piece.chars) (hj : Joins ps tl) :
    cUnquoted sep v (ps.flatMap Piece.text ++ tl) = cUnquoted sep (v ++ ps.flatMap Piece.chars) tl := by
  induction ps generalizing v with
  | nil => simp
  | cons p ps ih =>
    cases p with
    | cont =>
      simp only [List.flatMap_cons, Piece.text, Piece.chars, List.cons_append, List.nil_append,
        List.append_assoc] at *
      rw [cUnquoted_cont]; exact ih v hs hn hj.tail'
    | ch c =>
      simp only [List.flatMap_cons, Piece.text, Piece.chars, List.cons_append, List.nil_append,
        List.append_assoc, List.mem_cons, not_or] at *
      rw [cUnquoted_ch _ _ _ _ (not_cont_pieces hj hn.2) (Ne.symm hs.1) (Ne.symm hn.1),
        ih _ hs.2 hn.2 hj.tail']
      simp

theorem cField_ws (sep : Char) (c : Char) (cs : Text) (h : isWs c = true) (hn : c ≠ '\n') :
    cField sep [] (c :: cs) = cField sep [] cs := by
  conv => lhs; unfold cField
  rw [if_pos ⟨hn, h⟩]

theorem cField_cont (sep : Char) (cs : Text) (hs : SepOk sep) :
    cField sep [] ('\\' :: '\n' :: cs) = cField sep [] cs := by
  conv => lhs; unfold cField
  rw [if_neg (by decide), if_neg (Ne.symm hs.2.1), if_neg (by decide), if_pos ⟨rfl, rfl⟩]; rfl

theorem cField_ch (sep : Char) (c : Char) (cs : Text) (h : isWs c = false) (hs : c ≠ sep)
    (hc : ¬ (c = '\\' ∧ cs.head? = some '\n')) (hq : c ≠ '"') :
    cField sep [] (c :: cs) = cUnquoted sep [c] cs := by
  conv => lhs; unfold cField
  have hn : c ≠ '\n' := by rintro rfl; exact absurd h (by decide)
  rw [if_neg (by simp [h]), if_neg hs, if_neg hn, if_neg hc, if_neg hq]; rfl

theorem cField_sep (sep : Char) (cs : Text) (h : SepOk sep) :
    cField sep [] (sep :: cs) = some (.some, [], cs) := by
  unfold cField
  rw [if_neg (by simp [h.1]), if_pos rfl]; rfl

theorem cField_nl (sep : Char) (cs : Text) (h : SepOk sep) :
    cField sep [] ('\n' :: cs) = some (.last, [], cs) := by
  unfold cField
  rw [if_neg (by simp), if_neg (Ne.symm h.ne_nl), if_pos rfl]; rfl

theorem cField_nil (sep : Char) : cField sep [] [] = some (.eof, [], []) := by unfold cField; rfl

theorem cField_pieces (sep : Char) (hsep : SepOk sep) (ps : List Piece) (tl : Text)
    (hok : PlainOk sep ps) (hj : Joins ps tl) :
    cField sep [] (ps.flatMap Piece.text ++ tl) =
      if trimStart (ps.flatMap Piece.chars) = [] then cField sep [] tl
      else cUnquoted sep (trimStart (ps.flatMap Piece.chars)) tl := by
  induction ps with
  | nil => rw [if_pos (by rfl)]; rfl
  | cons p ps ih =>
    obtain ⟨h1, h2, h3⟩ := hok
    cases p with
    | cont =>
      simp only [List.flatMap_cons, Piece.text, Piece.chars, List.cons_append, List.nil_append,
        List.append_assoc] at *
      rw [cField_cont _ _ hsep]; exact ih ⟨h1, h2, h3⟩ hj.tail'
    | ch c =>
      simp only [List.flatMap_cons, Piece.text, Piece.chars, List.cons_append, List.nil_append,
        List.append_assoc, List.mem_cons, not_or] at *
      rw [trimStart_cons] at h3 ⊢
      by_cases hw : isWs c = true
      · rw [if_pos hw] at h3 ⊢
        rw [cField_ws _ _ _ hw (Ne.symm h2.1)]
        exact ih ⟨h1.2, h2.2, h3⟩ hj.tail'
      · rw [if_neg hw] at h3 ⊢
        rw [if_neg (by simp), cField_ch _ _ _ (by simpa using hw) (Ne.symm h1.1)
          (not_cont_pieces hj h2.2) (by simpa using h3),
          cUnquoted_pieces _ _ _ _ h1.2 h2.2 hj.tail']
        rfl

theorem cField_blank (sep : Char) (b cs : Text) (h : b.all (fun c => isWs c && c != '\n') = true) :
    cField sep [] (b ++ cs) = cField sep [] cs := by
  induction b with
  | nil => rfl
  | cons c b ih =>
    simp only [List.all_cons, Bool.and_eq_true, bne_iff_ne] at h
    rw [List.cons_append, cField_ws _ _ _ h.1.1 h.1.2]; exact ih h.2

theorem cField_quote (sep : Char) (cs : Text) (h : SepOk sep) :
    cField sep [] ('"' :: cs) = cQuoted sep false [] cs := by
  conv => lhs; unfold cField
  rw [if_neg (by decide), if_neg (Ne.symm h.2.2.2), if_neg (by decide), if_neg (by simp), if_pos rfl]

theorem cQuoted_doubled (sep : Char) (c v tl : Text) :
    cQuoted sep false v (doubled c ++ tl) = cQuoted sep false (v ++ c) tl := by
  induction c generalizing v with
  | nil => simp [doubled]
  | cons d c ih =>
    unfold doubled
    split
    · rename_i hd; subst hd
      rw [List.cons_append, List.cons_append]
      conv => lhs; unfold cQuoted
      simp only [if_true, List.head?_cons]
      conv => lhs; unfold cQuoted
      rw [ih]; simp
    · rename_i hd
      rw [List.cons_append]
      conv => lhs; unfold cQuoted
      rw [if_neg hd, ih]; simp

theorem cRest_sep (sep : Char) (h : SepOk sep) (v a tl : Text) (ha : a.all isWs = true) :
    cRest sep v (a ++ sep :: tl) = some (.some, trim v, tl) := by
  induction a with
  | nil => simp [cRest, h.1]
  | cons c a ih =>
    simp only [List.all_cons, Bool.and_eq_true] at ha
    rw [List.cons_append]; unfold cRest; rw [if_pos ha.1]; exact ih ha.2

theorem cRest_eof (sep : Char) (v a : Text) (ha : a.all isWs = true) :
    cRest sep v a = some (.last, trim v, []) := by
  induction a with
  | nil => rfl
  | cons c a ih =>
    simp only [List.all_cons, Bool.and_eq_true] at ha
    unfold cRest; rw [if_pos ha.1]; exact ih ha.2

theorem head_ws_ne_quote (a : Text) (ha : a.all isWs = true) (tl : Text) (ht : tl.head? ≠ some '"') :
    (a ++ tl).head? ≠ some '"' := by
  cases a with
  | nil => exact ht
  | cons c a =>
    simp at *
    rintro rfl; exact absurd ha.1 (by decide)

/-- A field followed by a separator. -/
theorem cField_src_sep (sep : Char) (hsep : SepOk sep) (f : FieldSrc) (hf : f.Ok sep) (rest : Text) :
    cField sep [] (f.text ++ sep :: rest) = some (.some, f.value, rest) := by
  cases f with
  | plain ps =>
    have hj : Joins ps (sep :: rest) := fun h => hsep.ne_nl (by simpa using h.2)
    simp only [FieldSrc.text, FieldSrc.value]
    rw [cField_pieces sep hsep ps _ hf hj, ← trim_trimStart]
    split
    · rename_i h; rw [h, cField_sep _ _ hsep]; rfl
    · rw [cUnquoted_sep _ _ _ hsep]
  | quoted b c a =>
    obtain ⟨hb, ha⟩ := hf
    simp only [FieldSrc.text, FieldSrc.value]
    rw [List.append_assoc, cField_blank _ _ _ hb, List.cons_append, cField_quote _ _ hsep,
      List.append_assoc, cQuoted_doubled, List.nil_append, List.cons_append]
    unfold cQuoted
    rw [if_pos rfl, if_neg (head_ws_ne_quote a ha _ (by simpa using hsep.2.2.2)),
      cRest_sep _ hsep _ _ _ ha]

/-- A field at the end of a line. -/
theorem cField_src_nl (sep : Char) (hsep : SepOk sep) (f : FieldSrc) (hf : f.Ok sep) (he : f.EndOk)
    (rest : Text) : cField sep [] (f.text ++ '\n' :: rest) = some (.last, f.value, rest) := by
  cases f with
  | quoted b c a => exact he.elim
  | plain ps =>
    have hj : Joins ps ('\n' :: rest) := fun h => he h.1
    simp only [FieldSrc.text, FieldSrc.value]
    rw [cField_pieces sep hsep ps _ hf hj, ← trim_trimStart]
    split
    · rename_i h; rw [h, cField_nl _ _ hsep]; rfl
    · rw [cUnquoted_nl _ _ _ hsep]

/-- A field at the end of the text. -/
theorem cField_src_eof (sep : Char) (hsep : SepOk sep) (f : FieldSrc) (hf : f.Ok sep)
    (hne : ∀ ps, f = .plain ps → trimStart (ps.flatMap Piece.chars) ≠ []) :
    cField sep [] f.text = some (.last, f.value, []) := by
  cases f with
  | plain ps =>
    have hj : Joins ps [] := fun h => by simpa using h.2
    have := cField_pieces sep hsep ps [] hf hj
    rw [List.append_nil] at this
    simp only [FieldSrc.text, FieldSrc.value]
    rw [this, if_neg (hne ps rfl), cUnquoted_nil, trim_trimStart]
  | quoted b c a =>
    obtain ⟨hb, ha⟩ := hf
    simp only [FieldSrc.text, FieldSrc.value]
    rw [cField_blank _ _ _ hb, cField_quote _ _ hsep, cQuoted_doubled, List.nil_append]
    unfold cQuoted
    rw [if_pos rfl, if_neg (by simpa using head_ws_ne_quote a ha [] (by simp)), cRest_eof _ _ _ ha]

/-! ### records -/

theorem cFields_nl (sep : Char) (hsep : SepOk sep) (n : Nat) (f : FieldSrc) (gs : List FieldSrc)
    (acc : List Text) (rest : Text) (hf : f.Ok sep) (hgs : ∀ g ∈ gs, g.Ok sep)
    (he : ((f :: gs).getLast (by simp)).EndOk) (hn : gs.length < n) :
    cFields sep n acc (fieldsText sep f gs ++ '\n' :: rest) =
      some (some (acc ++ f.value :: gs.map FieldSrc.value), rest) := by
  induction gs generalizing f acc n with
  | nil =>
    cases n with
    | zero => simp at hn
    | succ n =>
      unfold cFields fieldsText
      rw [cField_src_nl sep hsep f hf he]; rfl
  | cons g gs ih =>
    cases n with
    | zero => simp at hn
    | succ n =>
      unfold cFields fieldsText
      rw [List.append_assoc, List.cons_append, cField_src_sep sep hsep f hf]
      have := ih n g (acc ++ [f.value]) (hgs g (by simp)) (fun g hg => hgs g (by simp [hg]))
        (by simpa using he) (by simp at hn; omega)
      simpa using this

theorem cFields_eof (sep : Char) (hsep : SepOk sep) (n : Nat) (f : FieldSrc) (gs : List FieldSrc)
    (acc : List Text) (hf : f.Ok sep) (hgs : ∀ g ∈ gs, g.Ok sep)
    (hne : ∀ ps, (f :: gs).getLast (by simp) = .plain ps → trimStart (ps.flatMap Piece.chars) ≠ [])
    (hn : gs.length < n) :
    cFields sep n acc (fieldsText sep f gs) =
      some (some (acc ++ f.value :: gs.map FieldSrc.value), []) := by
  induction gs generalizing f acc n with
  | nil =>
    cases n with
    | zero => simp at hn
    | succ n =>
      unfold cFields fieldsText
      rw [cField_src_eof sep hsep f hf hne]; rfl
  | cons g gs ih =>
    cases n with
    | zero => simp at hn
    | succ n =>
      unfold cFields fieldsText
      rw [cField_src_sep sep hsep f hf]
      have := ih n g (acc ++ [f.value]) (hgs g (by simp)) (fun g hg => hgs g (by simp [hg]))
        (fun ps h => hne ps (by simpa using h)) (by simp at hn; omega)
      simpa using this

theorem fieldsText_length (sep : Char) (f : FieldSrc) (gs : List FieldSrc) :
    gs.length ≤ (fieldsText sep f gs).length := by
  induction gs generalizing f with
  | nil => simp
  | cons g gs ih => unfold fieldsText; have := ih g; simp; omega

theorem ignoreLine'_comment (t rest : Text) (h : '\n' ∉ t) :
    ignoreLine' (t ++ '\n' :: rest) = rest := by
  induction t with
  | nil => simp [ignoreLine']
  | cons c t ih =>
    simp at h
    rw [List.cons_append]; unfold ignoreLine'
    rw [if_neg (fun x => h.1 x.symm)]; exact ih h.2

theorem fieldsText_head (sep : Char) (f : FieldSrc) (gs : List FieldSrc) (tl : Text)
    (hs : SepOk sep) (hf : f.text.head? ≠ some '#') (ht : tl.head? ≠ some '#') :
    (fieldsText sep f gs ++ tl).head? ≠ some '#' := by
  cases gs with
  | nil =>
    unfold fieldsText
    cases h : f.text with
    | nil => exact ht
    | cons c s => rw [h] at hf; simpa using hf
  | cons g gs =>
    unfold fieldsText
    cases h : f.text with
    | nil => simpa using hs.2.2.1
    | cons c s => rw [h] at hf; simpa using hf

/-- One well-written line consumes one round of the record loop. -/
theorem cRecords_item (sep : Char) (hsep : SepOk sep) (n : Nat) (acc : List (List Text)) (i : Item)
    (hi : i.Ok sep) (rest : Text) :
    cRecords sep (n + 1) acc (i.text sep ++ rest) = cRecords sep n (acc ++ i.values) rest := by
  cases i with
  | comment t =>
    simp only [Item.text]
    conv => lhs; unfold cRecords
    rw [if_pos (by rfl)]
    have : ignoreLine' ('#' :: (t ++ ['\n']) ++ rest) = rest := by
      have := ignoreLine'_comment ('#' :: t) rest (by have hi : '\n' ∉ t := hi; simpa using hi)
      simpa using this
    rw [this]; simp [Item.values]
  | record f gs =>
    obtain ⟨h1, h2, h3, h4⟩ := hi
    simp only [Item.text]
    conv => lhs; unfold cRecords
    rw [List.append_assoc, if_neg (fieldsText_head sep f gs _ hsep h1 (by simp))]
    have hl := fieldsText_length sep f gs
    have := cFields_nl sep hsep ((fieldsText sep f gs ++ ('\n' :: rest)).length + 1) f gs [] rest h2 h3 h4
      (by simp; omega)
    have e : ['\n'] ++ rest = '\n' :: rest := rfl
    rw [e, this]; simp [Item.values]

theorem cRecords_items (sep : Char) (hsep : SepOk sep) (n : Nat) (acc : List (List Text))
    (is : List Item) (hi : ∀ i ∈ is, i.Ok sep) (rest : Text) :
    cRecords sep (n + is.length) acc (is.flatMap (Item.text sep) ++ rest) =
      cRecords sep n (acc ++ is.flatMap Item.values) rest := by
  induction is generalizing acc with
  | nil => simp
  | cons i is ih =>
    rw [List.length_cons, ← Nat.add_assoc, List.flatMap_cons, List.append_assoc,
      cRecords_item sep hsep _ _ i (hi i (by simp)), ih _ (fun i h => hi i (by simp [h]))]
    simp

/-! ### fuel -/

theorem cRest_len (sep : Char) (v cs : Text) {k v' r} (h : cRest sep v cs = some (k, v', r)) :
    r.length ≤ cs.length := by
  induction cs with
  | nil => simp [cRest] at h; simp [h.2.2.symm]
  | cons c cs ih =>
    unfold cRest at h
    split at h
    · have := ih h; simp; omega
    · split at h
      · simp at h; simp [h.2.2.symm]
      · simp at h

theorem cQuoted_len (sep : Char) (e : Bool) (v cs : Text) {k v' r}
    (h : cQuoted sep e v cs = some (k, v', r)) : r.length ≤ cs.length := by
  induction cs generalizing e v with
  | nil => cases e <;> simp [cQuoted] at h; simp [h.2.2.symm]
  | cons c cs ih =>
    cases e
    · unfold cQuoted at h
      split at h
      · split at h
        · have := ih _ _ h; simp; omega
        · have := cRest_len _ _ _ h; simp; omega
      · have := ih _ _ h; simp; omega
    · unfold cQuoted at h; have := ih _ _ h; simp; omega

theorem cUnquoted_len (sep : Char) (v cs : Text) {k v' r}
    (h : cUnquoted sep v cs = some (k, v', r)) : r.length ≤ cs.length := by
  fun_induction cUnquoted sep v cs with
  | case1 => simp at h; simp [h.2.2.symm]
  | case2 v c cs hc ih => have := ih h; simp at *; omega
  | case3 => simp at h; simp [h.2.2.symm]
  | case4 => simp at h; simp [h.2.2.symm]
  | case5 v c cs _ _ _ ih => have := ih h; simp; omega

theorem cField_len (sep : Char) (v cs : Text) {k v' r}
    (h : cField sep v cs = some (k, v', r)) (hk : k ≠ .eof) : r.length < cs.length := by
  fun_induction cField sep v cs with
  | case1 => simp at h; exact absurd h.1.symm hk
  | case2 c cs hc ih => have := ih h; simp; omega
  | case3 => simp at h; simp [h.2.2.symm]
  | case4 => simp at h; simp [h.2.2.symm]
  | case5 c cs _ _ _ hc ih => have := ih h; simp at *; omega
  | case6 => have := cQuoted_len _ _ _ _ h; simp at *; omega
  | case7 => have := cUnquoted_len _ _ _ h; simp at *; omega

theorem cFields_len (sep : Char) (n : Nat) (acc : List Text) (cs : Text) {l r}
    (h : cFields sep n acc cs = some (some l, r)) : r.length < cs.length ∨ (acc ≠ [] ∧ r = []) := by
  induction n generalizing acc cs with
  | zero => simp [cFields] at h
  | succ n ih =>
    unfold cFields at h
    split at h
    · simp at h
    · rename_i hc
      have := cField_len _ _ _ hc (by simp)
      rcases ih _ _ h with h | h
      · left; omega
      · left; rw [h.2]; simp; omega
    · rename_i hc
      have := cField_len _ _ _ hc (by simp)
      simp at h; left; rw [← h.2]; exact this
    · split at h
      · simp at h
      · simp at h; right; rename_i hh; exact ⟨by simpa using hh, h.2⟩

theorem ignoreLine'_len (cs : Text) (h : cs ≠ []) : (ignoreLine' cs).length < cs.length := by
  induction cs with
  | nil => exact absurd rfl h
  | cons c cs ih =>
    unfold ignoreLine'
    split
    · simp
    · cases cs with
      | nil => simp [ignoreLine']
      | cons d cs => have := ih (by simp); simp at *; omega

theorem cRecords_fuel (sep : Char) (n m : Nat) (acc : List (List Text)) (cs : Text)
    (hn : cs.length < n) (hm : cs.length < m) : cRecords sep n acc cs = cRecords sep m acc cs := by
  induction n generalizing m acc cs with
  | zero => omega
  | succ n ih =>
    cases m with
    | zero => omega
    | succ m =>
      unfold cRecords
      split
      · rename_i h
        have := ignoreLine'_len cs (by rintro rfl; simp at h)
        exact ih m _ _ (by omega) (by omega)
      · split
        · rfl
        · rfl
        · rename_i hc
          rcases cFields_len _ _ _ _ hc with h | h
          · exact ih m _ _ (by omega) (by omega)
          · exact absurd rfl h.1

theorem cRecords_acc (sep : Char) (n : Nat) (acc : List (List Text)) (cs : Text) :
    cRecords sep n acc cs = (cRecords sep n [] cs).map (acc ++ ·) := by
  induction n generalizing acc cs with
  | zero => rfl
  | succ n ih =>
    unfold cRecords
    split
    · exact ih _ _
    · split
      · rfl
      · simp
      · rw [ih (acc ++ _), ih ([] ++ _)]; cases cRecords sep n [] _ <;> simp

theorem Item.text_length (sep : Char) (i : Item) : 1 ≤ (i.text sep).length := by
  cases i <;> simp [Item.text]

theorem flatMap_item_length (sep : Char) (is : List Item) :
    is.length ≤ (is.flatMap (Item.text sep)).length := by
  induction is with
  | nil => simp
  | cons i is ih => have := Item.text_length sep i; rw [List.flatMap_cons, List.length_append, List.length_cons]; omega

/-- Parsing well-written lines followed by anything. -/
theorem cParse_items (sep : Char) (hsep : SepOk sep) (k : Nat) (is : List Item)
    (hi : ∀ i ∈ is, i.Ok sep) (rest : Text)
    (hh : (is.flatMap (Item.text sep) ++ rest).head? ≠ some '\n') :
    cParse sep (List.replicate k '\n' ++ (is.flatMap (Item.text sep) ++ rest)) =
      (cRecords sep (rest.length + 1) [] rest).map (is.flatMap Item.values ++ ·) := by
  have hdrop : (List.replicate k '\n' ++ (is.flatMap (Item.text sep) ++ rest)).dropWhile (· = '\n')
      = is.flatMap (Item.text sep) ++ rest := by
    induction k with
    | zero =>
      rw [List.replicate_zero, List.nil_append]
      generalize is.flatMap (Item.text sep) ++ rest = s at hh
      cases s with
      | nil => rfl
      | cons c s =>
        simp at hh
        rw [List.dropWhile_cons_of_neg (by simpa using hh)]
    | succ k ih => rw [List.replicate_succ, List.cons_append, List.dropWhile_cons_of_pos (by simp), ih]
  unfold cParse
  simp only [hdrop]
  have hlen := flatMap_item_length sep is
  have hsplit : (is.flatMap (Item.text sep) ++ rest).length + 1 =
      ((is.flatMap (Item.text sep)).length - is.length + rest.length + 1) + is.length := by
    rw [List.length_append]; omega
  rw [hsplit, cRecords_items sep hsep _ [] is hi rest, cRecords_acc,
    cRecords_fuel sep _ (rest.length + 1) [] rest (by omega) (by omega)]
  simp

end Verif.Csvp
