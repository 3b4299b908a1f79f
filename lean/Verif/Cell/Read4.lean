import Verif.Cell.Read3
/-
Lists of values and validations as they are written.
-/
namespace Verif.Cell
open Verif.Ast Verif.Parser

theorem mDigits_rest (u : Uni) {lo hi : Nat} {d r s r' : Text} {c : Char}
    (hc : u.isD c = false) (h : mDigits u lo hi (d ++ c :: r) = some (s, r')) :
    ∃ k, r' = d.drop k ++ c :: r := by
  simp only [mDigits] at h
  split at h
  · cases h
    have hlen : (((d ++ c :: r).take hi).takeWhile u.isD).length ≤ d.length := by
      clear * - hc
      induction d generalizing hi with
      | nil =>
        cases hi with
        | zero => simp
        | succ k => simp [List.takeWhile_cons, hc]
      | cons x d ih =>
        cases hi with
        | zero => simp
        | succ k =>
          rw [List.cons_append, List.take_succ_cons, List.takeWhile_cons]
          split
          · simpa using ih
          · simp
    exact ⟨_, List.drop_append_of_le_length hlen⟩
  · cases h

theorem mLit_none {l x : Char} (h : x ≠ l) (r : Text) : mLit [l] (x :: r) = none := by
  have : [l].isPrefixOf (x :: r) = false := by
    simp [List.isPrefixOf, Ne.symm h]
  simp [mLit, this]

theorem mSeq_digits_none (u : Uni) {lo hi : Nat} {d r : Text} {c l : Char} (hd : ∀ x ∈ d, u.isD x = true)
    (hc : u.isD c = false) (hl : c ≠ l) (hl' : u.isD l = false) (b : Text → Match) :
    mSeq (mDigits u lo hi) (mSeq (mLit [l]) b) (d ++ c :: r) = none := by
  simp only [mSeq]
  cases h : mDigits u lo hi (d ++ c :: r) with
  | none => rfl
  | some x =>
    obtain ⟨s, r'⟩ := x
    obtain ⟨k, rfl⟩ := mDigits_rest u hc h
    have : mLit [l] (d.drop k ++ c :: r) = none := by
      cases hk : d.drop k with
      | nil => exact mLit_none hl _
      | cons x y =>
        have hx : x ∈ d := List.mem_of_mem_drop (i := k) (by rw [hk]; simp)
        apply mLit_none
        rintro rfl
        rw [hd _ hx] at hl'; cases hl'
    simp [this]

theorem mDate_none (u : Uni) {d r : Text} {c : Char} (hd : ∀ x ∈ d, u.isD x = true)
    (hc : u.isD c = false) (h1 : c ≠ '-') (h2 : c ≠ '/') : mDate u (d ++ c :: r) = none := by
  have e1 : mSeq (mDigits u 4 4) (mSeq (mLit "-".toList) (mSeq (mDigits u 2 2) (mSeq (mLit "-".toList)
      (mDigits u 2 2)))) (d ++ c :: r) = none := mSeq_digits_none u hd hc h1 rfl _
  have e2 : mSeq (mDigits u 1 2) (mSeq (mLit "/".toList) (mSeq (mDigits u 1 2) (mSeq (mLit "/".toList)
      (mDigits u 2 4)))) (d ++ c :: r) = none := mSeq_digits_none u hd hc h2 rfl _
  simp only [mDate, e1, e2]

theorem mDate_minus (u : Uni) (r : Text) : mDate u ('-' :: r) = none := by
  have e1 : mDigits u 4 4 ('-' :: r) = none := mDigits_short u (d := []) (by decide) rfl
  have e2 : mDigits u 1 2 ('-' :: r) = none := mDigits_short u (d := []) (by decide) rfl
  simp only [mDate, mSeq, e1, e2]

/-- A blank, a closing parenthesis or a closing bracket follows. -/
def ItemEnd (rest : Text) : Prop := ∃ c r, rest = c :: r ∧ (c = ' ' ∨ c = '\t' ∨ c = ')' ∨ c = ']')

theorem ItemEnd.ends {rest : Text} (h : ItemEnd rest) : Ends rest := by
  obtain ⟨c, r, rfl, hc⟩ := h
  refine Ends_cons ?_ _
  rcases hc with rfl | rfl | rfl | rfl
  · exact .inl rfl
  · exact .inl rfl
  · simp [Brk]
  · simp [Brk]

theorem mPlus_eq {f : Char → Bool} {m rest : Text} (hne : m ≠ []) (hm : ∀ c ∈ m, f c = true)
    (hr : NoMore f rest) : mPlus f (m ++ rest) = some (m, rest) := by
  unfold mPlus
  rw [takeWhile_noMore hm hr, dropWhile_noMore hm hr]
  cases m with
  | nil => exact absurd rfl hne
  | cons c m => rfl

theorem mPlus_none {f : Char → Bool} {c : Char} {r : Text} (h : f c = false) : mPlus f (c :: r) = none := by
  simp [mPlus, List.takeWhile_cons, h]

theorem mNumber_sign (u : Uni) {s d : Text} (hs : s = [] ∨ s = ['-']) (hne : d ≠ [])
    (hd : ∀ c ∈ d, c.isDigit = true) (r : Text) :
    mNumber u (s ++ d ++ r) = match mPlus u.isD (d ++ r) with
      | none => none
      | some (m, '.' :: r) =>
        match mPlus u.isD r with
        | some (m', r') => some (s ++ m ++ '.' :: m', r')
        | none => some (s ++ m, '.' :: r)
      | some (m, r) => some (s ++ m, r) := by
  rcases hs with rfl | rfl
  · cases d with
    | nil => exact absurd rfl hne
    | cons c d =>
      have hc : c ≠ '-' := by
        rintro rfl; have := hd '-' (by simp); cases this
      have hm : mSign (c :: d ++ r) = ([], c :: d ++ r) := by
        unfold mSign
        split
        · rename_i heq; cases heq; exact absurd rfl hc
        · rfl
      simp only [mNumber, List.nil_append, hm]
      rfl
  · rfl

theorem mNumber_int (u : Uni) {s d rest : Text} (hs : s = [] ∨ s = ['-']) (hne : d ≠ [])
    (hd : ∀ c ∈ d, c.isDigit = true) (hr : Ends rest) :
    mNumber u (s ++ d ++ rest) = some (s ++ d, rest) := by
  rw [mNumber_sign u hs hne hd, mPlus_eq hne (fun c hc => isD_digit u (hd c hc)) (noMore_of (fun _ => isD_brk u) hr)]
  split
  · rename_i heq; cases heq
  · rename_i heq
    cases heq
    have hb : Brk '.' := hr '.' (by simp)
    rcases hb with h | h | h | h | h | h <;> cases h
  · rename_i heq; cases heq; rfl

theorem mNumber_float (u : Uni) {s a b rest : Text} (hs : s = [] ∨ s = ['-']) (ha : a ≠ [])
    (ha' : ∀ c ∈ a, c.isDigit = true) (hb : b ≠ []) (hb' : ∀ c ∈ b, c.isDigit = true) (hr : Ends rest) :
    mNumber u (s ++ a ++ '.' :: b ++ rest) = some (s ++ a ++ '.' :: b, rest) := by
  have e : s ++ a ++ '.' :: b ++ rest = s ++ a ++ ('.' :: (b ++ rest)) := by simp
  rw [e, mNumber_sign u hs ha ha', mPlus_eq ha (fun c hc => isD_digit u (ha' c hc)) (digs_ends rfl _)]
  simp only [mPlus_eq hb (fun c hc => isD_digit u (hb' c hc)) (noMore_of (fun _ => isD_brk u) hr)]

theorem mNumber_none (u : Uni) {c : Char} {r : Text} (h1 : c ≠ '-') (h2 : u.isD c = false) :
    mNumber u (c :: r) = none := by
  have := mPlus_none (r := r) h2
  have hm : mSign (c :: r) = ([], c :: r) := by
    unfold mSign
    split
    · rename_i heq; cases heq; exact absurd rfl h1
    · rfl
  simp only [mNumber, hm, this]

theorem unquote_plain {t : Text} (h : t.head? ≠ some '"') : textUnquote t = some t := by
  cases t with
  | nil => rfl
  | cons c t =>
    unfold textUnquote
    split
    · rename_i heq; cases heq; exact absurd rfl h
    · rfl

theorem numText_split {t : Text} {n : Int} (h : NumText t n) :
    ∃ s d, t = s ++ d ∧ (s = [] ∨ s = ['-']) ∧ d ≠ [] ∧ ∀ c ∈ d, c.isDigit = true := by
  cases h with
  | pos hne h hb => exact ⟨[], _, rfl, .inl rfl, hne, h⟩
  | @neg d hne h hb => exact ⟨['-'], d, rfl, .inr rfl, hne, h⟩

theorem mDate_number (u : Uni) {s d r : Text} {c : Char} (hs : s = [] ∨ s = ['-'])
    (hd : ∀ x ∈ d, x.isDigit = true) (hc : u.isD c = false) (h1 : c ≠ '-') (h2 : c ≠ '/') :
    mDate u (s ++ d ++ c :: r) = none := by
  rcases hs with rfl | rfl
  · exact mDate_none u (fun x hx => isD_digit u (hd x hx)) hc h1 h2
  · exact mDate_minus u _

/-- Neither a dot nor white space occurs in a whole number. -/
theorem numText_plain {t : Text} {n : Int} (h : NumText t n) : '.' ∉ t ∧ ∀ c ∈ t, isWs c = false := by
  obtain ⟨s, d, rfl, hs, hne, hd⟩ := numText_split h
  constructor
  · intro hm
    rcases List.mem_append.mp hm with hm | hm
    · rcases hs with rfl | rfl <;> simp at hm
    · have := hd _ hm; cases this
  · intro c hc
    rcases List.mem_append.mp hc with hm | hm
    · rcases hs with rfl | rfl
      · cases hm
      · simp at hm; subst hm; rfl
    · exact digit_not_ws (hd c hm)

theorem solid_of {t rest : Text} (hne : t ≠ []) (ht : ∀ c ∈ t, isWs c = false) : Solid (t ++ rest) := by
  cases t with
  | nil => exact absurd rfl hne
  | cons c r => exact Solid_cons (ht c (by simp)) _

theorem Reads_listValue (E : Env) {npos : Nat} {w t : Text} {a : Ast} (hw : AsciiBlanks w) (h : ListItem E t a) :
    Reads (listValue E npos) (w ++ t) ItemEnd (fun b => b = a) := by
  intro rest off hr
  refine ⟨a, rfl, ?_⟩
  have hE := hr.ends
  obtain ⟨c, r, hcr, hc⟩ := hr
  have hcd : E.uni.isD c = false ∧ c ≠ '-' ∧ c ≠ '/' := by
    rcases hc with rfl | rfl | rfl | rfl <;> exact ⟨rfl, by decide, by decide⟩
  cases h with
  | @date _ v h =>
    obtain ⟨hne, ht⟩ := dateText_chars h
    obtain ⟨k, hk, e⟩ := maybeTakeRegex_some hw hne ht
      (mDate_eq E h (noMore_of (fun _ => isD_brk E.uni) hE)) off
    rw [listValue, bind_ok e]
    simp only [intoDate, hk, h.1]
    rw [bind_ok (pure_apply _ _)]
    rfl
  | @num _ n h =>
    have hp := numText_plain h
    have hne := (numText_chars h).1
    have hs := solid_of (rest := rest) hne hp.2
    have hpi := parseInt_numText h
    obtain ⟨s, d, rfl, hsg, hdne, hd⟩ := numText_split h
    have e1 : mDate E.uni (s ++ d ++ rest) = none := by
      rw [hcr]; exact mDate_number E.uni hsg hd hcd.1 hcd.2.1 hcd.2.2
    have e2 := maybeTakeRegex_none hw hs e1 off
    obtain ⟨k, hk, e⟩ := maybeTakeRegex_some hw hne hp.2 (mNumber_int E.uni hsg hdne hd hE) off
    rw [listValue, List.append_assoc w, bind_ok e2]
    simp only
    rw [← List.append_assoc w, bind_ok e]
    simp only [hk, hp.1, if_false, intoNumber, hpi]
    rw [bind_ok (pure_apply _ _)]
    rfl
  | @float s a b f hsg ha ha' hb hb' hf =>
    have hpl : ∀ x ∈ s ++ a ++ '.' :: b, isWs x = false := by
      intro x hx
      simp only [List.mem_append, List.mem_cons] at hx
      rcases hx with (hx | hx) | rfl | hx
      · rcases hsg with rfl | rfl
        · cases hx
        · simp at hx; subst hx; rfl
      · exact digit_not_ws (ha' x hx)
      · rfl
      · exact digit_not_ws (hb' x hx)
    have hne : s ++ a ++ '.' :: b ≠ [] := by simp
    have hs := solid_of (rest := rest) hne hpl
    have e1 : mDate E.uni (s ++ a ++ '.' :: b ++ rest) = none := by
      rw [List.append_assoc, List.cons_append]
      exact mDate_number E.uni hsg ha' rfl (by decide) (by decide)
    have e2 := maybeTakeRegex_none hw hs e1 off
    obtain ⟨k, hk, e⟩ := maybeTakeRegex_some hw hne hpl (mNumber_float E.uni hsg ha ha' hb hb' hE) off
    rw [listValue, List.append_assoc w, bind_ok e2]
    simp only
    rw [← List.append_assoc w, bind_ok e]
    have hdot : '.' ∈ k.s := by rw [hk]; simp
    simp only [if_pos hdot]
    rw [hk, hf]
    rfl
  | @text t h hq =>
    have e0 : squote t ++ rest = '\'' :: (qbody t ++ '\'' :: rest) := by simp [squote_eq]
    have hs : Solid (squote t ++ rest) := Solid_cons rfl _
    have e1 : mDate E.uni (squote t ++ rest) = none := by
      rw [e0]
      exact mDate_none E.uni (d := []) (fun _ h => by cases h) rfl (by decide) (by decide)
    have e2 := maybeTakeRegex_none hw hs e1 off
    have e3 : mNumber E.uni (squote t ++ rest) = none := by
      rw [e0]; exact mNumber_none E.uni (by decide) rfl
    have e4 := maybeTakeRegex_none hw hs e3 off
    have e5 : tryMatch mSingleQuoted (w ++ (squote t ++ rest)) ≠ none := by
      rw [tryMatch_eq hw hs, e0]
      simp [mSingleQuoted]
    obtain ⟨k, hk, e6⟩ := Reads_squote (npos := npos) hw.ws h rest off trivial
    have e7 : maybeSingleQuoted npos ⟨w ++ (squote t ++ rest), off⟩ = .ok (some k) ⟨rest, off + byteLen (w ++ squote t)⟩ := by
      rw [maybeSingleQuoted]
      split
      · exact absurd ‹_› e5
      · rw [← List.append_assoc, e6]
    rw [listValue, List.append_assoc w, bind_ok e2]
    simp only
    rw [bind_ok e4]
    simp only
    rw [bind_ok e7]
    simp only [hk, unquote_plain hq]
    rfl
  | @ident _ hne hid hd =>
    cases t with
    | nil => exact absurd rfl hne
    | cons x t =>
      have hxD : E.uni.isD x = false := hd x (by simp)
      have hxW := hid x (by simp)
      have hx1 : x ≠ '-' := by rintro rfl; cases hxW
      have hx2 : x ≠ '/' := by rintro rfl; cases hxW
      have hx3 : x ≠ '\'' := by rintro rfl; cases hxW
      have hpl : ∀ c ∈ x :: t, isWs c = false := fun c hc => isW_ws E.uni c (hid c hc)
      have hs := solid_of (rest := rest) hne hpl
      have e2 := maybeTakeRegex_none hw hs
        (mDate_none E.uni (d := []) (r := t ++ rest) (fun _ h => by cases h) hxD hx1 hx2) off
      have e4 := maybeTakeRegex_none hw hs (mNumber_none E.uni (r := t ++ rest) hx1 hxD) off
      have e5 : tryMatch mSingleQuoted (w ++ (x :: t ++ rest)) = none := by
        rw [tryMatch_eq hw hs]
        simp [mSingleQuoted, hx3]
      have e7 : maybeSingleQuoted npos ⟨w ++ (x :: t ++ rest), off⟩ = .ok none ⟨w ++ (x :: t ++ rest), off⟩ := by
        rw [maybeSingleQuoted, e5]
      obtain ⟨k, hk, e8⟩ := maybeTakeRegex_some hw hne hpl
        (mPlus_eq hne hid (noMore_of (fun _ => isW_brk E.uni) hE)) off
      rw [listValue, List.append_assoc w, bind_ok e2]
      simp only
      rw [bind_ok e4]
      simp only
      rw [bind_ok e7]
      simp only
      rw [← List.append_assoc w, bind_ok e8]
      simp only [hk]
      rfl


/-! ### lists -/

theorem ListItem.ne {E : Env} {t : Text} {a : Ast} (h : ListItem E t a) : t ≠ [] := by
  cases h with
  | date h => exact (dateText_chars h).1
  | num h => exact (numText_chars h).1
  | float => simp
  | text => simp [squote_eq]
  | ident hne => exact hne

theorem ListItem.head {E : Env} {t : Text} {a : Ast} (h : ListItem E t a) :
    ∃ c r, t = c :: r ∧ isWs c = false ∧ c ≠ ')' := by
  cases h with
  | @date _ v h =>
    obtain ⟨hne, hw⟩ := dateText_chars h
    obtain ⟨_, a, b, c, ⟨ha, _, _, rfl⟩ | ⟨ha, _, _, rfl⟩⟩ := h
    all_goals
      cases a with
      | nil => have := ha.1; simp at this
      | cons x a =>
        refine ⟨x, _, rfl, hw x (by simp), ?_⟩
        rintro rfl
        have := ha.2.2 ')' (by simp); cases this
  | @num _ n h =>
    have h1 := numText_chars h
    have h2 := numText_plain h
    cases t with
    | nil => exact absurd rfl h1.1
    | cons x t =>
      refine ⟨x, _, rfl, h2.2 x (by simp), ?_⟩
      rintro rfl
      have := h1.2 ')' (by simp); cases this
  | @float s a b f hs ha ha' hb hb' hf =>
    rcases hs with rfl | rfl
    · cases a with
      | nil => exact absurd rfl ha
      | cons x a =>
        have hx := ha' x (by simp)
        refine ⟨x, _, rfl, digit_not_ws hx, ?_⟩
        rintro rfl; cases hx
    · exact ⟨'-', _, rfl, rfl, by decide⟩
  | text => exact ⟨'\'', _, rfl, rfl, by decide⟩
  | @ident _ hne hid hd =>
    cases t with
    | nil => exact absurd rfl hne
    | cons x t =>
      have hx := hid x (by simp)
      refine ⟨x, _, rfl, isW_ws E.uni x hx, ?_⟩
      rintro rfl; cases hx

theorem ListItems.length_pos {E : Env} {s : Text} {as : List Ast} (h : ListItems E s as) : as.length ≤ s.length := by
  induction h with
  | one hw h => 
    have := List.length_pos_iff.mpr h.ne
    simp; omega
  | cons hw h hne hw' hs ih =>
    have := List.length_pos_iff.mpr h.ne
    simp; omega

theorem peek_close {w r : Text} (hw : AsciiBlanks w) {c : Char} (hc : isWs c = false) :
    tryMatch (mLit ")".toList) (w ++ c :: r) = if c = ')' then some (w.length, w ++ [')'], r) else none := by
  rw [tryMatch_eq hw (Solid_cons hc _)]
  split
  · rename_i h; subst h; simp [mLit]
  · rename_i h
    rw [show ")".toList = [')'] from rfl, mLit_none h]; rfl

theorem AsciiBlanks.append {a b : Text} (ha : AsciiBlanks a) (hb : AsciiBlanks b) : AsciiBlanks (a ++ b) := by
  intro y hy
  rcases List.mem_append.mp hy with hy | hy
  · exact ha y hy
  · exact hb y hy

theorem listLoop_items (E : Env) {npos : Nat} {s c : Text} {vs : List Ast} (hs : ListItems E s vs)
    (hc : AsciiBlanks c) (w0 : Text) (hw0 : AsciiBlanks w0) (n : Nat) (hn : vs.length ≤ n) (rest : Text) (off : Nat) :
    listLoop E npos n ⟨w0 ++ s ++ (c ++ ')' :: rest), off⟩ = .ok vs ⟨c ++ ')' :: rest, off + byteLen (w0 ++ s)⟩ := by
  induction hs generalizing n off w0 with
  | @one w t a hw h =>
    cases n with
    | zero => simp at hn
    | succ n =>
      have hend : ItemEnd (c ++ ')' :: rest) := by
        cases c with
        | nil => exact ⟨')', rest, rfl, by simp⟩
        | cons x c =>
          refine ⟨x, _, rfl, ?_⟩
          rcases hc x (by simp) with h | h <;> simp [h]
      obtain ⟨_, rfl, e⟩ := Reads_listValue E (npos := npos) (hw0.append hw) h _ off hend
      rw [← List.append_assoc w0, listLoop, bind_ok e]
      simp only [peek_close hc (c := ')') rfl, if_true]
  | @cons w t a w' s as hw h hne hw' hs ih =>
    cases n with
    | zero => simp at hn
    | succ n =>
      have hend : ItemEnd (w' ++ s ++ (c ++ ')' :: rest)) := by
        cases w' with
        | nil => exact absurd rfl hne
        | cons x w' =>
          refine ⟨x, _, rfl, ?_⟩
          rcases hw' x (by simp) with h | h <;> simp [h]
      obtain ⟨_, rfl, e⟩ := Reads_listValue E (npos := npos) (hw0.append hw) h _ off hend
      have f : w0 ++ (w ++ t ++ w' ++ s) ++ (c ++ ')' :: rest) = w0 ++ w ++ t ++ (w' ++ s ++ (c ++ ')' :: rest)) := by simp
      -- the blanks belong to the next value
      obtain ⟨u, x, r, hu, hx1, hx2, hsu⟩ : ∃ u x r, AsciiBlanks u ∧ isWs x = false ∧ x ≠ ')' ∧ s = u ++ x :: r := by
        cases hs with
        | one hw h =>
          obtain ⟨x, r, rfl, h1, h2⟩ := h.head
          exact ⟨_, x, r, hw, h1, h2, rfl⟩
        | cons hw h _ _ _ =>
          obtain ⟨x, r, rfl, h1, h2⟩ := h.head
          exact ⟨_, x, _, hw, h1, h2, by simp; rfl⟩
      have hpk : tryMatch (mLit ")".toList) (w' ++ s ++ (c ++ ')' :: rest)) = none := by
        have : w' ++ s ++ (c ++ ')' :: rest) = (w' ++ u) ++ x :: (r ++ (c ++ ')' :: rest)) := by rw [hsu]; simp
        rw [this, peek_close (hw'.append hu) hx1, if_neg hx2]
      rw [f, listLoop, bind_ok e]
      simp only [hpk]
      rw [bind_ok (ih w' hw' n (by simpa using hn) _)]
      simp only [pure_apply]
      congr 2
      simp only [byteLen_append]
      omega

theorem Reads_inList (E : Env) {npos : Nat} {a s c : Text} {vs : List Ast} (ha : W a) (hs : ListItems E s vs)
    (hc : AsciiBlanks c) : Reads (inList E npos) (a ++ '(' :: (s ++ (c ++ [')']))) Any (fun v => v = vs) := by
  intro rest off _
  refine ⟨vs, rfl, ?_⟩
  obtain ⟨_, _, e1⟩ := Reads_paren (npos := npos) ha '(' rfl (s ++ (c ++ ')' :: rest)) off trivial
  have e2 := listLoop_items E (npos := npos) hs hc [] (fun _ h => by cases h)
    ((s ++ (c ++ ')' :: rest)).length + 1) (by have := hs.length_pos; simp; omega) rest (off + byteLen (a ++ ['(']))
  obtain ⟨_, _, e3⟩ := Reads_paren (npos := npos) hc.ws ')' rfl rest (off + byteLen (a ++ ['(']) + byteLen s) trivial
  have e1' : take npos "(".toList _ = _ := e1
  have e3' : take npos ")".toList _ = _ := e3
  have f : a ++ '(' :: (s ++ (c ++ [')'])) ++ rest = a ++ ['('] ++ (s ++ (c ++ ')' :: rest)) := by simp
  simp only [List.nil_append] at e2
  rw [inList, f, bind_ok e1']
  rw [bind_apply]
  simp only [e2]
  have g : c ++ [')'] ++ rest = c ++ ')' :: rest := by simp
  rw [g] at e3'
  rw [bind_ok e3']
  simp only [pure_apply]
  congr 2
  simp [byteLen_append, byteLen_cons, byteLen_nil]
  omega

/-! ### validations -/

theorem Reads_validation_core (E : Env) {npos : Nat} {q n p : Text} {k : VKind} {names : List String}
    {v : Validation} (hq : EqSign q) (hn : OneOfCI E names n)
    (hk : ∀ m ∈ names, m ≠ "" ∧ validators.lookup m.toList = some k) (hp : p = [] ∨ ∀ r, Ends (p ++ r))
    (hv : Reads (validator E npos k) p Ends (fun x => x = v)) :
    Reads (takeValidation E npos) (q ++ (n ++ p)) Ends (fun x => x = v) := by
  have h1 := Reads_right E (npos := npos) hq (ident_ne (fun n hm => (hk n hm).1) hn) hn.1
  obtain ⟨_, m, hm, hl⟩ := hn
  have h2 := Reads.bind h1 (t := p) (K' := Ends) (good' := fun y => y = v)
    (f := fun t : CTok => match validators.lookup (E.lower t.s) with
      | some v => validator E npos v
      | none => tokErr npos t)
    (fun t ht => by
      simp only [ht, hl, (hk m hm).2]
      exact hv) (fun r h => by
        rcases hp with rfl | hp
        · exact h
        · exact hp r)
  rwa [List.append_assoc] at h2

theorem Parens.ends {s p : Text} (h : Parens s p) (r : Text) : Ends (p ++ r) := by
  obtain ⟨a, b, c, ha, hb, hc, rfl⟩ := h
  rw [List.append_assoc]
  exact Ends_W ha (Ends_cons (by simp [Brk]) _)

theorem Reads.value {m : P α} {f : α → β} {s : Text} {a : α} {b : β} (h : Reads m s Any (fun x => x = a))
    (hb : f a = b) : Reads (do let x ← m; Pure.pure (f x)) s Ends (fun y => y = b) :=
  (h.map (f := f) (good' := fun y => y = b) (fun _ h => by rw [h, hb])).mono (fun _ _ => trivial) (fun _ h => h)

theorem Reads_validation (E : Env) {npos : Nat} {q v : Text} {x : Validation} (hq : EqSign q) (hv : ValText E v x) :
    Reads (takeValidation E npos) (q ++ v) Ends (fun y => y = x) := by
  cases hv with
  | custom hn ht hp =>
    exact Reads_validation_core E hq hn (k := .custom) (by decide) (.inr hp.ends)
      ((Reads_oneString E ht hp).value rfl)
  | dateAfter hn hd hp =>
    exact Reads_validation_core E hq hn (k := .dateAfter) (by decide) (.inr hp.ends)
      ((Reads_oneDate E hd hp).value rfl)
  | dateBefore hn hd hp =>
    exact Reads_validation_core E hq hn (k := .dateBefore) (by decide) (.inr hp.ends)
      ((Reads_oneDate E hd hp).value rfl)
  | dateBetween hn hd hd' hq' hp =>
    exact Reads_validation_core E hq hn (k := .dateBetween) (by decide) (.inr hp.ends)
      ((Reads_twoDates E hd hd' hq' hp).value rfl)
  | dateEqualTo hn hd hp =>
    exact Reads_validation_core E hq hn (k := .dateEqualTo) (by decide) (.inr hp.ends)
      ((Reads_oneDate E hd hp).value rfl)
  | dateIsValid hn =>
    have := Reads_validation_core E (npos := npos) hq hn (k := .dateIsValid) (p := []) (by decide) (.inl rfl) (Reads.pure rfl)
    rwa [List.append_nil] at this
  | dateNotBetween hn hd hd' hq' hp =>
    exact Reads_validation_core E hq hn (k := .dateNotBetween) (by decide) (.inr hp.ends)
      ((Reads_twoDates E hd hd' hq' hp).value rfl)
  | dateOnOrAfter hn hd hp =>
    exact Reads_validation_core E hq hn (k := .dateOnOrAfter) (by decide) (.inr hp.ends)
      ((Reads_oneDate E hd hp).value rfl)
  | dateOnOrBefore hn hd hp =>
    exact Reads_validation_core E hq hn (k := .dateOnOrBefore) (by decide) (.inr hp.ends)
      ((Reads_oneDate E hd hp).value rfl)
  | numberBetween hn hd hd' hq' hp =>
    exact Reads_validation_core E hq hn (k := .numBetween) (by decide) (.inr hp.ends)
      ((Reads_twoNumbers hd hd' hq' hp).value rfl)
  | numberEqualTo hn hd hp =>
    exact Reads_validation_core E hq hn (k := .numEq) (by decide) (.inr hp.ends)
      ((Reads_oneNumber hd hp).value rfl)
  | numberGreaterThan hn hd hp =>
    exact Reads_validation_core E hq hn (k := .numGt) (by decide) (.inr hp.ends)
      ((Reads_oneNumber hd hp).value rfl)
  | numberGreaterThanOrEqualTo hn hd hp =>
    exact Reads_validation_core E hq hn (k := .numGte) (by decide) (.inr hp.ends)
      ((Reads_oneNumber hd hp).value rfl)
  | numberLessThan hn hd hp =>
    exact Reads_validation_core E hq hn (k := .numLt) (by decide) (.inr hp.ends)
      ((Reads_oneNumber hd hp).value rfl)
  | numberLessThanOrEqualTo hn hd hp =>
    exact Reads_validation_core E hq hn (k := .numLte) (by decide) (.inr hp.ends)
      ((Reads_oneNumber hd hp).value rfl)
  | numberNotBetween hn hd hd' hq' hp =>
    exact Reads_validation_core E hq hn (k := .numNotBetween) (by decide) (.inr hp.ends)
      ((Reads_twoNumbers hd hd' hq' hp).value rfl)
  | numberNotEqualTo hn hd hp =>
    exact Reads_validation_core E hq hn (k := .numNeq) (by decide) (.inr hp.ends)
      ((Reads_oneNumber hd hp).value rfl)
  | textContains hn ht hp =>
    exact Reads_validation_core E hq hn (k := .textContains) (by decide) (.inr hp.ends)
      ((Reads_oneString E ht hp).value rfl)
  | textDoesNotContain hn ht hp =>
    exact Reads_validation_core E hq hn (k := .textDoesNotContain) (by decide) (.inr hp.ends)
      ((Reads_oneString E ht hp).value rfl)
  | textEqualTo hn ht hp =>
    exact Reads_validation_core E hq hn (k := .textEq) (by decide) (.inr hp.ends)
      ((Reads_oneString E ht hp).value rfl)
  | email hn =>
    have := Reads_validation_core E (npos := npos) hq hn (k := .email) (p := []) (by decide) (.inl rfl) (Reads.pure rfl)
    rwa [List.append_nil] at this
  | url hn =>
    have := Reads_validation_core E (npos := npos) hq hn (k := .url) (p := []) (by decide) (.inl rfl) (Reads.pure rfl)
    rwa [List.append_nil] at this
  | inList hn ha hs hc =>
    exact Reads_validation_core E hq hn (k := .inList) (by decide)
      (.inr fun r => by rw [List.append_assoc]; exact Ends_W ha (Ends_cons (by simp [Brk]) _))
      ((Reads_inList E ha hs hc).value rfl)
  | inRange hn hne hs hr hp =>
    exact Reads_validation_core E hq hn (k := .inRange) (by decide) (.inr hp.ends)
      ((Reads_inRange E hne hs hr hp).value rfl)

end Verif.Cell
