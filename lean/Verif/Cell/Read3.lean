import Verif.Cell.Read2
/-
Dates, lists and validations as they are written.
-/
namespace Verif.Cell
open Verif.Ast Verif.Parser

/-! ### matching with the token library -/

theorem isD_digit (u : Uni) {c : Char} (h : c.isDigit = true) : u.isD c = true := by
  have : c.toNat < 128 := by
    simp only [Char.isDigit, Bool.and_eq_true, decide_eq_true_eq] at h
    have h2 : c.toNat ≤ 57 := h.2
    omega
  rw [Uni.isD, if_pos this, h]

theorem isD_ws (u : Uni) {c : Char} (h : isWs c = true) : u.isD c = false := by
  rw [Uni.isD]
  split
  · by_contra hc
    rw [digit_not_ws (by simpa using hc)] at h; cases h
  · by_contra hc
    rw [u.digit_ws c (by simpa using hc)] at h; cases h

theorem isD_brk (u : Uni) {c : Char} (h : Brk c) : u.isD c = false := by
  rcases h with h | h | h | h | h | h
  · exact isD_ws u h
  all_goals (subst h; rfl)

theorem isW_ws (u : Uni) (c : Char) (h : u.isW c = true) : isWs c = false := by
  by_contra hc
  have hc : isWs c = true := by simpa using hc
  rw [Uni.isW] at h
  split at h
  · rename_i hlt
    simp only [isWs] at hc
    have : c.toNat = 9 ∨ c.toNat = 10 ∨ c.toNat = 11 ∨ c.toNat = 12 ∨ c.toNat = 13 ∨ c.toNat = 32 := by
      simp at hc; omega
    have e : c = Char.ofNat c.toNat := (Char.ofNat_toNat c).symm
    rcases this with h' | h' | h' | h' | h' | h' <;> (rw [h'] at e; subst e; revert h; decide)
  · rw [u.word_ws c h] at hc; cases hc

theorem isW_brk (u : Uni) {c : Char} (h : Brk c) : u.isW c = false := by
  rcases h with h | h | h | h | h | h
  · by_contra hc
    rw [isW_ws u c (by simpa using hc)] at h; cases h
  all_goals (subst h; rfl)

theorem mDigits_eq (u : Uni) {lo hi : Nat} {d r : Text} (hd : Digs lo hi d)
    (hr : d.length = hi ∨ NoMore u.isD r) : mDigits u lo hi (d ++ r) = some (d, r) := by
  obtain ⟨h1, h2, h3⟩ := hd
  have h3' : ∀ c ∈ d, u.isD c = true := fun c hc => isD_digit u (h3 c hc)
  have e : ((d ++ r).take hi).takeWhile u.isD = d := by
    rcases hr with h | h
    · rw [← h, List.take_left]
      have := takeWhile_noMore (rest := []) h3' (fun c hc => by cases hc)
      rwa [List.append_nil] at this
    · rw [List.take_append, List.take_of_length_le h2]
      apply takeWhile_noMore h3'
      intro c hc
      apply h c
      cases r with
      | nil => simp at hc
      | cons x r =>
        cases hk : hi - d.length with
        | zero => rw [hk] at hc; simp at hc
        | succ k => rw [hk] at hc; simpa using hc
  simp only [mDigits, e, if_pos h1, List.drop_left]

theorem mSeq_eq {a b : Text → Match} {s t r : Text} (ha : a (s ++ (t ++ r)) = some (s, t ++ r))
    (hb : b (t ++ r) = some (t, r)) : mSeq a b (s ++ (t ++ r)) = some (s ++ t, r) := by
  simp only [mSeq, ha, hb, Option.map_some]

theorem mLit_eq (l r : Text) : mLit l (l ++ r) = some (l, r) := by
  simp only [mLit, isPrefixOf_append, if_true, List.drop_left]

theorem mDigits_short (u : Uni) {lo hi : Nat} {d r : Text} {c : Char} (hd : d.length < lo)
    (hc : u.isD c = false) : mDigits u lo hi (d ++ c :: r) = none := by
  have : (((d ++ c :: r).take hi).takeWhile u.isD).length < lo := by
    apply Nat.lt_of_le_of_lt _ hd
    have h1 : ∀ s : Text, ∀ k, ((s.take k).takeWhile u.isD).length ≤ (s.takeWhile u.isD).length := by
      intro s
      induction s with
      | nil => intro k; simp
      | cons x s ih =>
        intro k
        cases k with
        | zero => simp
        | succ k =>
          rw [List.take_succ_cons, List.takeWhile_cons, List.takeWhile_cons]
          split
          · simpa using ih k
          · simp
    apply Nat.le_trans (h1 _ _)
    clear hd h1
    induction d with
    | nil => simp [List.takeWhile_cons, hc]
    | cons x d ih =>
      rw [List.cons_append, List.takeWhile_cons]
      split
      · simpa using ih
      · simp
  simp only [mDigits]
  rw [if_neg (by omega)]

theorem dash_not_digit (u : Uni) : u.isD '-' = false := rfl
theorem slash_not_digit (u : Uni) : u.isD '/' = false := rfl

theorem digs_ends {u : Uni} {c : Char} (h : u.isD c = false) (r : Text) : NoMore u.isD (c :: r) := by
  intro d hd; simp at hd; subst hd; exact h

theorem mDate_eq (E : Env) {t v rest : Text} (h : DateText E t v) (hr : NoMore E.uni.isD rest) :
    mDate E.uni (t ++ rest) = some (t, rest) := by
  obtain ⟨_, a, b, c, h | h⟩ := h
  · obtain ⟨ha, hb, hc, rfl⟩ := h
    have e : a ++ '-' :: (b ++ '-' :: c) ++ rest
        = a ++ ((['-'] ++ (b ++ (['-'] ++ c))) ++ rest) := by simp
    have e2 : a ++ '-' :: (b ++ '-' :: c) = a ++ (['-'] ++ (b ++ (['-'] ++ c))) := by simp
    have key : mSeq (mDigits E.uni 4 4) (mSeq (mLit "-".toList) (mSeq (mDigits E.uni 2 2) (mSeq (mLit "-".toList)
        (mDigits E.uni 2 2)))) (a ++ ((['-'] ++ (b ++ (['-'] ++ c))) ++ rest))
        = some (a ++ (['-'] ++ (b ++ (['-'] ++ c))), rest) := by
      apply mSeq_eq
      · exact mDigits_eq _ ha (.inr (digs_ends rfl _))
      · rw [List.append_assoc]
        apply mSeq_eq (mLit_eq _ _)
        rw [List.append_assoc]
        apply mSeq_eq (mDigits_eq _ hb (.inr (digs_ends rfl _)))
        rw [List.append_assoc]
        apply mSeq_eq (mLit_eq _ _)
        exact mDigits_eq _ hc (.inr hr)
    rw [e2, ← List.append_assoc] at *
    simp only [List.append_assoc] at key ⊢
    simp only [mDate, key]
  · obtain ⟨ha, hb, hc, rfl⟩ := h
    have e2 : a ++ '/' :: (b ++ '/' :: c) = a ++ (['/'] ++ (b ++ (['/'] ++ c))) := by simp
    have k1 : mSeq (mDigits E.uni 4 4) (mSeq (mLit "-".toList) (mSeq (mDigits E.uni 2 2) (mSeq (mLit "-".toList)
        (mDigits E.uni 2 2)))) (a ++ '/' :: (b ++ '/' :: c) ++ rest) = none := by
      rw [List.append_assoc, List.cons_append, mSeq,
        mDigits_short _ (Nat.lt_of_le_of_lt ha.2.1 (by decide)) (slash_not_digit _)]
    have key : mSeq (mDigits E.uni 1 2) (mSeq (mLit "/".toList) (mSeq (mDigits E.uni 1 2) (mSeq (mLit "/".toList)
        (mDigits E.uni 2 4)))) (a ++ ((['/'] ++ (b ++ (['/'] ++ c))) ++ rest))
        = some (a ++ (['/'] ++ (b ++ (['/'] ++ c))), rest) := by
      apply mSeq_eq
      · exact mDigits_eq _ ha (.inr (digs_ends rfl _))
      · rw [List.append_assoc]
        apply mSeq_eq (mLit_eq _ _)
        rw [List.append_assoc]
        apply mSeq_eq (mDigits_eq _ hb (.inr (digs_ends rfl _)))
        rw [List.append_assoc]
        apply mSeq_eq (mLit_eq _ _)
        exact mDigits_eq _ hc (.inr hr)
    rw [← List.append_assoc a, ← e2] at key
    simp only [mDate, k1, key]

/-! ### tokens of the library after blanks -/

theorem AsciiBlanks.blank {w : Text} (h : AsciiBlanks w) : ∀ c ∈ w, isBlank c = true := by
  intro c hc
  rcases h c hc with rfl | rfl <;> decide

theorem AsciiBlanks.ws {w : Text} (h : AsciiBlanks w) : W w := by
  intro c hc
  rcases h c hc with rfl | rfl <;> decide

theorem AsciiBlanks.ascii {w : Text} (h : AsciiBlanks w) : Ascii w := by
  intro c hc
  rcases h c hc with rfl | rfl <;> decide

theorem Solid.blank {t : Text} (h : Solid t) : ∀ c ∈ t.head?, isBlank c = false := by
  intro c hc; simp [isBlank, h c hc]

theorem tryMatch_eq {m : Text → Match} {w t : Text} (hw : AsciiBlanks w) (ht : Solid t) :
    tryMatch m (w ++ t) = (m t).map fun x => (w.length, w ++ x.1, x.2) := by
  have hb : ∀ c ∈ t.head?, isBlank c = false := ht.blank
  simp only [tryMatch, takeWhile_noMore hw.blank hb, dropWhile_noMore hw.blank hb]
  cases m t <;> rfl

theorem trim_solid {w t : Text} (hw : W w) (ht : ∀ c ∈ t, isWs c = false) : trim (w ++ t) = t := by
  have hs : Solid t := fun c hc => ht c (List.mem_of_mem_head? hc)
  rw [trim, trimStart, dropWhile_ws hw hs, trimEnd]
  have : t.reverse.dropWhile isWs = t.reverse := by
    cases hr : t.reverse with
    | nil => rfl
    | cons c r =>
      rw [List.dropWhile_cons_of_neg]
      have : c ∈ t := by rw [← List.mem_reverse, hr]; simp
      simp [ht c this]
  rw [this, List.reverse_reverse]

theorem maybeTakeRegex_some {m : Text → Match} {w t rest : Text} (hw : AsciiBlanks w) (hne : t ≠ [])
    (ht : ∀ c ∈ t, isWs c = false) (hm : m (t ++ rest) = some (t, rest)) (off : Nat) :
    ∃ k, k.s = t ∧ maybeTakeRegex m ⟨w ++ t ++ rest, off⟩ = .ok (some k) ⟨rest, off + byteLen (w ++ t)⟩ := by
  have hs : Solid (t ++ rest) := by
    cases t with
    | nil => exact absurd rfl hne
    | cons c r => exact Solid_cons (ht c (by simp)) _
  refine ⟨⟨t, off + byteLen w - 1⟩, rfl, ?_⟩
  rw [maybeTakeRegex, List.append_assoc, tryMatch_eq hw hs, hm]
  simp only [Option.map_some, trim_solid hw.ws ht]
  rw [bind_ok (moveInput_ascii hw.ascii _ _), bind_apply]
  simp only [matchToken]
  rw [bind_ok (moveInput_append t rest _)]
  simp only [pure_apply, Lx.current, byteLen_append, Nat.add_assoc]

theorem maybeTakeRegex_none {m : Text → Match} {w t : Text} (hw : AsciiBlanks w) (hs : Solid t)
    (hm : m t = none) (off : Nat) : maybeTakeRegex m ⟨w ++ t, off⟩ = .ok none ⟨w ++ t, off⟩ := by
  rw [maybeTakeRegex, tryMatch_eq hw hs, hm]
  rfl

/-! ### dates -/

theorem dateText_chars {E : Env} {t v : Text} (h : DateText E t v) :
    t ≠ [] ∧ ∀ c ∈ t, isWs c = false := by
  obtain ⟨_, a, b, c, ⟨ha, hb, hc, rfl⟩ | ⟨ha, hb, hc, rfl⟩⟩ := h
  all_goals
    refine ⟨by simp, fun x hx => ?_⟩
    simp only [List.mem_append, List.mem_cons] at hx
    rcases hx with hx | rfl | hx | rfl | hx
    · exact digit_not_ws (ha.2.2 x hx)
    · rfl
    · exact digit_not_ws (hb.2.2 x hx)
    · rfl
    · exact digit_not_ws (hc.2.2 x hx)

theorem Reads_date (E : Env) {npos : Nat} {w t v : Text} (hw : W w) (h : DateText E t v) :
    Reads (takeDate E npos) (w ++ t) Ends (fun k => k.s = t) := by
  intro rest off hr
  obtain ⟨hne, ht⟩ := dateText_chars h
  have hs : Solid (t ++ rest) := by
    cases t with
    | nil => exact absurd rfl hne
    | cons c r => exact Solid_cons (ht c (by simp)) _
  obtain ⟨k, hk, e⟩ := maybeTakeRegex_some (w := []) (fun _ h => by cases h) hne ht
    (mDate_eq E h (noMore_of (fun _ => isD_brk E.uni) hr)) (off + byteLen w)
  refine ⟨k, hk, ?_⟩
  rw [List.nil_append] at e
  rw [List.append_assoc, takeDate, bind_ok (takeWhitespace_ws hw hs off), bind_ok e]
  simp only [pure_apply, byteLen_append, Nat.add_assoc]

theorem Reads_intoDate {E : Env} {npos : Nat} {s d : Text} (h : DateText E s d) (t : CTok) (ht : t.s = s)
    (K : Text → Prop) : Reads (intoDate E npos t) [] K (fun j => j = d) := by
  simp only [intoDate, ht, h.1]
  exact Reads.pure rfl

theorem Reads_oneDate (E : Env) {npos : Nat} {s p d : Text} (h : DateText E s d) (hp : Parens s p) :
    Reads (oneDate E npos) p Any (fun j => j = d) := by
  obtain ⟨a, b, c, ha, hb, hc, rfl⟩ := hp
  have h1 := Reads_paren (npos := npos) ha '(' rfl
  have h2 := Reads_date E (npos := npos) hb h
  have h3 := fun t ht => Reads_delayed (npos := npos) (Reads_intoDate (npos := npos) h t ht Any) hc
  have h4 := Reads.bind h2 h3 (fun r _ => Ends_append (Ends_W hc (Ends_cons (by simp [Brk]) [])) (by simp) r)
  have h5 := Reads.bind h1 (fun _ _ => h4) (fun _ _ => trivial)
  have e : a ++ ['('] ++ (b ++ s ++ (c ++ [')'])) = a ++ '(' :: (b ++ s ++ (c ++ [')'])) := by simp
  rw [e] at h5
  exact h5

theorem Reads_twoDates (E : Env) {npos : Nat} {s s' q p d d' : Text} (h : DateText E s d) (h' : DateText E s' d')
    (hq : Two s s' q) (hp : Parens q p) : Reads (twoDates E npos) p Any (fun j => j = (d, d')) := by
  obtain ⟨a, b, c, ha, hb, hc, rfl⟩ := hp
  obtain ⟨w, hw, hwne, rfl⟩ := hq
  have h1 := Reads_paren (npos := npos) ha '(' rfl
  have h2 := Reads_date E (npos := npos) hb h
  have h3 := Reads_date E (npos := npos) hw h'
  have h4 := (Reads_paren (npos := npos) hc ')' rfl).map (f := fun _ => (d, d')) (good' := fun j => j = (d, d'))
    (fun _ _ => rfl)
  have hE : ∀ r : Text, Any r → Ends (c ++ [')'] ++ r) := fun r _ =>
    Ends_append (Ends_W hc (Ends_cons (by simp [Brk]) [])) (by simp) r
  have hE2 : ∀ r : Text, Ends (w ++ s' ++ ([] ++ (c ++ [')'])) ++ r) := fun r => by
    cases w with
    | nil => exact absurd rfl hwne
    | cons x w => exact Ends_cons (.inl (hw x (by simp))) _
  intro rest off _
  obtain ⟨_, _, e1⟩ := h1 (b ++ (s ++ w ++ s') ++ (c ++ [')']) ++ rest) off trivial
  obtain ⟨t, ht, e2⟩ := h2 (w ++ s' ++ ([] ++ (c ++ [')'])) ++ rest) (off + byteLen (a ++ ['('])) (hE2 rest)
  obtain ⟨t', ht', e3⟩ := h3 (c ++ [')'] ++ rest) (off + byteLen (a ++ ['(']) + byteLen (b ++ s)) (hE rest trivial)
  obtain ⟨j, rfl, e4⟩ := h4 rest (off + byteLen (a ++ ['(']) + byteLen (b ++ s) + byteLen (w ++ s')) trivial
  refine ⟨_, rfl, ?_⟩
  have f1 : a ++ '(' :: (b ++ (s ++ w ++ s') ++ (c ++ [')'])) ++ rest
      = a ++ ['('] ++ (b ++ (s ++ w ++ s') ++ (c ++ [')']) ++ rest) := by simp
  have f2 : b ++ (s ++ w ++ s') ++ (c ++ [')']) ++ rest = b ++ s ++ (w ++ s' ++ ([] ++ (c ++ [')'])) ++ rest) := by simp
  have f3 : w ++ s' ++ ([] ++ (c ++ [')'])) ++ rest = w ++ s' ++ (c ++ [')'] ++ rest) := by simp
  have e1' : take npos "(".toList _ = _ := e1
  rw [twoDates, f1, bind_ok e1', f2, bind_ok e2]
  simp only [intoDate, ht, h.1]
  rw [bind_ok (pure_apply _ _), f3, bind_ok e3]
  simp only [ht', h'.1]
  rw [bind_ok (pure_apply _ _)]
  refine Eq.trans e4 ?_
  congr 2
  simp [byteLen_append, byteLen_cons, byteLen_nil]
  omega

theorem Reads_oneString (E : Env) {npos : Nat} {s p t : Text} (h : StrText E s t) (hp : Parens s p) :
    Reads (oneString E npos) p Any (fun j => j = t) := by
  obtain ⟨a, b, c, ha, hb, hc, rfl⟩ := hp
  have h1 := Reads_paren (npos := npos) ha '(' rfl
  have h2 := Reads_string E (npos := npos) hb h
  have h3 := fun (k : CTok) (hk : k.s = t) =>
    (Reads_paren (npos := npos) hc ')' rfl).map (f := fun _ => k.s) (good' := fun j => j = t) (fun _ _ => hk)
  have h4 := Reads.bind h2 h3 (fun r _ => Ends_append (Ends_W hc (Ends_cons (by simp [Brk]) [])) (by simp) r)
  have h5 := Reads.bind h1 (fun _ _ => h4) (fun _ _ => trivial)
  have e : a ++ ['('] ++ (b ++ s ++ (c ++ [')'])) = a ++ '(' :: (b ++ s ++ (c ++ [')'])) := by simp
  rw [e] at h5
  exact h5

theorem a1_ws (E : Env) (c : Char) (h : isA1 E c = true) : isWs c = false := by
  simp only [isA1, Bool.or_eq_true, beq_iff_eq] at h
  rcases h with (((h | rfl) | rfl) | rfl) | rfl
  · exact E.alnum_ws c h
  all_goals rfl

theorem a1_brk (E : Env) {c : Char} (h : Brk c) : isA1 E c = false := by
  rw [isA1, alnum_brk E h]
  by_contra hc
  simp only [Bool.false_or, Bool.or_eq_true, beq_iff_eq, Bool.not_eq_false] at hc
  rcases hc with ((rfl | rfl) | rfl) | rfl <;> (rcases h with h | h | h | h | h | h <;> cases h)

theorem Reads_inRange (E : Env) {npos : Nat} {s p r : Text} (hne : s ≠ []) (hs : ∀ c ∈ s, isA1 E c = true)
    (hr : E.a1 s = some r) (hp : Parens s p) : Reads (inRange E npos) p Any (fun j => j = r) := by
  obtain ⟨a, b, c, ha, hb, hc, rfl⟩ := hp
  have h1 := Reads_paren (npos := npos) ha '(' rfl
  have h2 := (Reads_takeWhile (npos := npos) hb hne hs (a1_ws E)).mono
    (fun _ hr => noMore_of (fun _ => a1_brk E) hr) (fun _ h => h)
  have h3 := (Reads_paren (npos := npos) hc ')' rfl).map (f := fun _ => r) (good' := fun j => j = r) (fun _ _ => rfl)
  have h4 := Reads.bind h2 (f := fun t : CTok => match E.a1 t.s with
    | some r => do
      let _ ← take npos ")".toList
      pure r
    | none => tokErr npos t) (t := c ++ [')']) (K' := Any) (good' := fun j => j = r)
    (fun k hk => by simp only [hk, hr]; exact h3)
    (fun r _ => Ends_append (Ends_W hc (Ends_cons (by simp [Brk]) [])) (by simp) r)
  have h5 := Reads.bind h1 (fun _ _ => h4) (fun _ _ => trivial)
  have e : a ++ ['('] ++ (b ++ s ++ (c ++ [')'])) = a ++ '(' :: (b ++ s ++ (c ++ [')'])) := by simp
  rw [e] at h5
  exact h5

end Verif.Cell
