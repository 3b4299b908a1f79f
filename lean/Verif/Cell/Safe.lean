import Verif.Cell.Lists
/-
Parsing an ASCII cell never panics.
-/
namespace Verif.Cell
open Verif.Ast Verif.Parser

/-- The lexer is inside the field. -/
def Inv (npos : Nat) (l : Lx) : Prop := Ascii l.input ∧ l.off + l.input.length ≤ npos ∧ 0 < npos

/-- The step does not panic, stays inside the field, consumes at least `k` characters, points errors into
the field, and its value is good. -/
def SafeR (npos k len : Nat) (good : α → Prop) : R α → Prop
  | .ok a l' => Inv npos l' ∧ l'.input.length + k ≤ len ∧ good a
  | .err o => o < npos
  | .panic => False

/-- The step is safe from every state inside the field. -/
def Safe (npos k : Nat) (m : P α) (good : α → Prop) : Prop :=
  ∀ l, Inv npos l → SafeR npos k l.input.length good (m l)

theorem mem_takeWhile {f : Char → Bool} {s : Text} {c : Char} (h : c ∈ s.takeWhile f) : c ∈ s :=
  (List.takeWhile_prefix f).subset h
theorem mem_dropWhile {f : Char → Bool} {s : Text} {c : Char} (h : c ∈ s.dropWhile f) : c ∈ s :=
  (List.dropWhile_suffix f).subset h
theorem takeWhile_imp {f : Char → Bool} {s : Text} {c : Char} (h : c ∈ s.takeWhile f) : f c = true := by
  have := List.all_takeWhile (p := f) (l := s)
  exact List.all_eq_true.mp this c h

def TokIn (npos : Nat) (t : CTok) : Prop := t.off < npos
def T {α : Type} : α → Prop := fun _ => True

variable {npos : Nat}

theorem Safe.bind {m : P α} {f : α → P β} {k k' : Nat} {good : α → Prop} {good' : β → Prop}
    (hm : Safe npos k m good) (hf : ∀ a, good a → Safe npos k' (f a) good') :
    Safe npos (k + k') (m >>= f) good' := by
  intro l hl
  have h1 := hm l hl
  rw [bind_apply]
  cases hml : m l with
  | panic => rw [hml] at h1; exact h1
  | err o => rw [hml] at h1; exact h1
  | ok a l' =>
    rw [hml] at h1
    obtain ⟨h2, h3, h4⟩ := h1
    have h5 := hf a h4 l' h2
    simp only
    cases hfl : f a l' with
    | panic => rw [hfl] at h5; exact h5
    | err o => rw [hfl] at h5; exact h5
    | ok b l'' =>
      rw [hfl] at h5
      exact ⟨h5.1, by have := h5.2.1; omega, h5.2.2⟩

theorem Safe.mono {m : P α} {k k' : Nat} {good good' : α → Prop} (h : Safe npos k m good) (hk : k' ≤ k)
    (hg : ∀ a, good a → good' a) : Safe npos k' m good' := by
  intro l hl
  have h1 := h l hl
  cases hml : m l with
  | panic => rw [hml] at h1; exact h1
  | err o => rw [hml] at h1; exact h1
  | ok a l' => rw [hml] at h1; exact ⟨h1.1, by have := h1.2.1; omega, hg a h1.2.2⟩

theorem Safe.pure {a : α} {good : α → Prop} (h : good a) : Safe npos 0 (pure a) good :=
  fun _ hl => ⟨hl, Nat.le_refl _, h⟩

/-- Two steps of which the first consumes. -/
theorem Safe.bind0 {m : P α} {f : α → P β} {k : Nat} {good : α → Prop} {good' : β → Prop}
    (hm : Safe npos k m good) (hf : ∀ a, good a → Safe npos 0 (f a) good') : Safe npos k (m >>= f) good' :=
  Safe.bind hm hf

theorem Safe.map {m : P α} {f : α → β} {k : Nat} {good : α → Prop} {good' : β → Prop} (hm : Safe npos k m good)
    (hf : ∀ a, good a → good' (f a)) : Safe npos k (do let a ← m; Pure.pure (f a)) good' :=
  hm.bind0 fun a ha => Safe.pure (hf a ha)

theorem dropBytes_ascii {s : Text} (h : Ascii s) {n : Nat} (hn : n ≤ s.length) : dropBytes n s = some (s.drop n) := by
  have h1 : Ascii (s.take n) := fun c hc => h c (List.mem_of_mem_take hc)
  have h2 := dropBytes_append (s.take n) (s.drop n)
  rwa [List.take_append_drop, byteLen_ascii h1, List.length_take, Nat.min_eq_left hn] at h2

theorem Inv.drop {l : Lx} (h : Inv npos l) {n : Nat} (hn : n ≤ l.input.length) :
    Inv npos ⟨l.input.drop n, l.off + n⟩ := by
  refine ⟨fun c hc => h.1 c (List.mem_of_mem_drop hc), ?_, h.2.2⟩
  have := h.2.1
  simp only [List.length_drop]; omega

theorem moveInput_safe {l : Lx} (h : Inv npos l) {n : Nat} (hn : n ≤ l.input.length) :
    moveInput n l = .ok () ⟨l.input.drop n, l.off + n⟩ := by
  simp only [moveInput, dropBytes_ascii h.1 hn]

theorem current_lt {l : Lx} (h : Inv npos l) : l.current < npos := by
  obtain ⟨_, h1, h2⟩ := h
  simp only [Lx.current]; omega

theorem Safe_unknown {k : Nat} {good : α → Prop} : Safe npos k (unknown npos : P α) good := by
  intro l hl
  simp only [unknown, failAt, if_pos (current_lt hl)]
  exact current_lt hl

theorem Safe_tokErr {k : Nat} {good : α → Prop} {t : CTok} (ht : TokIn npos t) : Safe npos k (tokErr npos t : P α) good := by
  intro l hl
  unfold TokIn at ht
  simp only [tokErr, failAt, if_pos ht]
  exact ht

theorem Safe_ws : Safe npos 0 takeWhitespace (T : Unit → Prop) := by
  intro l hl
  rw [takeWhitespace_eq]
  have e : byteLen (l.input.takeWhile isWs) = (l.input.takeWhile isWs).length :=
    byteLen_ascii fun c hc => hl.1 c (mem_takeWhile hc)
  have e2 : l.input.takeWhile isWs ++ l.input.dropWhile isWs = l.input := List.takeWhile_append_dropWhile
  have e3 := congrArg List.length e2
  rw [List.length_append] at e3
  refine ⟨⟨fun c hc => hl.1 c (mem_dropWhile hc), ?_, hl.2.2⟩, ?_, trivial⟩
  · simp only [trimStart, e]; have := hl.2.1; omega
  · simp only [trimStart]; omega

theorem Safe_matchToken (s : Text) : Safe npos 0 (matchToken s) (TokIn npos) :=
  fun _ hl => ⟨hl, Nat.le_refl _, current_lt hl⟩

theorem lit_ascii {sub s : Text} (h : sub.isPrefixOf s = true) (hs : Ascii s) :
    byteLen sub = sub.length ∧ sub.length ≤ s.length := by
  have hp := List.isPrefixOf_iff_prefix.mp h
  exact ⟨byteLen_ascii fun c hc => hs c (hp.subset hc), hp.length_le⟩

theorem Safe_take (sub : Text) : Safe npos sub.length (take npos sub) (TokIn npos) := by
  refine (Safe.bind (k := 0) (k' := sub.length) Safe_ws fun _ _ => ?_).mono (by omega) (fun _ h => h)
  intro l hl
  simp only
  split
  · rename_i hp
    obtain ⟨h1, h2⟩ := lit_ascii hp hl.1
    simp only [bind_apply, matchToken, replaceInput, pure_apply, h1]
    refine ⟨hl.drop h2, ?_, current_lt hl⟩
    simp only [List.length_drop]; omega
  · exact Safe_unknown (k := sub.length) (good := TokIn npos) l hl

/-- A step that may find something: when it does, it consumes. -/
def SafeOpt (npos : Nat) (m : P (Option α)) (good : α → Prop) : Prop :=
  ∀ l, Inv npos l → match m l with
    | .ok (some a) l' => Inv npos l' ∧ l'.input.length + 1 ≤ l.input.length ∧ good a
    | .ok none l' => Inv npos l' ∧ l'.input.length ≤ l.input.length
    | .err o => o < npos
    | .panic => False

theorem SafeOpt.bind {m : P (Option α)} {f : Option α → P β} {good : α → Prop} {good' : β → Prop} {k : Nat}
    (hk : k ≤ 1) (hm : SafeOpt npos m good) (hs : ∀ a, good a → Safe npos 0 (f (some a)) good')
    (hn : Safe npos k (f none) good') : Safe npos k (m >>= f) good' := by
  intro l hl
  have h1 := hm l hl
  rw [bind_apply]
  cases hml : m l with
  | panic => rw [hml] at h1; exact h1
  | err o => rw [hml] at h1; exact h1
  | ok o l' =>
    rw [hml] at h1
    cases o with
    | none =>
      have h5 := hn l' h1.1
      simp only
      cases hfl : f none l' with
      | panic => rw [hfl] at h5; exact h5
      | err o => rw [hfl] at h5; exact h5
      | ok b l'' =>
        rw [hfl] at h5
        exact ⟨h5.1, by have := h5.2.1; have := h1.2; omega, h5.2.2⟩
    | some a =>
      have h5 := hs a h1.2.2 l' h1.1
      simp only
      cases hfl : f (some a) l' with
      | panic => rw [hfl] at h5; exact h5
      | err o => rw [hfl] at h5; exact h5
      | ok b l'' =>
        rw [hfl] at h5
        exact ⟨h5.1, by have := h5.2.1; have := h1.2.1; omega, h5.2.2⟩

theorem Safe_maybeTake {sub : Text} (hne : sub ≠ []) : SafeOpt npos (maybeTake sub) (TokIn npos) := by
  have hpos := List.length_pos_iff.mpr hne
  intro l0 hl0
  have hw := Safe_ws l0 hl0
  rw [maybeTake, bind_apply]
  cases hml : takeWhitespace l0 with
  | panic => rw [hml] at hw; exact hw
  | err o => rw [hml] at hw; exact hw
  | ok u l =>
  rw [hml] at hw
  obtain ⟨hl, hle, _⟩ := hw
  simp only
  by_cases hp : sub.isPrefixOf l.input = true
  · rw [if_pos hp]
    obtain ⟨h1, h2⟩ := lit_ascii hp hl.1
    simp only [bind_apply, matchToken, replaceInput, pure_apply, h1]
    refine ⟨hl.drop h2, ?_, current_lt hl⟩
    simp only [List.length_drop]; omega
  · rw [if_neg hp]
    exact ⟨hl, hle⟩

theorem Safe_takeWhile (f : Char → Bool) : Safe npos 1 (takeWhile npos f) (TokIn npos) := by
  refine (Safe.bind (k := 0) (k' := 1) Safe_ws fun _ _ => ?_).mono (by omega) (fun _ h => h)
  intro l hl
  simp only
  split
  · exact Safe_unknown (k := 1) (good := TokIn npos) l hl
  · rename_i hne
    have hlen : (l.input.takeWhile f).length ≤ l.input.length := (List.takeWhile_prefix f).length_le
    have e : byteLen (l.input.takeWhile f) = (l.input.takeWhile f).length :=
      byteLen_ascii fun c hc => hl.1 c (mem_takeWhile hc)
    have hpos := List.length_pos_iff.mpr hne
    rw [bind_apply, e, moveInput_safe hl hlen]
    refine ⟨hl.drop hlen, ?_, current_lt (hl.drop hlen)⟩
    simp only [List.length_drop]; omega

/-- What a matcher of the token library matches starts with a character that is not white space. -/
def Matcher (m : Text → Match) : Prop :=
  ∀ p s r, m p = some (s, r) → ∃ c s', s = c :: s' ∧ isWs c = false ∧ s <+: p

theorem isD_not_ws (u : Uni) {c : Char} (h : u.isD c = true) : isWs c = false := by
  by_contra hc
  rw [isD_ws u (by simpa using hc)] at h; cases h

theorem Matcher_plus {f : Char → Bool} (hf : ∀ c, f c = true → isWs c = false) : Matcher (mPlus f) := by
  intro p s r h
  unfold mPlus at h
  split at h
  · cases h
  · cases h
    rename_i hne
    cases hx : p.takeWhile f with
    | nil => exact absurd hx hne
    | cons c s' =>
      refine ⟨c, s', rfl, hf c ?_, ?_⟩
      · have : c ∈ p.takeWhile f := by rw [hx]; simp
        exact takeWhile_imp this
      · rw [← hx]; exact List.takeWhile_prefix f

theorem mLit_prefix {l p s r : Text} (h : mLit l p = some (s, r)) : s <+: p ∧ s ++ r = p := by
  unfold mLit at h
  split at h
  · rename_i hp
    cases h
    have hp := List.isPrefixOf_iff_prefix.mp hp
    refine ⟨hp, ?_⟩
    obtain ⟨t, rfl⟩ := hp
    simp
  · cases h

theorem mDigits_prefix {u : Uni} {lo hi : Nat} {p s r : Text} (h : mDigits u lo hi p = some (s, r)) :
    s ++ r = p ∧ lo ≤ s.length ∧ ∀ c ∈ s, u.isD c = true := by
  simp only [mDigits] at h
  split at h
  · rename_i hlo
    cases h
    have hp : (p.take hi).takeWhile u.isD <+: p := (List.takeWhile_prefix _).trans (List.take_prefix _ _)
    refine ⟨?_, hlo, fun c hc => takeWhile_imp hc⟩
    clear hlo
    generalize (p.take hi).takeWhile u.isD = m at *
    obtain ⟨t, rfl⟩ := hp
    simp
  · cases h

theorem mSeq_prefix {a b : Text → Match} (ha : ∀ p s r, a p = some (s, r) → s ++ r = p)
    (hb : ∀ p s r, b p = some (s, r) → s ++ r = p) {p s r : Text} (h : mSeq a b p = some (s, r)) : s ++ r = p := by
  unfold mSeq at h
  split at h
  · cases h
  · rename_i s1 r1 e1
    cases e2 : b r1 with
    | none => rw [e2] at h; cases h
    | some x =>
      obtain ⟨s2, r2⟩ := x
      rw [e2] at h
      cases h
      rw [List.append_assoc, hb _ _ _ e2, ha _ _ _ e1]

theorem Matcher_date (u : Uni) : Matcher (mDate u) := by
  have hd : ∀ lo hi, ∀ p s r, mDigits u lo hi p = some (s, r) → s ++ r = p := fun _ _ _ _ _ h => (mDigits_prefix h).1
  have hl : ∀ l, ∀ p s r, mLit l p = some (s, r) → s ++ r = p := fun _ _ _ _ h => (mLit_prefix h).2
  have key : ∀ (lo hi : Nat) (b : Text → Match) (p s r : Text), 0 < lo → (∀ p s r, b p = some (s, r) → s ++ r = p) →
      mSeq (mDigits u lo hi) b p = some (s, r) → ∃ c s', s = c :: s' ∧ isWs c = false ∧ s <+: p := by
    intro lo hi b p s r hlo hb h
    have hp : s <+: p := ⟨r, mSeq_prefix (hd lo hi) hb h⟩
    unfold mSeq at h
    split at h
    · cases h
    · rename_i s1 r1 e1
      cases e2 : b r1 with
      | none => rw [e2] at h; cases h
      | some x =>
        rw [e2] at h
        cases h
        obtain ⟨_, h2, h3⟩ := mDigits_prefix e1
        cases s1 with
        | nil => simp at h2; omega
        | cons c s1 => exact ⟨c, _, rfl, isD_not_ws u (h3 c (by simp)), hp⟩
  intro p s r h
  unfold mDate at h
  split at h
  · rename_i m hm
    cases h
    exact key _ _ _ _ _ _ (by decide) (fun _ _ _ => mSeq_prefix (hl _) (fun _ _ _ => mSeq_prefix (hd _ _)
      (fun _ _ _ => mSeq_prefix (hl _) (hd _ _)))) hm
  · exact key _ _ _ _ _ _ (by decide) (fun _ _ _ => mSeq_prefix (hl _) (fun _ _ _ => mSeq_prefix (hd _ _)
      (fun _ _ _ => mSeq_prefix (hl _) (hd _ _)))) h

theorem mPlus_split {f : Char → Bool} {p s r : Text} (h : mPlus f p = some (s, r)) :
    s ++ r = p ∧ s ≠ [] ∧ ∀ c ∈ s, f c = true := by
  unfold mPlus at h
  split at h
  · cases h
  · cases h
    rename_i hne
    exact ⟨List.takeWhile_append_dropWhile, hne, fun c hc => takeWhile_imp hc⟩

theorem mSign_split (p : Text) : (mSign p).1 ++ (mSign p).2 = p ∧ ∀ c ∈ (mSign p).1, c = '-' := by
  unfold mSign
  split
  · exact ⟨rfl, by simp⟩
  · exact ⟨rfl, by simp⟩

theorem Matcher_number (u : Uni) : Matcher (mNumber u) := by
  intro p s r h
  have hs := mSign_split p
  have key : ∀ (m rest : Text), m ≠ [] → (∀ c ∈ m, u.isD c = true) → m ++ rest = (mSign p).2 →
      ∀ t, (∃ q, t ++ q = rest) → ∃ c s', (mSign p).1 ++ m ++ t = c :: s' ∧ isWs c = false ∧ (mSign p).1 ++ m ++ t <+: p := by
    intro m rest hm hmd hmr t ⟨q, hq⟩
    have hp : (mSign p).1 ++ m ++ t <+: p := ⟨q, by
      rw [List.append_assoc, hq, List.append_assoc, hmr, hs.1]⟩
    cases hx : (mSign p).1 with
    | nil =>
      rw [hx] at hp
      cases m with
      | nil => exact absurd rfl hm
      | cons c m => exact ⟨c, _, rfl, isD_not_ws u (hmd c (by simp)), hp⟩
    | cons c x =>
      rw [hx] at hp
      have : c = '-' := hs.2 c (by rw [hx]; simp)
      exact ⟨c, _, rfl, by subst this; rfl, hp⟩
  simp only [mNumber] at h
  split at h
  · cases h
  · rename_i m r0 hm
    obtain ⟨h1, h2, h3⟩ := mPlus_split hm
    split at h
    · rename_i m' r' hm'
      obtain ⟨h4, _, _⟩ := mPlus_split hm'
      cases h
      exact key m _ h2 h3 h1 ('.' :: m') ⟨_, by rw [List.cons_append, h4]⟩
    · cases h
      have := key m _ h2 h3 h1 [] ⟨_, rfl⟩
      simpa using this
  · rename_i m r0 _ hm
    obtain ⟨h1, h2, h3⟩ := mPlus_split hm
    cases h
    have := key m _ h2 h3 h1 [] ⟨_, rfl⟩
    simpa using this

theorem trimEnd_length (s : Text) : (trimEnd s).length ≤ s.length := by
  have : (s.reverse.dropWhile isWs).length ≤ s.reverse.length := List.IsSuffix.length_le (List.dropWhile_suffix _)
  simpa [trimEnd] using this

theorem trimEnd_head {c : Char} (hc : isWs c = false) (s : Text) : trimEnd (c :: s) ≠ [] := by
  intro h
  have h2 : (c :: s).reverse.dropWhile isWs = [] := by simpa [trimEnd] using h
  have h3 : ∀ t : Text, t.dropWhile isWs = [] → ∀ d ∈ t, isWs d = true := by
    intro t
    induction t with
    | nil => intro _ d hd; cases hd
    | cons x t ih =>
      intro ht d hd
      rw [List.dropWhile_cons] at ht
      split at ht
      · rcases List.mem_cons.mp hd with rfl | hd
        · assumption
        · exact ih ht d hd
      · cases ht
  rw [h3 _ h2 c (by simp)] at hc; cases hc

theorem trim_blanks {w s : Text} {c : Char} (hw : W w) (hc : isWs c = false) :
    trim (w ++ c :: s) = trimEnd (c :: s) := by
  rw [trim, trimStart, dropWhile_ws hw (Solid_cons hc _)]

theorem Safe_regex {m : Text → Match} (hm : Matcher m) :
    SafeOpt npos (maybeTakeRegex m) (TokIn npos) := by
  intro l hl
  unfold maybeTakeRegex
  cases h : tryMatch m l.input with
  | none => exact ⟨hl, Nat.le_refl _⟩
  | some x =>
    obtain ⟨blanks, full, rest⟩ := x
    simp only
    unfold tryMatch at h
    split at h
    · rename_i s r hmr
      cases h
      obtain ⟨c, s', rfl, hc, hp⟩ := hm _ _ _ hmr
      have hW : W (l.input.takeWhile isBlank) := fun c hc => by
        have := takeWhile_imp hc
        simp only [isBlank, Bool.and_eq_true] at this
        exact this.1.1
      have hsplit : l.input.takeWhile isBlank ++ l.input.dropWhile isBlank = l.input := List.takeWhile_append_dropWhile
      have hlen := congrArg List.length hsplit
      rw [List.length_append] at hlen
      have hdrop : l.input.drop (l.input.takeWhile isBlank).length = l.input.dropWhile isBlank := by
        conv_lhs => rw [← hsplit]
        conv_lhs => arg 1; rw [hsplit]
        exact List.drop_append_of_le_length (Nat.le_refl _) |>.trans (by simp)
      rw [trim_blanks hW hc]
      have hb : (l.input.takeWhile isBlank).length ≤ l.input.length := (List.takeWhile_prefix _).length_le
      have hi := hl.drop hb
      rw [bind_ok (moveInput_safe hl hb), hdrop] 
      rw [hdrop] at hi
      have ht1 := trimEnd_length (c :: s')
      have ht2 := hp.length_le
      have ha : byteLen (trimEnd (c :: s')) = (trimEnd (c :: s')).length := byteLen_ascii fun d hd => by
        have h1 : d ∈ (c :: s') := by
          simp only [trimEnd, List.mem_reverse] at hd
          have := mem_dropWhile hd
          simpa [or_comm] using this
        exact hi.1 d (hp.subset h1)
      rw [bind_apply]
      simp only [matchToken]
      have hle : (trimEnd (c :: s')).length ≤ (l.input.dropWhile isBlank).length := by omega
      rw [ha, bind_ok (moveInput_safe hi hle)]
      simp only [pure_apply]
      have hpos := List.length_pos_iff.mpr (trimEnd_head hc s')
      refine ⟨hi.drop hle, ?_, current_lt hi⟩
      simp only [List.length_drop]; omega
    · cases h


theorem quotedLoop_count {b : Bool} {acc s t : Text} {n k : Nat} (h : quotedLoop b acc n s = some (t, k)) :
    k ≤ n + s.length ∧ n < k := by
  induction s generalizing b acc n with
  | nil => unfold quotedLoop at h; cases h
  | cons c s ih =>
    cases b with
    | true =>
      rw [quotedLoop] at h
      have := ih h
      simp; omega
    | false =>
      rw [quotedLoop] at h
      split at h
      · have := ih h
        simp; omega
      · split at h
        · cases h; simp
        · have := ih h
          simp; omega

theorem Safe_squoted : Safe npos 1 (takeSingleQuoted npos) (TokIn npos) := by
  refine (Safe.bind (k := 0) (k' := 1) Safe_ws fun _ _ => ?_).mono (by omega) (fun _ h => h)
  intro l hl
  simp only
  cases hs : l.input with
  | nil =>
    have := Safe_unknown (k := 1) (good := TokIn npos) l hl
    rw [hs] at this
    exact this
  | cons c r =>
    simp only
    have hlen : (c :: r).length = l.input.length := by rw [hs]
    rw [hlen]
    split
    · cases hq : quotedLoop false [] 1 r with
      | none => exact Safe_unknown (k := 1) (good := TokIn npos) l hl
      | some x =>
        obtain ⟨t, n⟩ := x
        have hq := quotedLoop_count hq
        have hn : n ≤ l.input.length := by
          rw [hs]; simp; omega
        simp only
        rw [bind_apply]
        simp only [matchToken]
        rw [bind_ok (moveInput_safe hl hn)]
        refine ⟨hl.drop hn, ?_, current_lt hl⟩
        simp only [List.length_drop]; omega
    · exact Safe_unknown (k := 1) (good := TokIn npos) l hl

theorem Safe_string (E : Env) : Safe npos 0 (takeString E npos) (TokIn npos) := by
  refine (Safe.bind (k := 0) (k' := 0) Safe_ws fun _ _ => ?_).mono (by omega) (fun _ h => h)
  intro l hl
  simp only
  split
  · exact Safe_squoted.mono (by omega) (fun _ h => h) l hl
  · exact (Safe_takeWhile E.alnum).mono (by omega) (fun _ h => h) l hl

theorem colorLoop_prefix {al : Char → Bool} {n : Nat} {h : Bool} {acc s m : Text}
    (hm : colorLoop al n h acc s = some m) : ∃ p r, s = p ++ r ∧ m = acc ++ p := by
  induction s generalizing n h acc with
  | nil => rw [colorLoop] at hm; cases hm; exact ⟨[], [], rfl, (List.append_nil _).symm⟩
  | cons c s ih =>
    rw [colorLoop] at hm
    split at hm
    · obtain ⟨p, r, rfl, rfl⟩ := ih hm
      exact ⟨c :: p, r, rfl, by simp⟩
    · split at hm
      · split at hm
        · cases hm
        · obtain ⟨p, r, rfl, rfl⟩ := ih hm
          exact ⟨c :: p, r, rfl, by simp⟩
      · split at hm
        · cases hm; exact ⟨[], c :: s, rfl, (List.append_nil _).symm⟩
        · cases hm

/-- A token inside the field with an ASCII text. -/
def TokA (npos : Nat) (t : CTok) : Prop := TokIn npos t ∧ Ascii t.s

theorem Safe_color (E : Env) : Safe npos 0 (takeColor E npos) (TokA npos) := by
  refine (Safe.bind (k := 0) (k' := 0) Safe_ws fun _ _ => ?_).mono (by omega) (fun _ h => h)
  intro l hl
  simp only
  cases hm : colorLoop E.alnum 0 false [] l.input with
  | none => exact Safe_unknown (k := 0) (good := TokA npos) l hl
  | some m =>
    obtain ⟨p, r, hpr, hmp⟩ := colorLoop_prefix hm
    rw [List.nil_append] at hmp
    subst hmp
    have ha : Ascii m := fun c hc => hl.1 c (by rw [hpr]; simp [hc])
    have hn : m.length ≤ l.input.length := by rw [hpr]; simp
    simp only
    rw [bind_apply]
    simp only [matchToken]
    rw [byteLen_ascii ha, bind_ok (moveInput_safe hl hn)]
    refine ⟨hl.drop hn, ?_, current_lt hl, ha⟩
    simp only [List.length_drop]; omega

theorem takeBytes_ascii {s : Text} (h : Ascii s) {n : Nat} (hn : n ≤ s.length) : takeBytes n s = some (s.take n) := by
  have h1 : Ascii (s.take n) := fun c hc => h c (List.mem_of_mem_take hc)
  have h2 := takeBytes_append (s.take n) (s.drop n)
  rwa [List.take_append_drop, byteLen_ascii h1, List.length_take, Nat.min_eq_left hn] at h2

theorem hexAt_ascii {s : Text} (h : Ascii s) {i k : Nat} (hn : i + k ≤ s.length) (d : Bool) :
    hexAt s i k d ≠ .panic := by
  have h1 : Ascii (s.drop i) := fun c hc => h c (List.mem_of_mem_drop hc)
  rw [hexAt, dropBytes_ascii h (by omega), Option.bind_some, takeBytes_ascii h1 (by simp; omega)]
  simp only
  split <;> simp

theorem rgb_ascii {s : Text} (h : Ascii s) : rgbTryFrom s ≠ .panic := by
  have key : ∀ t, Ascii t → (byteLen t = 3 ∨ byteLen t = 6) → rgbParse t ≠ .panic := by
    intro t ht hl
    rw [byteLen_ascii ht] at hl
    have h6 : (t.length = 6) ∨ (t.length = 3 ∧ t.length ≠ 6) := by omega
    rcases h6 with h6 | ⟨h3, h6⟩
    · have a1 := hexAt_ascii ht (i := 0) (k := 2) (by omega) false
      have a2 := hexAt_ascii ht (i := 2) (k := 2) (by omega) false
      have a3 := hexAt_ascii ht (i := 4) (k := 2) (by omega) false
      simp only [rgbParse, byteLen_ascii ht, h6, if_true]
      split <;> simp_all
      split <;> simp_all
      split <;> simp_all
    · have a1 := hexAt_ascii ht (i := 0) (k := 1) (by omega) true
      have a2 := hexAt_ascii ht (i := 1) (k := 1) (by omega) true
      have a3 := hexAt_ascii ht (i := 2) (k := 1) (by omega) true
      simp only [rgbParse, byteLen_ascii ht, h6, if_false]
      split <;> simp_all
      split <;> simp_all
      split <;> simp_all
  have fin : ∀ t, Ascii t → (if byteLen t = 3 ∨ byteLen t = 6 then rgbParse t else .err) ≠ .panic := by
    intro t ht
    split
    · rename_i hl; exact key t ht hl
    · simp
  simp only [rgbTryFrom]
  split
  · exact fin _ (fun c hc => h c (by simp [hc]))
  · exact fin _ h

end Verif.Cell
