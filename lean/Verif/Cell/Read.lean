import Verif.Cell.Lemmas
import Mathlib.Tactic.IntervalCases
/-
Every option as it is written is read as the setting it denotes.
-/
namespace Verif.Cell
open Verif.Ast Verif.Parser

/-- A character that ends a word, a number or a colour. -/
def Brk (c : Char) : Prop := isWs c = true ∨ c = '/' ∨ c = ']' ∨ c = ')' ∨ c = '(' ∨ c = '='

/-- A break follows, or nothing. -/
def Ends (rest : Text) : Prop := ∀ c ∈ rest.head?, Brk c

theorem Ends_append {r : Text} (h : Ends r) (hne : r ≠ []) (s : Text) : Ends (r ++ s) := by
  cases r with
  | nil => exact absurd rfl hne
  | cons c r => exact h

theorem Ends_W {w r : Text} (hw : W w) (hr : Ends r) : Ends (w ++ r) := by
  cases w with
  | nil => exact hr
  | cons c w =>
    intro d hd
    simp at hd
    subst hd
    exact .inl (hw c (by simp))

theorem Ends_cons {c : Char} (h : Brk c) (r : Text) : Ends (c :: r) := by
  intro d hd
  simp at hd
  subst hd
  exact h

theorem Ends_nil : Ends [] := by
  intro d hd
  simp at hd

theorem alnum_brk (E : Env) {c : Char} (h : Brk c) : E.alnum c = false := by
  rcases h with h | h | h | h | h | h
  · by_contra hc
    rw [E.alnum_ws c (by simpa using hc)] at h
    cases h
  all_goals (subst h; rw [E.alnum_ascii _ (by decide)]; rfl)

theorem ident_brk (E : Env) {c : Char} (h : Brk c) : isIdent E c = false := by
  rw [isIdent, alnum_brk E h]
  rcases h with h | h | h | h | h | h
  · by_cases hc : c = '_'
    · subst hc; cases h
    · simp [hc]
  all_goals (subst h; rfl)

theorem digit_not_ws {c : Char} (h : c.isDigit = true) : isWs c = false := by
  simp only [Char.isDigit, Bool.and_eq_true, decide_eq_true_eq] at h
  have h1 : 48 ≤ c.toNat := h.1
  have h2 : c.toNat ≤ 57 := h.2
  simp only [isWs, Bool.or_eq_false_iff, Bool.and_eq_false_iff, decide_eq_false_iff_not, beq_eq_false_iff_ne]
  omega

theorem digit_brk {c : Char} (h : Brk c) : c.isDigit = false := by
  rcases h with h | h | h | h | h | h
  · by_contra hc
    rw [digit_not_ws (by simpa using hc)] at h
    cases h
  all_goals (subst h; rfl)

theorem num_brk {c : Char} (h : Brk c) : isNum c = false := by
  rw [isNum, digit_brk h]
  rcases h with h | h | h | h | h | h
  · by_cases hc : c = '-'
    · subst hc; cases h
    · by_cases hd : c = '.'
      · subst hd; cases h
      · simp [hc, hd]
  all_goals (subst h; rfl)

theorem noMore_of {f : Char → Bool} (hf : ∀ c, Brk c → f c = false) {r : Text} (h : Ends r) : NoMore f r := by
  exact fun d hd => hf d (h d hd)

theorem ident_ws (E : Env) (c : Char) (h : isIdent E c = true) : isWs c = false := by
  rw [isIdent, Bool.or_eq_true] at h
  rcases h with h | h
  · exact E.alnum_ws c h
  · rw [beq_iff_eq] at h; subst h; rfl

theorem num_ws (c : Char) (h : isNum c = true) : isWs c = false := by
  simp only [isNum, Bool.or_eq_true, beq_iff_eq] at h
  rcases h with (h | h) | h
  · exact digit_not_ws h
  · subst h; rfl
  · subst h; rfl

/-! ### names and enumerations -/

theorem Reads_right (E : Env) {npos : Nat} {q v : Text} (hq : EqSign q) (hne : v ≠ [])
    (hv : ∀ c ∈ v, isIdent E c = true) : Reads (takeRight E npos) (q ++ v) Ends (fun t => t.s = v) := by
  obtain ⟨a, b, ha, hb, rfl⟩ := hq
  have h1 := Reads_take (npos := npos) ha (lit := "=".toList) (by simp) (Solid_cons rfl _)
  have h2 := Reads_takeWhile (npos := npos) hb hne hv (ident_ws E)
  have := Reads.bind h1 (f := fun _ => takeWhile npos (isIdent E)) (fun _ _ => h2) (fun _ _ => trivial)
  have h3 : a ++ "=".toList ++ (b ++ v) = a ++ '=' :: b ++ v := by simp
  rw [h3] at this
  exact this.mono (fun r hr => noMore_of (fun c => ident_brk E) hr) (fun _ h => h)

theorem ident_ne {E : Env} {names : List String} {v : Text} (hn : ∀ n ∈ names, n ≠ "") (h : OneOfCI E names v) :
    v ≠ [] := by
  rintro rfl
  obtain ⟨_, n, hm, hl⟩ := h
  rw [E.lower_ascii [] (fun c hc => by cases hc)] at hl
  exact hn n hm (String.toList_inj.mp (by simpa using hl.symm))

theorem Reads_enum (E : Env) {npos : Nat} {q v : Text} {table : List (Text × α)} {x : α} {names : List String}
    (hq : EqSign q) (hv : OneOfCI E names v) (hn : ∀ n ∈ names, n ≠ "" ∧ table.lookup n.toList = some x) :
    Reads (takeEnum E npos table) (q ++ v) Ends (fun y => y = x) := by
  have h1 := Reads_right E (npos := npos) hq (ident_ne (fun n hm => (hn n hm).1) hv) hv.1
  obtain ⟨_, n, hm, hl⟩ := hv
  have h2 := Reads.bind h1 (t := []) (K' := Ends) (good' := fun y => y = x)
    (f := fun t : CTok => match table.lookup (E.lower t.s) with
      | some v => pure v
      | none => tokErr npos t)
    (fun t ht => by
      simp only [ht, hl, (hn n hm).2]
      exact Reads.pure rfl) (fun _ h => h)
  rwa [List.append_nil] at h2

/-! ### colours -/

theorem HexDigit.lt {c : Char} {n : Nat} (h : HexDigit c n) : n < 16 := by
  rcases h with h | h <;> exact (List.getElem?_eq_some_iff.mp h).1

theorem HexDigit.facts {c : Char} {n : Nat} (h : HexDigit c n) :
    hexVal c = some n ∧ c.toNat < 128 ∧ c.isAlphanum = true ∧ c ≠ '#' ∧ c.utf8Size = 1 := by
  have hn := h.lt
  have : (hexVal c = some n ∧ c.toNat < 128 ∧ c.isAlphanum = true ∧ c ≠ '#') := by
    rcases h with h | h <;> interval_cases n <;> cases h <;> decide
  exact ⟨this.1, this.2.1, this.2.2.1, this.2.2.2, utf8Size_ascii this.2.1⟩

theorem colorLoop_run {al : Char → Bool} (n : Nat) (hash : Bool) (acc m rest : Text)
    (hm : ∀ c ∈ m, al c = true ∧ c ≠ '#') (hn : n + m.length ≤ 7) :
    colorLoop al n hash acc (m ++ rest) = colorLoop al (n + m.length) hash (acc ++ m) rest := by
  induction m generalizing n acc with
  | nil => simp
  | cons c m ih =>
    obtain ⟨h1, h2⟩ := hm c (by simp)
    rw [List.length_cons] at hn
    rw [List.cons_append, colorLoop, if_neg (by simp [h2]), if_pos h1, if_neg (by omega),
      ih (n + 1) _ (fun d hd => hm d (by simp [hd])) (by omega)]
    rw [List.length_cons, List.append_assoc, List.singleton_append, Nat.add_assoc, Nat.add_comm 1]

theorem colorLoop_digits (E : Env) {h m rest : Text} (hh : h = [] ∨ h = ['#'])
    (hm : ∀ c ∈ m, E.alnum c = true ∧ c ≠ '#') (hl : m.length = 3 ∨ m.length = 6) (hr : Ends rest) :
    colorLoop E.alnum 0 false [] (h ++ m ++ rest) = some (h ++ m) := by
  have hend : ∀ hash acc, colorLoop E.alnum m.length hash acc rest = some acc := by
    intro hash acc
    cases rest with
    | nil => rfl
    | cons c r =>
    have hb : Brk c := hr c (by simp)
    have hc : c ≠ '#' := by
      rintro rfl
      rcases hb with h | h | h | h | h | h <;> cases h
    rw [colorLoop, if_neg (by simp [hc]), if_neg (by simp [alnum_brk E hb]), if_pos hl]
  rcases hh with rfl | rfl
  · rw [List.nil_append, colorLoop_run _ _ _ _ _ hm (by omega), Nat.zero_add, hend]; simp
  · rw [List.append_assoc, List.singleton_append, colorLoop, if_pos ⟨rfl, rfl⟩,
      colorLoop_run _ _ _ _ _ hm (by omega), Nat.zero_add, hend]; simp

theorem hexByte_two {a b : Char} {m n : Nat} (ha : hexVal a = some m) (hb : hexVal b = some n)
    (hm : m < 16) (hn : n < 16) : hexByte [a, b] = some (UInt8.ofNat (m * 16 + n)) := by
  simp [hexByte, ha, hb]
  omega

theorem byteLen_one {c : Char} (h : c.utf8Size = 1) (s : Text) : byteLen (c :: s) = byteLen s + 1 := by
  rw [byteLen_cons, h, Nat.add_comm]

theorem hexAt_append {p t r : Text} {i k : Nat} (hi : byteLen p = i) (hk : byteLen t = k) (d : Bool) {v : UInt8}
    (hv : stringToHex t d = some v) : hexAt (p ++ (t ++ r)) i k d = .ok v := by
  subst hi hk
  simp only [hexAt, dropBytes_append, Option.bind_some, takeBytes_append, hv]

theorem rgb_of_colorText {v : Text} {x : Rgb} (h : ColorText v x) : rgbTryFrom v = .ok x := by
  cases h with
  | @long h a b c d e f _ n1 n2 n3 n4 n5 n6 hh ha hb hc hd he hf hx =>
    subst hx
    have fa := ha.facts; have fb := hb.facts; have fc := hc.facts
    have fd := hd.facts; have fe := he.facts; have ff := hf.facts
    have hl : byteLen [a, b, c, d, e, f] = 6 := by
        simp [byteLen_one fa.2.2.2.2, byteLen_one fb.2.2.2.2, byteLen_one fc.2.2.2.2, byteLen_one fd.2.2.2.2,
          byteLen_one fe.2.2.2.2, byteLen_one ff.2.2.2.2, byteLen_nil]
    have k1 : hexAt [a, b, c, d, e, f] 0 2 false = .ok (UInt8.ofNat (n1 * 16 + n2)) :=
      hexAt_append (p := []) (t := [a, b]) (r := [c, d, e, f]) rfl
        (by simp [byteLen_one fa.2.2.2.2, byteLen_one fb.2.2.2.2, byteLen_nil]) _
        (hexByte_two fa.1 fb.1 ha.lt hb.lt)
    have k2 : hexAt [a, b, c, d, e, f] 2 2 false = .ok (UInt8.ofNat (n3 * 16 + n4)) :=
      hexAt_append (p := [a, b]) (t := [c, d]) (r := [e, f])
        (by simp [byteLen_one fa.2.2.2.2, byteLen_one fb.2.2.2.2, byteLen_nil])
        (by simp [byteLen_one fc.2.2.2.2, byteLen_one fd.2.2.2.2, byteLen_nil]) _
        (hexByte_two fc.1 fd.1 hc.lt hd.lt)
    have k3 : hexAt [a, b, c, d, e, f] (2 * 2) 2 false = .ok (UInt8.ofNat (n5 * 16 + n6)) :=
      hexAt_append (p := [a, b, c, d]) (t := [e, f]) (r := [])
        (by simp [byteLen_one fa.2.2.2.2, byteLen_one fb.2.2.2.2, byteLen_one fc.2.2.2.2, byteLen_one fd.2.2.2.2,
          byteLen_nil])
        (by simp [byteLen_one fe.2.2.2.2, byteLen_one ff.2.2.2.2, byteLen_nil]) _
        (hexByte_two fe.1 ff.1 he.lt hf.lt)
    have key : rgbParse [a, b, c, d, e, f] =
        .ok ⟨UInt8.ofNat (n1 * 16 + n2), UInt8.ofNat (n3 * 16 + n4), UInt8.ofNat (n5 * 16 + n6)⟩ := by
      simp only [rgbParse, hl, if_true, k1, k2, k3]
    rcases hh with rfl | rfl
    · rw [List.nil_append]
      simp only [rgbTryFrom]
      split
      · rename_i r heq; cases heq; exact absurd rfl fa.2.2.2.1
      · rw [if_pos (.inr hl), key]
    · simp only [rgbTryFrom, List.singleton_append]
      rw [if_pos (.inr hl), key]
  | @short h a b c _ n1 n2 n3 hh ha hb hc hx =>
    subst hx
    have fa := ha.facts; have fb := hb.facts; have fc := hc.facts
    have hl : byteLen [a, b, c] = 3 := by
        simp [byteLen_one fa.2.2.2.2, byteLen_one fb.2.2.2.2, byteLen_one fc.2.2.2.2, byteLen_nil]
    have e1 : n1 * 16 + n1 = n1 * 17 := by omega
    have e2 : n2 * 16 + n2 = n2 * 17 := by omega
    have e3 : n3 * 16 + n3 = n3 * 17 := by omega
    have k1 : hexAt [a, b, c] 0 1 true = .ok (UInt8.ofNat (n1 * 17)) := e1 ▸
      hexAt_append (p := []) (t := [a]) (r := [b, c]) rfl
        (by simp [byteLen_one fa.2.2.2.2, byteLen_nil]) _ (hexByte_two fa.1 fa.1 ha.lt ha.lt)
    have k2 : hexAt [a, b, c] 1 1 true = .ok (UInt8.ofNat (n2 * 17)) := e2 ▸
      hexAt_append (p := [a]) (t := [b]) (r := [c]) (by simp [byteLen_one fa.2.2.2.2, byteLen_nil])
        (by simp [byteLen_one fb.2.2.2.2, byteLen_nil]) _ (hexByte_two fb.1 fb.1 hb.lt hb.lt)
    have k3 : hexAt [a, b, c] (2 * 1) 1 true = .ok (UInt8.ofNat (n3 * 17)) := e3 ▸
      hexAt_append (p := [a, b]) (t := [c]) (r := [])
        (by simp [byteLen_one fa.2.2.2.2, byteLen_one fb.2.2.2.2, byteLen_nil])
        (by simp [byteLen_one fc.2.2.2.2, byteLen_nil]) _ (hexByte_two fc.1 fc.1 hc.lt hc.lt)
    have key : rgbParse [a, b, c] =
        .ok ⟨UInt8.ofNat (n1 * 17), UInt8.ofNat (n2 * 17), UInt8.ofNat (n3 * 17)⟩ := by
      have : ¬ (3 : Nat) = 6 := by decide
      simp only [rgbParse, hl, if_neg this, k1, k2, k3]
    rcases hh with rfl | rfl
    · rw [List.nil_append]
      simp only [rgbTryFrom]
      split
      · rename_i r heq; cases heq; exact absurd rfl fa.2.2.2.1
      · rw [if_pos (.inl hl), key]
    · simp only [rgbTryFrom, List.singleton_append]
      rw [if_pos (.inl hl), key]

theorem colorText_shape {v : Text} {x : Rgb} (E : Env) (h : ColorText v x) :
    ∃ p m, v = p ++ m ∧ (p = [] ∨ p = ['#']) ∧ (m.length = 3 ∨ m.length = 6) ∧
      ∀ c ∈ m, E.alnum c = true ∧ c ≠ '#' := by
  have key : ∀ c n, HexDigit c n → E.alnum c = true ∧ c ≠ '#' := fun c n h => by
    have := h.facts
    rw [E.alnum_ascii c this.2.1]
    exact ⟨this.2.2.1, this.2.2.2.1⟩
  cases h with
  | @long h a b c d e f _ n1 n2 n3 n4 n5 n6 hh ha hb hc hd he hf hx =>
    refine ⟨h, _, rfl, hh, .inr rfl, ?_⟩
    intro y hy
    simp only [List.mem_cons, List.not_mem_nil, or_false] at hy
    rcases hy with rfl | rfl | rfl | rfl | rfl | rfl <;> exact key _ _ ‹_›
  | @short h a b c _ n1 n2 n3 hh ha hb hc hx =>
    refine ⟨h, _, rfl, hh, .inl rfl, ?_⟩
    intro y hy
    simp only [List.mem_cons, List.not_mem_nil, or_false] at hy
    rcases hy with rfl | rfl | rfl <;> exact key _ _ ‹_›

theorem Reads_color (E : Env) {npos : Nat} {w v : Text} {x : Rgb} (hw : W w) (hv : ColorText v x) :
    Reads (takeColor E npos) (w ++ v) Ends (fun t => t.s = v) := by
  intro rest off hr
  obtain ⟨p, m, rfl, hp, hl, hm⟩ := colorText_shape E hv
  have hs : Solid (p ++ m ++ rest) := by
    rcases hp with rfl | rfl
    · cases m with
      | nil => simp at hl
      | cons c m => exact Solid_cons (E.alnum_ws c (hm c (by simp)).1) _
    · exact Solid_cons rfl _
  have h1 := takeWhitespace_ws hw hs off
  refine ⟨⟨p ++ m, off + byteLen w - 1⟩, rfl, ?_⟩
  rw [List.append_assoc w, takeColor, bind_ok h1]
  simp only [colorLoop_digits E hp hm hl hr]
  rw [bind_apply]
  simp only [matchToken]
  rw [bind_ok (moveInput_append (p ++ m) rest _)]
  simp only [pure_apply, Lx.current, byteLen_append, Nat.add_assoc]

theorem Reads_rgb (E : Env) {npos : Nat} {q v : Text} {x : Rgb} (hq : EqSign q) (hv : ColorText v x) :
    Reads (takeRgb E npos) (q ++ v) Ends (fun y => y = x) := by
  obtain ⟨a, b, ha, hb, rfl⟩ := hq
  have h1 := Reads_take (npos := npos) ha (lit := "=".toList) (by simp) (Solid_cons rfl _)
  have h2 := Reads_color E (npos := npos) hb hv
  have h3 := Reads.bind h2 (t := []) (K' := Ends) (good' := fun y => y = x)
    (f := fun t : CTok => match rgbTryFrom t.s with
      | .ok c => pure c
      | .err => tokErr npos t
      | .panic => fun _ => .panic)
    (fun t ht => by
      simp only [ht, rgb_of_colorText hv]
      exact Reads.pure rfl) (fun _ h => h)
  have := Reads.bind h1 (fun _ _ => h3) (fun _ _ => trivial)
  have h4 : a ++ "=".toList ++ (b ++ v ++ []) = a ++ '=' :: b ++ v := by simp
  rw [h4] at this
  exact this

end Verif.Cell
