import Verif.Parser.Lex
/-
How the printed form of a formula is read by the lexer.
-/
namespace Verif.Parser
open Verif.Ast

/-! ### characters -/

theorem ref_ws {u : Uni} {c : Char} (h : u.isRef c = true) : isWs c = false := by
  by_cases hd : c = '$'
  · subst hd; rfl
  by_cases he : c = '!'
  · subst he; rfl
  by_cases hc : c = ':'
  · subst hc; rfl
  simp only [Uni.isRef, hd, he, hc, beq_iff_eq, Bool.or_eq_true, false_or, or_false] at h
  simp only [Uni.isW] at h
  split at h
  · rename_i hlt
    simp only [Char.isAlphanum, Char.isAlpha, Char.isUpper, Char.isLower, Char.isDigit, Bool.or_eq_true,
      Bool.and_eq_true, decide_eq_true_eq, beq_iff_eq] at h
    by_cases hu : c = '_'
    · subst hu; rfl
    simp only [hu, or_false] at h
    have e : c.toNat = c.val.toNat := rfl
    simp only [ge_iff_le, UInt32.le_iff_toNat_le] at h
    simp only [isWs, Bool.or_eq_false_iff, Bool.and_eq_false_iff, decide_eq_false_iff_not, beq_eq_false_iff_ne]
    have e1 : 'A'.val.toNat = 65 := rfl
    have e2 : 'Z'.val.toNat = 90 := rfl
    have e3 : 'a'.val.toNat = 97 := rfl
    have e4 : 'z'.val.toNat = 122 := rfl
    have e5 : '0'.val.toNat = 48 := rfl
    have e6 : '9'.val.toNat = 57 := rfl
    simp only [e1, e2, e3, e4, e5, e6, ← e] at h
    refine ⟨⟨⟨⟨⟨⟨⟨⟨⟨⟨?_, ?_⟩, ?_⟩, ?_⟩, ?_⟩, ?_⟩, ?_⟩, ?_⟩, ?_⟩, ?_⟩, ?_⟩ <;> omega
  · exact u.word_ws c h

theorem digit_ascii {c : Char} (h : c.isDigit = true) : 48 ≤ c.toNat ∧ c.toNat ≤ 57 := by
  simp only [Char.isDigit, Bool.and_eq_true, decide_eq_true_eq, ge_iff_le, UInt32.le_iff_toNat_le] at h
  exact h

theorem digit_isD (u : Uni) {c : Char} (h : c.isDigit = true) : u.isD c = true := by
  have := digit_ascii h
  simp only [Uni.isD, h, if_pos (show c.toNat < 128 by omega)]

theorem digit_ws {c : Char} (h : c.isDigit = true) : isWs c = false := by
  have := digit_ascii h
  simp only [isWs, Bool.or_eq_false_iff, Bool.and_eq_false_iff, decide_eq_false_iff_not, beq_eq_false_iff_ne]
  refine ⟨⟨⟨⟨⟨⟨⟨⟨⟨⟨?_, ?_⟩, ?_⟩, ?_⟩, ?_⟩, ?_⟩, ?_⟩, ?_⟩, ?_⟩, ?_⟩, ?_⟩ <;> omega

theorem ne_of_class {f : Char → Bool} {c d : Char} (h : f c = true) (hd : f d = false) : c ≠ d := by
  rintro rfl; rw [h] at hd; cases hd

theorem blank_of_ws {c : Char} (h : isWs c = false) : isBlank c = false := by simp [isBlank, h]

theorem trim_self {s : Text} (h1 : ∀ c, s.head? = some c → isWs c = false)
    (h2 : ∀ c, s.getLast? = some c → isWs c = false) : trim s = s := by
  have hs : trimStart s = s := by
    cases s with
    | nil => rfl
    | cons c s => rw [trimStart, List.dropWhile_cons, h1 c rfl]; rfl
  rw [trim, hs, trimEnd]
  cases hr : s.reverse with
  | nil => simpa using hr.symm
  | cons c r =>
    have : isWs c = false := by
      apply h2
      rw [← List.head?_reverse, hr]; rfl
    rw [List.dropWhile_cons, this]
    simp [← hr]

theorem trim_all {s : Text} (h : ∀ c ∈ s, isWs c = false) : trim s = s :=
  trim_self (fun c hc => h c (List.mem_of_mem_head? hc)) (fun c hc => h c (List.mem_of_getLast? hc))

/-! ### single tokens -/

theorem firstMatch_nonblank (u : Uni) {c : Char} (hc : isBlank c = false) (p : Text) :
    firstMatch u (c :: p) = (matchers u).findSome? fun km =>
      (km.2 (c :: p)).map fun (s, rest) => (km.1, 0, s, rest) := by
  rw [firstMatch]
  congr 1
  funext km
  obtain ⟨k, m⟩ := km
  have h1 : (c :: p).dropWhile isBlank = c :: p := by rw [List.dropWhile_cons, hc]; rfl
  have h2 : (c :: p).takeWhile isBlank = [] := by rw [List.takeWhile_cons, hc]; rfl
  simp only [tryMatch, h1, h2]
  cases m (c :: p) <;> rfl

theorem mLit_head {d c : Char} (h : c ≠ d) (l p : Text) : mLit (d :: l) (c :: p) = none := by
  have : (d == c) = false := by simpa using fun h' => h h'.symm
  simp [mLit, List.isPrefixOf, this]

theorem mLit_not {l p : Text} (h : ¬ l <+: p) : mLit l p = none := by
  rw [mLit, if_neg]; rwa [List.isPrefixOf_iff_prefix]

/-- What may follow a printed token. -/
def Stop (rest : Text) : Prop :=
  ∀ c, rest.head? = some c → c = ' ' ∨ c = ')' ∨ c = ',' ∨ c = '(' ∨ c = '%' ∨ c = '\n' ∨
    c = '/'

theorem prefix_of_stop {l r rest : Text} {f : Char → Bool} (hl : ∀ c ∈ l, f c = true)
    (hrest : ∀ c, rest.head? = some c → f c = false) (h : l <+: r ++ rest) : l <+: r := by
  induction l generalizing r with
  | nil => exact List.nil_prefix
  | cons c l ih =>
    cases r with
    | nil =>
      cases rest with
      | nil => simp at h
      | cons d rest =>
        simp only [List.nil_append, List.cons_prefix_cons] at h
        have h1 := hl c (by simp)
        have h2 := hrest d rfl
        rw [← h.1, h1] at h2; cases h2
    | cons d r =>
      simp only [List.cons_append, List.cons_prefix_cons] at h ⊢
      exact ⟨h.1, ih (fun c hc => hl c (by simp [hc])) h.2⟩

theorem stop_not_ref (u : Uni) {rest : Text} (h : Stop rest) (c : Char) (hc : rest.head? = some c) :
    u.isRef c = false := by
  rcases h c hc with rfl | rfl | rfl | rfl | rfl | rfl | rfl <;> rfl

theorem stop_not_digit (u : Uni) {rest : Text} (h : Stop rest) (c : Char) (hc : rest.head? = some c) :
    u.isD c = false := by
  rcases h c hc with rfl | rfl | rfl | rfl | rfl | rfl | rfl <;> rfl

theorem takeWhile_stop {f : Char → Bool} {m rest : Text} (hm : ∀ c ∈ m, f c = true)
    (hr : ∀ c, rest.head? = some c → f c = false) :
    (m ++ rest).takeWhile f = m ∧ (m ++ rest).dropWhile f = rest := by
  induction m with
  | nil =>
    cases rest with
    | nil => simp
    | cons c r => simp [List.takeWhile_cons, List.dropWhile_cons, hr c rfl]
  | cons c m ih =>
    have := ih (fun c hc => hm c (by simp [hc]))
    simp [List.takeWhile_cons, List.dropWhile_cons, hm c (by simp), this]

theorem mPlus_stop {f : Char → Bool} {m rest : Text} (hne : m ≠ []) (hm : ∀ c ∈ m, f c = true)
    (hr : ∀ c, rest.head? = some c → f c = false) : mPlus f (m ++ rest) = some (m, rest) := by
  have := takeWhile_stop hm hr
  rw [mPlus, this.1, this.2]
  cases m with
  | nil => exact absurd rfl hne
  | cons c m => rfl

theorem mOperator_none (u : Uni) {c : Char} {p : Text} (h : u.isRef c = true ∨ c = '"') :
    mOperator (c :: p) = none := by
  have hne : ∀ d : Char, u.isRef d = false → d ≠ '"' → c ≠ d := by
    rintro d hd hq rfl
    rcases h with h | rfl
    · rw [h] at hd; cases hd
    · exact hq rfl
  have e : ∀ (d : Char) (l : Text), u.isRef d = false → d ≠ '"' → mLit (d :: l) (c :: p) = none :=
    fun d l hd hq => mLit_head (hne d hd hq) l p
  simp only [mOperator, List.map_cons, List.map_nil, List.findSome?_cons, List.findSome?_nil]
  rw [show mLit "^".toList (c :: p) = none from e '^' [] rfl (by decide)]
  rw [show mLit "+".toList (c :: p) = none from e '+' [] rfl (by decide)]
  rw [show mLit "-".toList (c :: p) = none from e '-' [] rfl (by decide)]
  rw [show mLit "*".toList (c :: p) = none from e '*' [] rfl (by decide)]
  rw [show mLit "/".toList (c :: p) = none from e '/' [] rfl (by decide)]
  rw [show mLit "&".toList (c :: p) = none from e '&' [] rfl (by decide)]
  rw [show mLit "%".toList (c :: p) = none from e '%' [] rfl (by decide)]
  rw [show mLit "<=".toList (c :: p) = none from e '<' ['='] rfl (by decide)]
  rw [show mLit ">=".toList (c :: p) = none from e '>' ['='] rfl (by decide)]
  rw [show mLit "<>".toList (c :: p) = none from e '<' ['>'] rfl (by decide)]
  rw [show mLit "<".toList (c :: p) = none from e '<' [] rfl (by decide)]
  rw [show mLit ">".toList (c :: p) = none from e '>' [] rfl (by decide)]
  rw [show mLit "=".toList (c :: p) = none from e '=' [] rfl (by decide)]

/-- A digit is a reference character. -/
theorem isDigit_isRef (u : Uni) {c : Char} (h : c.isDigit = true) : u.isRef c = true := by
  have := digit_ascii h
  simp [Uni.isRef, Uni.isW, if_pos (show c.toNat < 128 by omega), Char.isAlphanum, h]

/-- The matchers before the numbers and names fail at a reference character, given that the words
`fn`, `use` and `:=` do not match. -/
theorem firstMatch_word (u : Uni) {c : Char} {p : Text} (hc : u.isRef c = true)
    (hfn : mFn (c :: p) = none) (huse : mLit "use".toList (c :: p) = none)
    (hva : mLit ":=".toList (c :: p) = none) :
    firstMatch u (c :: p) =
      ([(.float, mFloat u), (.integer, mPlus u.isD), (.boolean, mLit "true".toList),
        (.boolean, mLit "false".toList), (.reference, mReference u)] : List (Kind × (Text → Match))).findSome?
        fun km => (km.2 (c :: p)).map fun (s, rest) => (km.1, 0, s, rest) := by
  rw [firstMatch_nonblank u (blank_of_ws (ref_ws hc))]
  have e : ∀ (d : Char) (l : Text), u.isRef d = false → mLit (d :: l) (c :: p) = none :=
    fun d l hd => mLit_head (ne_of_class hc hd) l p
  have hcm : mComment (c :: p) = none := by
    rw [mComment, if_neg (ne_of_class hc (rfl : u.isRef '#' = false))]
  have hq : mQuoted (c :: p) = none := by
    rw [mQuoted, if_neg (ne_of_class hc (rfl : u.isRef '"' = false))]
  simp only [matchers, List.findSome?_cons, hcm, hq, hfn, huse, hva, mOperator_none u (.inl hc), Option.map_none]
  rw [show mLit "\n".toList (c :: p) = none from e '\n' [] rfl,
    show mLit ",".toList (c :: p) = none from e ',' [] rfl,
    show mLit ")".toList (c :: p) = none from e ')' [] rfl,
    show mLit "(".toList (c :: p) = none from e '(' [] rfl,
    show mLit "---".toList (c :: p) = none from e '-' ['-', '-'] rfl]
  rfl

theorem ref_chars {u : Uni} {r : Text} (h : RefName u r) : ∀ c ∈ r, u.isRef c = true ∨ c = '.' := by
  obtain ⟨⟨m, _, hm, hr⟩, _⟩ := h
  intro c hc
  rcases hr with rfl | rfl
  · exact .inl (hm c hc)
  · rcases List.mem_append.mp hc with hc | hc
    · exact .inl (hm c hc)
    · simp at hc; exact .inr hc

theorem ref_no_ws {u : Uni} {r : Text} (h : RefName u r) : ∀ c ∈ r, isWs c = false := by
  intro c hc
  rcases ref_chars h c hc with h | rfl
  · exact ref_ws h
  · rfl

theorem ref_cons {u : Uni} {r : Text} (h : RefName u r) : ∃ c r', r = c :: r' ∧ u.isRef c = true := by
  obtain ⟨⟨m, hne, hm, hr⟩, _⟩ := h
  obtain ⟨c, m', rfl⟩ := List.exists_cons_of_ne_nil hne
  rcases hr with rfl | rfl
  · exact ⟨c, m', rfl, hm c (by simp)⟩
  · exact ⟨c, m' ++ ['.'], rfl, hm c (by simp)⟩

theorem mReference_stop {u : Uni} {r rest : Text} (h : RefName u r) (hs : Stop rest) :
    mReference u (r ++ rest) = some (r, rest) := by
  obtain ⟨⟨m, hne, hm, hr⟩, _⟩ := h
  rw [mReference]
  rcases hr with rfl | rfl
  · rw [mPlus_stop hne hm (stop_not_ref u hs)]
    cases rest with
    | nil => rfl
    | cons c rest =>
      have hc : c ≠ '.' := by
        rintro rfl
        rcases hs '.' rfl with h | h | h | h | h | h | h <;> exact absurd h (by decide)
      split
      · rename_i heq; simp at heq; exact absurd heq.2.1 hc
      · rfl
  · rw [List.append_assoc, mPlus_stop hne hm (by intro c hc; simp at hc; subst hc; rfl)]
    rfl

theorem mFn_none {u : Uni} {r rest : Text} (h : RefName u r) (hf : r ≠ "fn".toList) (hs : Stop rest) :
    mFn (r ++ rest) = none := by
  rw [mFn]
  split
  · rfl
  · rename_i m r' hl
    have h1 := mLit_some hl
    rw [h1.2] at h1
    have hp : "fn".toList <+: r ++ rest := ⟨r', h1.1.symm⟩
    have hp' := prefix_of_stop (f := u.isRef) (by intro c hc; simp at hc; rcases hc with rfl | rfl <;> rfl)
      (stop_not_ref u hs) hp
    obtain ⟨t, ht⟩ := hp'
    have hr' : r' = t ++ rest := by
      have := h1.1
      rw [← ht, List.append_assoc, List.append_cancel_left_eq] at this
      exact this.symm
    have htne : t ≠ [] := by
      rintro rfl; apply hf; rw [← ht]; simp
    obtain ⟨c, t', rfl⟩ := List.exists_cons_of_ne_nil htne
    have : isWs c = false := ref_no_ws h c (by rw [← ht]; simp)
    rw [hr', mPlus_none.mpr (by simp [List.takeWhile_cons, this])]
    rfl

theorem firstMatch_ref {u : Uni} {r rest : Text} (h : RefName u r) (hf : r ≠ "fn".toList) (hs : Stop rest) :
    firstMatch u (r ++ rest) = some (.reference, 0, r, rest) := by
  obtain ⟨c, r', hr, hc⟩ := ref_cons h
  have href := mReference_stop h hs
  have hfn := mFn_none h hf hs
  have lit : ∀ l : Text, (∀ c ∈ l, u.isRef c = true) → ¬ l <+: r → mLit l (r ++ rest) = none :=
    fun l hl hn => mLit_not fun hp => hn (prefix_of_stop hl (stop_not_ref u hs) hp)
  have huse := lit "use".toList
    (by intro c hc; simp at hc; rcases hc with rfl | rfl | rfl <;> rfl) h.2.2.2.2
  have htrue := lit "true".toList
    (by intro c hc; simp at hc; rcases hc with rfl | rfl | rfl | rfl <;> rfl) h.2.2.1
  have hfalse := lit "false".toList
    (by intro c hc; simp at hc; rcases hc with rfl | rfl | rfl | rfl | rfl <;> rfl) h.2.2.2.1
  have hd : u.isD c = false := h.2.1 c (by rw [hr]; rfl)
  have hva : mLit ":=".toList (r ++ rest) = none := by
    apply mLit_not
    rintro ⟨t, ht⟩
    rw [hr] at ht
    simp at ht
    cases r' with
    | nil =>
      have : rest.head? = some '=' := by simp at ht; rw [← ht.2]; rfl
      rcases hs _ this with h | h | h | h | h | h | h <;> exact absurd h (by decide)
    | cons d r' =>
      simp at ht
      have := ref_chars h d (by rw [hr]; simp)
      rw [← ht.2.1] at this
      rcases this with h | h
      · cases h
      · exact absurd h (by decide)
  rw [hr] at href hfn huse htrue hfalse hva ⊢
  simp only [List.cons_append] at href hfn huse htrue hfalse hva ⊢
  rw [firstMatch_word u hc hfn huse hva]
  have hpl : mPlus u.isD (c :: (r' ++ rest)) = none := mPlus_none.mpr (by simp [List.takeWhile_cons, hd])
  have hfl : mFloat u (c :: (r' ++ rest)) = none := by rw [mFloat, hpl]
  simp only [List.findSome?_cons, hfl, hpl, htrue, hfalse, href, Option.map_none, Option.map_some]

theorem LexTo_ref {u : Uni} {r rest : Text} {ts : List Tok} (h : RefName u r) (hf : r ≠ "fn".toList)
    (hs : Stop rest) (hts : LexTo u rest ts) :
    LexTo u (r ++ rest) (⟨.reference, r⟩ :: ts) := by
  have := LexTo_step (firstMatch_ref h hf hs) ⟨by decide, by decide⟩ hts
  rwa [trim_all (ref_no_ws h)] at this

/-! ### numbers -/

theorem firstMatch_digit (u : Uni) {c : Char} {p : Text} (hc : c.isDigit = true) :
    firstMatch u (c :: p) =
      ([(.float, mFloat u), (.integer, mPlus u.isD), (.boolean, mLit "true".toList),
        (.boolean, mLit "false".toList), (.reference, mReference u)] : List (Kind × (Text → Match))).findSome?
        fun km => (km.2 (c :: p)).map fun (s, rest) => (km.1, 0, s, rest) := by
  have e : ∀ (d : Char) (l : Text), d.isDigit = false → mLit (d :: l) (c :: p) = none :=
    fun d l hd => mLit_head (ne_of_class hc hd) l p
  apply firstMatch_word u (isDigit_isRef u hc)
  · rw [mFn, show mLit "fn".toList (c :: p) = none from e 'f' ['n'] rfl]
  · exact e 'u' _ rfl
  · exact e ':' _ rfl

theorem firstMatch_int {u : Uni} {ds rest : Text} (hne : ds ≠ []) (hd : ∀ c ∈ ds, c.isDigit = true)
    (hs : Stop rest) : firstMatch u (ds ++ rest) = some (.integer, 0, ds, rest) := by
  have hpl : mPlus u.isD (ds ++ rest) = some (ds, rest) :=
    mPlus_stop hne (fun c hc => digit_isD u (hd c hc)) (stop_not_digit u hs)
  have hfl : mFloat u (ds ++ rest) = none := by
    rw [mFloat, hpl]
    cases rest with
    | nil => rfl
    | cons c rest =>
      have hc : c ≠ '.' := by
        rintro rfl
        rcases hs '.' rfl with h | h | h | h | h | h | h <;> exact absurd h (by decide)
      split
      · rename_i heq; simp at heq; exact absurd heq.2.1 hc
      · rfl
  obtain ⟨c, ds', rfl⟩ := List.exists_cons_of_ne_nil hne
  simp only [List.cons_append] at hpl hfl ⊢
  rw [firstMatch_digit u (hd c (by simp))]
  simp only [List.findSome?_cons, hfl, hpl, Option.map_none, Option.map_some]

theorem firstMatch_float {u : Uni} {v rest : Text} (hv : FloatText v)
    (hs : Stop rest) : firstMatch u (v ++ rest) = some (.float, 0, v, rest) := by
  obtain ⟨ds, es, hne, hd, he, rfl⟩ := hv
  have hpl : mPlus u.isD (ds ++ ('.' :: (es ++ rest))) = some (ds, '.' :: (es ++ rest)) :=
    mPlus_stop hne (fun c hc => digit_isD u (hd c hc)) (by intro c hc; simp at hc; subst hc; rfl)
  have hfl : mFloat u (ds ++ ('.' :: (es ++ rest))) = some (ds ++ '.' :: es, rest) := by
    rw [mFloat, hpl]
    have := takeWhile_stop (f := u.isD) (m := es) (rest := rest) (fun c hc => digit_isD u (he c hc))
      (stop_not_digit u hs)
    simp only [this]
  rw [List.append_assoc, List.cons_append]
  obtain ⟨c, ds', rfl⟩ := List.exists_cons_of_ne_nil hne
  simp only [List.cons_append] at hpl hfl ⊢
  rw [firstMatch_digit u (hd c (by simp))]
  simp only [List.findSome?_cons, hfl, Option.map_some]

theorem natText_digits (n : Nat) : natText n ≠ [] ∧ ∀ c ∈ natText n, c.isDigit = true :=
  ⟨Nat.toDigits_ne_nil, fun _ hc => Nat.isDigit_of_mem_toDigits (by decide) (by decide) hc⟩

theorem parseI64_natText {n : Nat} (h : n < 2 ^ 63) : parseI64 (natText n) = some (n : Int) := by
  have h1 := natText_digits n
  have h2 : Nat.ofDigitChars 10 (natText n) 0 = n := Nat.ofDigitChars_ten_toDigits
  rw [parseI64, if_pos]
  · rw [h2]
  · exact ⟨h1.1, by simpa using h1.2, by rw [h2]; exact h⟩

theorem LexTo_int {u : Uni} {ds rest : Text} {ts : List Tok} (hne : ds ≠ []) (hd : ∀ c ∈ ds, c.isDigit = true)
    (hs : Stop rest) (hts : LexTo u rest ts) :
    LexTo u (ds ++ rest) (⟨.integer, ds⟩ :: ts) := by
  have := LexTo_step (firstMatch_int hne hd hs) ⟨by decide, by decide⟩ hts
  rwa [trim_all (fun c hc => digit_ws (hd c hc))] at this

theorem floatText_no_ws {v : Text} (hv : FloatText v) : ∀ c ∈ v, isWs c = false := by
  obtain ⟨ds, es, hne, hd, he, rfl⟩ := hv
  intro c hc
  simp at hc
  rcases hc with hc | rfl | hc
  · exact digit_ws (hd c hc)
  · rfl
  · exact digit_ws (he c hc)

theorem LexTo_float {u : Uni} {v rest : Text} {ts : List Tok} (hv : FloatText v)
    (hs : Stop rest) (hts : LexTo u rest ts) :
    LexTo u (v ++ rest) (⟨.float, v⟩ :: ts) := by
  have := LexTo_step (firstMatch_float hv hs) ⟨by decide, by decide⟩ hts
  rwa [trim_all (floatText_no_ws hv)] at this

/-! ### punctuation and operators -/

theorem LexTo_char {u : Uni} {c : Char} {k : Kind} {rest : Text} {ts : List Tok}
    (h : firstMatch u (c :: rest) = some (k, 0, [c], rest)) (hk : k ≠ .newline ∧ k ≠ .comment)
    (hw : isWs c = false) (hts : LexTo u rest ts) :
    LexTo u (c :: rest) (⟨k, [c]⟩ :: ts) := by
  have := LexTo_step h hk hts
  rwa [trim_all (by simpa using hw)] at this

theorem LexTo_open {u : Uni} {rest : Text} {ts : List Tok} (hts : LexTo u rest ts) :
    LexTo u ('(' :: rest) (⟨.openParen, ['(']⟩ :: ts) :=
  LexTo_char rfl ⟨by decide, by decide⟩ rfl hts

theorem LexTo_close {u : Uni} {rest : Text} {ts : List Tok} (hts : LexTo u rest ts) :
    LexTo u (')' :: rest) (⟨.closeParen, [')']⟩ :: ts) :=
  LexTo_char rfl ⟨by decide, by decide⟩ rfl hts

theorem LexTo_comma {u : Uni} {rest : Text} {ts : List Tok} (hts : LexTo u rest ts) :
    LexTo u (',' :: rest) (⟨.comma, [',']⟩ :: ts) :=
  LexTo_char rfl ⟨by decide, by decide⟩ rfl hts

theorem LexTo_pct {u : Uni} {rest : Text} {ts : List Tok} (hts : LexTo u rest ts) :
    LexTo u ('%' :: rest) (⟨.operator, ['%']⟩ :: ts) :=
  LexTo_char rfl ⟨by decide, by decide⟩ rfl hts

theorem LexTo_sign {u : Uni} {c : Char} (h : c = '+' ∨ c = '-') {rest : Text} {ts : List Tok} (hts : LexTo u rest ts) : LexTo u (c :: rest) (⟨.operator, [c]⟩ :: ts) := by
  rcases h with rfl | rfl
  · exact LexTo_char rfl ⟨by decide, by decide⟩ rfl hts
  · exact LexTo_char rfl ⟨by decide, by decide⟩ rfl hts

theorem LexTo_op {u : Uni} {op : Text} (h : op ∈ infixOps) {rest : Text} {ts : List Tok}
    (hts : LexTo u (' ' :: rest) ts) :
    LexTo u (op ++ ' ' :: rest) (⟨.operator, op⟩ :: ts) := by
  have key : ∀ op : Text, firstMatch u (op ++ ' ' :: rest) = some (.operator, 0, op, ' ' :: rest) → trim op = op →
      LexTo u (op ++ ' ' :: rest) (⟨.operator, op⟩ :: ts) := by
    intro op h1 h2
    have := LexTo_step h1 ⟨by decide, by decide⟩ hts
    rwa [h2] at this
  simp only [infixOps, List.map_cons, List.map_nil, List.mem_cons, List.not_mem_nil, or_false] at h
  rcases h with rfl | rfl | rfl | rfl | rfl | rfl | rfl | rfl | rfl | rfl | rfl | rfl <;>
    exact key _ rfl (by decide)

/-! ### strings -/

theorem mQuoteRest_plain {t rest : Text} (h : '"' ∉ t) (hr : rest.head? ≠ some '"') :
    mQuoteRest (t ++ '"' :: rest) = some (t ++ ['"'], rest) := by
  induction t with
  | nil =>
    cases rest with
    | nil => rfl
    | cons c rest =>
      have : c ≠ '"' := by rintro rfl; simp at hr
      simp [mQuoteRest, this]
  | cons c t ih =>
    have hc : c ≠ '"' := by rintro rfl; simp at h
    have ih := ih (by intro h'; exact h (by simp [h']))
    rw [List.cons_append, mQuoteRest.eq_def]
    simp [hc, ih]

theorem firstMatch_quoted {u : Uni} {p s rest : Text} (h : mQuoteRest p = some (s, rest)) :
    firstMatch u ('"' :: p) = some (.dqString, 0, '"' :: s, rest) := by
  rw [firstMatch_nonblank u rfl]
  have h1 : mQuoted ('"' :: p) = some ('"' :: s, rest) := by simp [mQuoted, h]
  have h2 : mLit "\n".toList ('"' :: p) = none := rfl
  have h3 : mComment ('"' :: p) = none := rfl
  simp only [matchers, List.findSome?_cons, h1, h2, h3, Option.map_none, Option.map_some]

theorem LexTo_quoted {u : Uni} {p s rest : Text} {ts : List Tok} (h : mQuoteRest p = some (s ++ ['"'], rest))
    (hts : LexTo u rest ts) :
    LexTo u ('"' :: p) (⟨.dqString, '"' :: (s ++ ['"'])⟩ :: ts) := by
  have := LexTo_step (firstMatch_quoted h) ⟨by decide, by decide⟩ hts
  rwa [trim_self (by intro c hc; simp at hc; subst hc; rfl) (by
    intro c hc
    rw [← List.cons_append, List.getLast?_append] at hc
    simp at hc; subst hc; rfl)] at this

/-! ### formulas -/

/-- The token of a sign. -/
def signToks : Option Sign → List Tok
  | none => []
  | some .positive => [⟨.operator, ['+']⟩]
  | some .negative => [⟨.operator, ['-']⟩]

/-- The token of a percent mark. -/
def pctToks (b : Bool) : List Tok := if b then [⟨.operator, ['%']⟩] else []

mutual
/-- The tokens of the printed form of a formula. -/
def toksOf : Ast → List Tok
  | .int pct s v => signToks s ++ ⟨.integer, intText v⟩ :: pctToks pct
  | .float pct s v => signToks s ++ ⟨.float, v⟩ :: pctToks pct
  | .ref r => [⟨.reference, r⟩]
  | .text t => [⟨.dqString, '"' :: (t ++ ['"'])⟩]
  | .call n args => ⟨.reference, n⟩ :: ⟨.openParen, ['(']⟩ :: (argToks args ++ [⟨.closeParen, [')']⟩])
  | .infix l op r => ⟨.openParen, ['(']⟩ :: (toksOf l ++ ⟨.operator, op⟩ :: (toksOf r ++ [⟨.closeParen, [')']⟩]))
  | _ => []
def argToks : List Ast → List Tok
  | [] => []
  | [a] => toksOf a
  | a :: b :: as => toksOf a ++ ⟨.comma, [',']⟩ :: argToks (b :: as)
end

theorem Stop_cons {c : Char} (h : c = ' ' ∨ c = ')' ∨ c = ',' ∨ c = '(' ∨ c = '%' ∨ c = '\n' ∨
    c = '/') (r : Text) : Stop (c :: r) := by
  intro d hd; simp at hd; subst hd; exact h

theorem intText_nat (v : Nat) : intText (v : Int) = natText v := by simp [intText]

/-- The printed form of a printable formula has a character that is not white space. -/
theorem display_solid {u : Uni} {F : F64} {a : Ast} (h : Printable u F a) : ∃ c ∈ display a, isWs c = false := by
  cases h with
  | @int pct s v hv =>
    have := natText_digits v
    obtain ⟨c, r, hc⟩ := List.exists_cons_of_ne_nil this.1
    exact ⟨c, by simp [display, intText_nat, hc], digit_ws (this.2 c (by simp [hc]))⟩
  | @float pct s v hv _ =>
    obtain ⟨c, r, hc⟩ := List.exists_cons_of_ne_nil (show v ≠ [] from by
      obtain ⟨ds, es, hne, _, _, rfl⟩ := hv; simp)
    exact ⟨c, by simp [display, hc], floatText_no_ws hv c (by simp [hc])⟩
  | ref hr _ =>
    obtain ⟨c, r, rfl, hc⟩ := ref_cons hr
    exact ⟨c, by simp [display], ref_ws hc⟩
  | text _ => exact ⟨'"', by simp [display], rfl⟩
  | call _ _ _ => exact ⟨'(', by simp [display], rfl⟩
  | «infix» _ _ _ => exact ⟨'(', by simp [display], rfl⟩

theorem displayL_eq (as : List Ast) : displayL as = as.map display := by
  induction as with
  | nil => rfl
  | cons a as ih => rw [displayL, ih]; rfl

theorem joinText_cons (sep a b : Text) (ts : List Text) :
    joinText sep (a :: b :: ts) = a ++ sep ++ joinText sep (b :: ts) := rfl

theorem LexTo_number {u : Uni} {pct : Bool} {s : Option Sign} {v rest : Text} {t : Tok} {ts : List Tok}
    (hv : ∀ rest ts, Stop rest → LexTo u rest ts → LexTo u (v ++ rest) (t :: ts))
    (hs : Stop rest) (hts : LexTo u rest ts) :
    LexTo u (signText s ++ v ++ (if pct then ['%'] else []) ++ rest)
      (signToks s ++ t :: pctToks pct ++ ts) := by
  have h1 : LexTo u (v ++ ((if pct then ['%'] else []) ++ rest)) (t :: (pctToks pct ++ ts)) := by
    cases pct with
    | false => exact hv _ _ hs hts
    | true =>
      exact hv _ _ (Stop_cons (by simp) _) (LexTo_pct hts)
  cases s with
  | none => simpa [signText, signToks] using h1
  | some s =>
    cases s with
    | positive => simpa [signText, signToks] using LexTo_sign (.inl rfl) h1
    | negative => simpa [signText, signToks] using LexTo_sign (.inr rfl) h1

theorem LexTo_display {u : Uni} {F : F64} {a : Ast} (h : Printable u F a) :
    ∀ {rest : Text} {ts : List Tok}, Stop rest → LexTo u rest ts →
      LexTo u (display a ++ rest) (toksOf a ++ ts) := by
  induction h with
  | @int pct s v hv =>
    intro rest ts hs hts
    simp only [display, toksOf, intText_nat]
    have hd := natText_digits v
    exact LexTo_number (fun rest ts h1 h2 => LexTo_int hd.1 hd.2 h1 h2) hs hts
  | @float pct s v hv _ =>
    intro rest ts hs hts
    simp only [display, toksOf]
    exact LexTo_number (fun rest ts h1 h2 => LexTo_float hv h1 h2) hs hts
  | ref hr hf =>
    intro rest ts hs hts
    exact LexTo_ref hr hf hs hts
  | @text t ht =>
    intro rest ts hs hts
    have hq : rest.head? ≠ some '"' := by
      intro h
      rcases hs _ h with h | h | h | h | h | h | h <;> exact absurd h (by decide)
    have := LexTo_quoted (u := u) (mQuoteRest_plain ht hq) hts
    simpa [display, toksOf] using this
  | @call n args hn hf hargs ih =>
    intro rest ts hs hts
    have hclose := LexTo_close hts
    have hargs' : LexTo u (joinText ", ".toList (args.map display) ++ ')' :: rest)
        (argToks args ++ ⟨.closeParen, [')']⟩ :: ts) := by
      clear hn hf
      induction args with
      | nil => exact hclose
      | cons a as ih' =>
        cases as with
        | nil => exact ih a (by simp) (Stop_cons (by simp) _) hclose
        | cons b bs =>
          have h1 := ih' (fun x hx => hargs x (by simp [hx])) (fun x hx => ih x (by simp [hx]))
          have h2 : LexTo u (',' :: ' ' :: (joinText ", ".toList (List.map display (b :: bs)) ++ ')' :: rest))
              (⟨.comma, [',']⟩ :: (argToks (b :: bs) ++ ⟨.closeParen, [')']⟩ :: ts)) := by
            exact LexTo_comma (LexTo_blank rfl h1)
          have h3 := ih a (by simp) (Stop_cons (by simp) _) h2
          simpa [joinText_cons, argToks] using h3
    have := LexTo_ref hn hf (Stop_cons (by simp) _) (LexTo_open hargs')
    simpa [display, toksOf, displayL_eq] using this
  | @«infix» l op r hop hl hr ihl ihr =>
    intro rest ts hs hts
    have h1 := ihr (Stop_cons (by simp) _) (LexTo_close hts)
    have h2 := LexTo_op hop (LexTo_blank rfl h1)
    have h3 := ihl (Stop_cons (c := ' ') (by simp) _) (LexTo_blank rfl h2)
    have h4 := LexTo_open (u := u) h3
    simpa [display, toksOf] using h4

end Verif.Parser
