import Verif.Cell.Read
/-
Strings, numbers, dates and lists as they are written.
-/
namespace Verif.Cell
open Verif.Ast Verif.Parser

theorem Reads_paren {npos : Nat} {w : Text} (hw : W w) (c : Char) (hc : isWs c = false) :
    Reads (take npos [c]) (w ++ [c]) Any (fun _ => True) :=
  (Reads_take hw (by simp) (Solid_cons hc _)).mono (fun _ h => h) (fun _ _ => trivial)

/-! ### strings -/

/-- The body of a quoted text. -/
def qbody (t : Text) : Text := t.flatMap fun c => if c = '\'' ∨ c = '\\' then ['\\', c] else [c]

theorem squote_eq (t : Text) : squote t = '\'' :: qbody t ++ ['\''] := rfl

theorem quotedLoop_body (t acc rest : Text) (n : Nat) :
    quotedLoop false acc n (qbody t ++ '\'' :: rest) = some (acc ++ t, n + (qbody t).length + 1) := by
  induction t generalizing acc n with
  | nil => simp [qbody, quotedLoop]
  | cons c t ih =>
    by_cases hc : c = '\'' ∨ c = '\\'
    · have e : qbody (c :: t) = '\\' :: c :: qbody t := by simp [qbody, hc]
      rw [e, List.cons_append, List.cons_append, quotedLoop, if_pos rfl, quotedLoop, ih]
      simp only [List.length_cons, List.append_assoc, List.singleton_append, Option.some.injEq, Prod.mk.injEq, true_and]
      omega
    · have e : qbody (c :: t) = c :: qbody t := by simp [qbody, hc]
      rw [e, List.cons_append, quotedLoop, if_neg (fun h => hc (.inr h)), if_neg (fun h => hc (.inl h)), ih]
      simp only [List.length_cons, List.append_assoc, List.singleton_append, Option.some.injEq, Prod.mk.injEq, true_and]
      omega

theorem qbody_ascii {t : Text} (h : Ascii t) : Ascii (qbody t) := by
  intro c hc
  simp only [qbody, List.mem_flatMap] at hc
  obtain ⟨d, hd, hc⟩ := hc
  split at hc
  · simp only [List.mem_cons, List.not_mem_nil, or_false] at hc
    rcases hc with rfl | rfl
    · decide
    · exact h _ hd
  · simp only [List.mem_cons, List.not_mem_nil, or_false] at hc
    subst hc; exact h _ hd

theorem squote_ascii {t : Text} (h : Ascii t) : Ascii (squote t) := by
  intro c hc
  rw [squote_eq] at hc
  simp only [List.cons_append, List.mem_cons, List.mem_append, List.not_mem_nil, or_false] at hc
  rcases hc with rfl | h' | rfl
  · decide
  · exact qbody_ascii h c h'
  · decide

theorem Reads_squote {npos : Nat} {w t : Text} (hw : W w) (h : Ascii t) :
    Reads (takeSingleQuoted npos) (w ++ squote t) Any (fun k => k.s = t) := by
  intro rest off _
  have hs : Solid (squote t ++ rest) := Solid_cons rfl _
  have h1 := takeWhitespace_ws hw hs off
  refine ⟨⟨t, off + byteLen w - 1⟩, rfl, ?_⟩
  rw [List.append_assoc, takeSingleQuoted, bind_ok h1]
  have e : squote t ++ rest = '\'' :: (qbody t ++ '\'' :: rest) := by simp [squote_eq]
  have hq := quotedLoop_body t [] rest 1
  have hl : 1 + (qbody t).length + 1 = (squote t).length := by simp [squote_eq]; omega
  rw [hl, List.nil_append] at hq
  simp only [e, if_true, hq]
  rw [← e, bind_apply]
  simp only [matchToken]
  rw [bind_ok (moveInput_ascii (squote_ascii h) rest _)]
  simp only [pure_apply, Lx.current, byteLen_append, Nat.add_assoc]

theorem takeString_quote {E : Env} {npos : Nat} {w r : Text} (hw : W w) (off : Nat) :
    takeString E npos ⟨w ++ '\'' :: r, off⟩ = takeSingleQuoted npos ⟨'\'' :: r, off + byteLen w⟩ := by
  rw [takeString, bind_ok (takeWhitespace_ws hw (Solid_cons rfl _) off)]
  rfl

theorem takeSingleQuoted_ws {npos : Nat} {w r : Text} (hw : W w) (hr : Solid r) (off : Nat) :
    takeSingleQuoted npos ⟨w ++ r, off⟩ = takeSingleQuoted npos ⟨r, off + byteLen w⟩ := by
  rw [takeSingleQuoted, bind_ok (takeWhitespace_ws hw hr off)]
  rw [bind_ok (a := ()) (l' := ⟨r, off + byteLen w⟩) (by
    have := takeWhitespace_ws W_nil hr (off + byteLen w)
    simpa [byteLen_nil] using this)]

theorem Reads_string (E : Env) {npos : Nat} {w s t : Text} (hw : W w) (h : StrText E s t) :
    Reads (takeString E npos) (w ++ s) Ends (fun k => k.s = t) := by
  cases h with
  | quoted h =>
    intro rest off _
    obtain ⟨a, ha, h1⟩ := Reads_squote (npos := npos) hw h rest off trivial
    refine ⟨a, ha, ?_⟩
    rw [← h1, List.append_assoc]
    have e : squote t ++ rest = '\'' :: (qbody t ++ '\'' :: rest) := by simp [squote_eq]
    rw [e, takeString_quote hw, takeSingleQuoted_ws hw (Solid_cons rfl _)]
  | bare hne h =>
    intro rest off hr
    obtain ⟨a, ha, h1⟩ := Reads_takeWhile (npos := npos) hw hne h E.alnum_ws rest off
      (noMore_of (fun c => alnum_brk E) hr)
    refine ⟨a, ha, ?_⟩
    rw [← h1]
    cases s with
    | nil => exact absurd rfl hne
    | cons c t =>
      have hc := h c (by simp)
      have hs : Solid (c :: t ++ rest) := Solid_cons (E.alnum_ws c hc) _
      have hq : c ≠ '\'' := by
        rintro rfl
        rw [E.alnum_ascii _ (by decide)] at hc; cases hc
      rw [List.append_assoc, takeString, bind_ok (takeWhitespace_ws hw hs off)]
      simp only [List.cons_append]
      split
      · rename_i heq; cases heq; exact absurd rfl hq
      · have e := takeWhitespace_ws hw hs off
        have e2 := takeWhitespace_ws W_nil hs (off + byteLen w)
        simp only [List.nil_append, byteLen_nil, Nat.add_zero] at e2
        simp only [List.cons_append] at e e2
        rw [takeWhile, bind_ok e, bind_ok e2]

theorem Reads_eqString (E : Env) {npos : Nat} {q v x : Text} (hq : EqSign q) (hv : StrText E v x) :
    Reads (takeEqString E npos) (q ++ v) Ends (fun y => y = x) := by
  obtain ⟨a, b, ha, hb, rfl⟩ := hq
  have h1 := Reads_take (npos := npos) ha (lit := "=".toList) (by simp) (Solid_cons rfl _)
  have h2 := (Reads_string E (npos := npos) hb hv).map (f := fun t : CTok => t.s) (good' := fun y => y = x)
    (fun _ h => h)
  have := Reads.bind h1 (fun _ _ => h2) (fun _ _ => trivial)
  have h4 : a ++ "=".toList ++ (b ++ v) = a ++ '=' :: b ++ v := by simp
  rw [h4] at this
  exact this

/-! ### numbers -/

theorem digits_all {d : Text} (h : ∀ c ∈ d, c.isDigit = true) : d.all Char.isDigit = true := by
  simpa using h

theorem parseInt_numText {t : Text} {n : Int} (h : NumText t n) : parseInt t = some n := by
  cases h with
  | @pos _ hne h hb =>
    have key : ∀ c r, t = c :: r → c ≠ '-' ∧ c ≠ '+' := by
      rintro c r rfl
      have := h c (by simp)
      constructor <;> (rintro rfl; cases this)
    unfold parseInt
    split
    · rename_i d heq; exact absurd rfl (key _ _ rfl).1
    · rename_i d heq; exact absurd rfl (key _ _ rfl).2
    · simp only [digits_all h, hne, ne_eq, not_false_eq_true, and_self, if_true, Option.bind_some, if_pos hb]
  | @neg d hne h hb =>
    simp only [parseInt, digits_all h, hne, ne_eq, not_false_eq_true, and_self, if_true, Option.bind_some, if_pos hb]

theorem numText_chars {t : Text} {n : Int} (h : NumText t n) : t ≠ [] ∧ ∀ c ∈ t, isNum c = true := by
  cases h with
  | pos hne h hb => exact ⟨hne, fun c hc => by simp [isNum, h c hc]⟩
  | neg hne h hb =>
    refine ⟨by simp, fun c hc => ?_⟩
    rcases List.mem_cons.mp hc with rfl | hc
    · rfl
    · simp [isNum, h c hc]

theorem Reads_num {npos : Nat} {w s : Text} {i : Int} (hw : W w) (h : NumText s i) :
    Reads (takeWhile npos isNum) (w ++ s) Ends (fun t => t.s = s) :=
  (Reads_takeWhile hw (numText_chars h).1 (numText_chars h).2 num_ws).mono
    (fun _ hr => noMore_of (fun _ => num_brk) hr) (fun _ h => h)

theorem Reads_intoNumber {npos : Nat} {s : Text} {i : Int} (h : NumText s i) (t : CTok) (ht : t.s = s)
    (K : Text → Prop) : Reads (intoNumber npos t) [] K (fun j => j = i) := by
  simp only [intoNumber, ht, parseInt_numText h]
  exact Reads.pure rfl

theorem Reads_delayed {npos : Nat} {m : P α} {w : Text} {good : α → Prop}
    (hm : Reads m [] Any good) (hw : W w) : Reads (delayed npos m) (w ++ [')']) Any good := by
  intro rest off _
  obtain ⟨a, ha, h1⟩ := hm (w ++ [')'] ++ rest) off trivial
  obtain ⟨b, hb, h2⟩ := Reads_paren (npos := npos) hw ')' rfl rest (off + byteLen []) trivial
  refine ⟨a, ha, ?_⟩
  simp only [List.nil_append] at h1
  simp only [delayed, h1]
  have h2' : take npos ")".toList ⟨w ++ [')'] ++ rest, off + byteLen []⟩ = _ := h2
  rw [bind_ok h2']
  simp [pure_apply, byteLen_nil]

theorem Reads_oneNumber {npos : Nat} {s p : Text} {i : Int} (h : NumText s i) (hp : Parens s p) :
    Reads (oneNumber npos) p Any (fun j => j = i) := by
  obtain ⟨a, b, c, ha, hb, hc, rfl⟩ := hp
  have h1 := Reads_paren (npos := npos) ha '(' rfl
  have h2 := Reads_num (npos := npos) hb h
  have h3 := fun t ht => Reads_delayed (npos := npos) (Reads_intoNumber (npos := npos) h t ht Any) hc
  have h4 := Reads.bind h2 h3 (fun r _ => Ends_append (Ends_W hc (Ends_cons (by simp [Brk]) [])) (by simp) r)
  have h5 := Reads.bind h1 (fun _ _ => h4) (fun _ _ => trivial)
  have e : a ++ ['('] ++ (b ++ s ++ (c ++ [')'])) = a ++ '(' :: (b ++ s ++ (c ++ [')'])) := by simp
  rw [e] at h5
  exact h5

theorem Reads_twoNumbers {npos : Nat} {s s' q p : Text} {i i' : Int} (h : NumText s i) (h' : NumText s' i')
    (hq : Two s s' q) (hp : Parens q p) : Reads (twoNumbers npos) p Any (fun j => j = (i, i')) := by
  obtain ⟨a, b, c, ha, hb, hc, rfl⟩ := hp
  obtain ⟨w, hw, hwne, rfl⟩ := hq
  have h1 := Reads_paren (npos := npos) ha '(' rfl
  have h2 := Reads_num (npos := npos) hb h
  have h3 := Reads_num (npos := npos) hw h'
  have h4 := (Reads_paren (npos := npos) hc ')' rfl).map (f := fun _ => (i, i')) (good' := fun j => j = (i, i'))
    (fun _ _ => rfl)
  have hE : ∀ r : Text, Any r → Ends (c ++ [')'] ++ r) := fun r _ =>
    Ends_append (Ends_W hc (Ends_cons (by simp [Brk]) [])) (by simp) r
  have hE2 : ∀ r : Text, Ends (w ++ s' ++ ([] ++ (c ++ [')'])) ++ r) := fun r => by
    cases w with
    | nil => exact absurd rfl hwne
    | cons x w => exact Ends_cons (.inl (hw x (by simp))) _
  intro rest off _
  obtain ⟨_, _, e1⟩ := h1 (b ++ (s ++ w ++ s') ++ (c ++ [')']) ++ rest) off trivial
  obtain ⟨t, ht, e2⟩ := h2 (w ++ s' ++ ([] ++ (c ++ [')'])) ++ rest) (off + byteLen (a ++ ['('])) (hE2 rest)
  obtain ⟨t', ht', e3⟩ := h3 (c ++ [')'] ++ rest) (off + byteLen (a ++ ['(']) + byteLen (b ++ s)) (hE rest trivial)
  obtain ⟨j, rfl, e4⟩ := h4 rest (off + byteLen (a ++ ['(']) + byteLen (b ++ s) + byteLen (w ++ s')) trivial
  refine ⟨_, rfl, ?_⟩
  have f1 : a ++ '(' :: (b ++ (s ++ w ++ s') ++ (c ++ [')'])) ++ rest
      = a ++ ['('] ++ (b ++ (s ++ w ++ s') ++ (c ++ [')']) ++ rest) := by simp
  have f2 : b ++ (s ++ w ++ s') ++ (c ++ [')']) ++ rest = b ++ s ++ (w ++ s' ++ ([] ++ (c ++ [')'])) ++ rest) := by simp
  have f3 : w ++ s' ++ ([] ++ (c ++ [')'])) ++ rest = w ++ s' ++ (c ++ [')'] ++ rest) := by simp
  have e1' : take npos "(".toList _ = _ := e1
  rw [twoNumbers, f1, bind_ok e1', f2, bind_ok e2]
  simp only [intoNumber, ht, parseInt_numText h]
  rw [bind_ok (pure_apply _ _), f3, bind_ok e3]
  simp only [ht', parseInt_numText h']
  rw [bind_ok (pure_apply _ _)]
  refine Eq.trans e4 ?_
  congr 2
  simp [byteLen_append, byteLen_cons, byteLen_nil]
  omega

end Verif.Cell
