import Verif.Cell.Spec
import Mathlib.Tactic.Tauto
import Mathlib.Tactic.Common
/-
Elementary facts about the cell lexer.
-/
namespace Verif.Cell
open Verif.Ast Verif.Parser

theorem bind_apply (m : P α) (f : α → P β) (l : Lx) :
    (m >>= f) l = match m l with
      | .ok a l' => f a l'
      | .err o => .err o
      | .panic => .panic := rfl

theorem pure_apply (a : α) (l : Lx) : (pure a : P α) l = .ok a l := rfl

theorem bind_ok {m : P α} {f : α → P β} {l l' : Lx} {a : α} (h : m l = .ok a l') : (m >>= f) l = f a l' := by
  rw [bind_apply, h]

/-! ### bytes -/

theorem byteLen_nil : byteLen [] = 0 := rfl
theorem byteLen_cons (c : Char) (s : Text) : byteLen (c :: s) = c.utf8Size + byteLen s := by
  simp [byteLen]
theorem byteLen_append (a b : Text) : byteLen (a ++ b) = byteLen a + byteLen b := by
  simp [byteLen]

theorem length_le_byteLen (s : Text) : s.length ≤ byteLen s := by
  induction s with
  | nil => exact Nat.le_refl _
  | cons c s ih =>
    rw [byteLen_cons, List.length_cons]
    have := c.utf8Size_pos
    omega

theorem utf8Size_ascii {c : Char} (h : c.toNat < 128) : c.utf8Size = 1 := by
  rw [Char.utf8Size_eq_one_iff]
  have : c.val.toNat < 128 := h
  exact UInt32.le_iff_toNat_le.mpr (by simpa using Nat.lt_succ_iff.mp this)

theorem utf8Size_nonAscii {c : Char} (h : ¬ c.toNat < 128) : 1 < c.utf8Size := by
  have h1 := c.utf8Size_pos
  rcases Nat.lt_or_ge 1 c.utf8Size with h2 | h2
  · exact h2
  · have : c.utf8Size = 1 := by omega
    rw [Char.utf8Size_eq_one_iff] at this
    have := UInt32.le_iff_toNat_le.mp this
    exfalso; apply h
    have h3 : c.val.toNat ≤ 127 := by simpa using this
    exact Nat.lt_succ_iff.mpr h3

theorem byteLen_ascii {s : Text} (h : Ascii s) : byteLen s = s.length := by
  induction s with
  | nil => rfl
  | cons c s ih =>
    rw [byteLen_cons, utf8Size_ascii (h c (by simp)), ih (fun d hd => h d (by simp [hd])), List.length_cons]
    omega

theorem length_lt_byteLen {s : Text} (h : ¬ Ascii s) : s.length < byteLen s := by
  induction s with
  | nil => exact absurd (fun c hc => by cases hc) h
  | cons c s ih =>
    rw [byteLen_cons, List.length_cons]
    by_cases hc : c.toNat < 128
    · have hs : ¬ Ascii s := by
        intro h'; apply h
        intro d hd
        rcases List.mem_cons.mp hd with rfl | hd
        · exact hc
        · exact h' d hd
      have := ih hs
      have := c.utf8Size_pos
      omega
    · have := utf8Size_nonAscii hc
      have := length_le_byteLen s
      omega

theorem dropBytes_append (a b : Text) : dropBytes (byteLen a) (a ++ b) = some b := by
  induction a with
  | nil => simp [byteLen_nil, dropBytes]
  | cons c a ih =>
    rw [byteLen_cons, List.cons_append]
    have := c.utf8Size_pos
    obtain ⟨n, hn⟩ : ∃ n, c.utf8Size + byteLen a = n + 1 := ⟨c.utf8Size + byteLen a - 1, by omega⟩
    rw [hn, dropBytes, if_pos (by omega), ← hn, Nat.add_sub_cancel_left, ih]

theorem dropBytes_some {n : Nat} {s r : Text} (h : dropBytes n s = some r) :
    ∃ a, s = a ++ r ∧ byteLen a = n := by
  induction s generalizing n with
  | nil =>
    cases n with
    | zero => rw [dropBytes] at h; cases h; exact ⟨[], rfl, rfl⟩
    | succ n => rw [dropBytes] at h; cases h
  | cons c s ih =>
    cases n with
    | zero => rw [dropBytes] at h; cases h; exact ⟨[], rfl, rfl⟩
    | succ n =>
      rw [dropBytes] at h
      split at h
      · obtain ⟨a, rfl, ha⟩ := ih h
        exact ⟨c :: a, rfl, by rw [byteLen_cons, ha]; omega⟩
      · cases h

theorem takeBytes_append (a b : Text) : takeBytes (byteLen a) (a ++ b) = some a := by
  induction a with
  | nil => simp [byteLen_nil, takeBytes]
  | cons c a ih =>
    rw [byteLen_cons, List.cons_append]
    have := c.utf8Size_pos
    obtain ⟨n, hn⟩ : ∃ n, c.utf8Size + byteLen a = n + 1 := ⟨c.utf8Size + byteLen a - 1, by omega⟩
    rw [hn, takeBytes, if_pos (by omega), ← hn, Nat.add_sub_cancel_left, ih]
    rfl

theorem moveInput_append (a b : Text) (off : Nat) :
    moveInput (byteLen a) ⟨a ++ b, off⟩ = .ok () ⟨b, off + byteLen a⟩ := by
  simp only [moveInput, dropBytes_append]

theorem moveInput_ascii {a : Text} (h : Ascii a) (b : Text) (off : Nat) :
    moveInput a.length ⟨a ++ b, off⟩ = .ok () ⟨b, off + byteLen a⟩ := by
  rw [← byteLen_ascii h, moveInput_append]

theorem moveInput_of {s a b : Text} (h : s = a ++ b) (off : Nat) :
    moveInput (byteLen a) ⟨s, off⟩ = .ok () ⟨b, off + byteLen a⟩ := by
  subst h; exact moveInput_append a b off

/-! ### white space -/

theorem takeWhitespace_eq (l : Lx) :
    takeWhitespace l = .ok () ⟨trimStart l.input, l.off + byteLen (l.input.takeWhile isWs)⟩ := by
  obtain ⟨s, off⟩ := l
  have h : s = s.takeWhile isWs ++ trimStart s := by rw [trimStart, List.takeWhile_append_dropWhile]
  have h2 : byteLen s - byteLen (trimStart s) = byteLen (s.takeWhile isWs) := by
    have := congrArg byteLen h
    rw [byteLen_append] at this
    omega
  simp only [takeWhitespace, h2]
  exact moveInput_of h off

theorem takeWhile_ws {w r : Text} (hw : W w) (hr : Solid r) : (w ++ r).takeWhile isWs = w := by
  rw [List.takeWhile_append_of_pos hw]
  cases r with
  | nil => simp
  | cons c r => rw [List.takeWhile_cons_of_neg (by simpa using hr c (by simp)), List.append_nil]

theorem dropWhile_ws {w r : Text} (hw : W w) (hr : Solid r) : (w ++ r).dropWhile isWs = r := by
  rw [List.dropWhile_append_of_pos hw]
  cases r with
  | nil => rfl
  | cons c r => rw [List.dropWhile_cons_of_neg (by simpa using hr c (by simp))]

theorem takeWhitespace_ws {w r : Text} (hw : W w) (hr : Solid r) (off : Nat) :
    takeWhitespace ⟨w ++ r, off⟩ = .ok () ⟨r, off + byteLen w⟩ := by
  rw [takeWhitespace_eq]
  simp only [trimStart, takeWhile_ws hw hr, dropWhile_ws hw hr]

theorem W_nil : W [] := fun _ h => by cases h

theorem W_append {a b : Text} (ha : W a) (hb : W b) : W (a ++ b) := by
  intro c hc
  rcases List.mem_append.mp hc with h | h
  · exact ha c h
  · exact hb c h

theorem Solid_cons {c : Char} (h : isWs c = false) (r : Text) : Solid (c :: r) := by
  intro d hd; simp at hd; subst hd; exact h

/-! ### reading exactly a given text -/

/-- The step reads exactly `s` when `K` holds of what follows, and its value satisfies `good`. -/
def Reads (m : P α) (s : Text) (K : Text → Prop) (good : α → Prop) : Prop :=
  ∀ rest off, K rest → ∃ a, good a ∧ m ⟨s ++ rest, off⟩ = .ok a ⟨rest, off + byteLen s⟩

theorem Reads.pure {a : α} {K : Text → Prop} {good : α → Prop} (h : good a) : Reads (pure a) [] K good :=
  fun _ _ _ => ⟨a, h, rfl⟩

theorem Reads.bind {m : P α} {f : α → P β} {s t : Text} {K K' : Text → Prop} {good : α → Prop} {good' : β → Prop}
    (hm : Reads m s K good) (hf : ∀ a, good a → Reads (f a) t K' good') (hK : ∀ rest, K' rest → K (t ++ rest)) :
    Reads (m >>= f) (s ++ t) K' good' := by
  intro rest off hr
  obtain ⟨a, ha, h1⟩ := hm (t ++ rest) off (hK rest hr)
  obtain ⟨b, hb, h2⟩ := hf a ha rest (off + byteLen s) hr
  refine ⟨b, hb, ?_⟩
  rw [List.append_assoc, bind_ok h1, h2, byteLen_append, Nat.add_assoc]

theorem Reads.mono {m : P α} {s : Text} {K K' : Text → Prop} {good good' : α → Prop} (h : Reads m s K good)
    (hK : ∀ rest, K' rest → K rest) (hg : ∀ a, good a → good' a) : Reads m s K' good' := by
  intro rest off hr
  obtain ⟨a, ha, h1⟩ := h rest off (hK rest hr)
  exact ⟨a, hg a ha, h1⟩

theorem Reads.map {m : P α} {f : α → β} {s : Text} {K : Text → Prop} {good : α → Prop} {good' : β → Prop}
    (hm : Reads m s K good) (hf : ∀ a, good a → good' (f a)) : Reads (do let a ← m; Pure.pure (f a)) s K good' := by
  have := Reads.bind (f := fun a => (Pure.pure (f a) : P β)) hm (t := []) (K' := K) (good' := good')
    (fun a ha => Reads.pure (hf a ha)) (fun _ h => h)
  rwa [List.append_nil] at this

/-- Anything may follow. -/
def Any : Text → Prop := fun _ => True

theorem isPrefixOf_append (a b : Text) : a.isPrefixOf (a ++ b) = true :=
  List.isPrefixOf_iff_prefix.mpr (List.prefix_append a b)

theorem Reads_take {npos : Nat} {w lit : Text} (hw : W w) (hl : lit ≠ []) (hs : Solid lit) :
    Reads (take npos lit) (w ++ lit) Any (fun t => t.s = lit) := by
  intro rest off _
  have hs' : Solid (lit ++ rest) := by
    cases lit with
    | nil => exact absurd rfl hl
    | cons c r => exact Solid_cons (hs c (by simp)) _
  have h1 := takeWhitespace_ws hw hs' off
  refine ⟨⟨lit, off + byteLen w - 1⟩, rfl, ?_⟩
  rw [List.append_assoc, take, bind_ok h1]
  simp only [isPrefixOf_append, if_true, bind_apply, matchToken, replaceInput, pure_apply, Lx.current,
    List.drop_left, byteLen_append, Nat.add_assoc]

theorem Reads_maybeTake {w lit : Text} (hw : W w) (hl : lit ≠ []) (hs : Solid lit) :
    Reads (maybeTake lit) (w ++ lit) Any (fun t => t.isSome = true) := by
  intro rest off _
  have hs' : Solid (lit ++ rest) := by
    cases lit with
    | nil => exact absurd rfl hl
    | cons c r => exact Solid_cons (hs c (by simp)) _
  have h1 := takeWhitespace_ws hw hs' off
  refine ⟨some ⟨lit, off + byteLen w - 1⟩, rfl, ?_⟩
  rw [List.append_assoc, maybeTake, bind_ok h1]
  simp only [isPrefixOf_append, if_true, bind_apply, matchToken, replaceInput, pure_apply, Lx.current,
    List.drop_left, byteLen_append, Nat.add_assoc]

theorem Reads_maybeTake_none {w lit : Text} (hw : W w) :
    Reads (maybeTake lit) w (fun rest => Solid rest ∧ lit.isPrefixOf rest = false) (fun t => t = none) := by
  intro rest off ⟨hs, hp⟩
  have h1 := takeWhitespace_ws hw hs off
  refine ⟨none, rfl, ?_⟩
  rw [maybeTake, bind_ok h1]
  simp only [hp, Bool.false_eq_true, if_false]

/-- What follows does not continue a word of the class. -/
def NoMore (f : Char → Bool) (rest : Text) : Prop := ∀ c ∈ rest.head?, f c = false

theorem takeWhile_noMore {f : Char → Bool} {m rest : Text} (hm : ∀ c ∈ m, f c = true) (hr : NoMore f rest) :
    (m ++ rest).takeWhile f = m := by
  rw [List.takeWhile_append_of_pos (by simpa using hm)]
  cases rest with
  | nil => simp
  | cons c r => rw [List.takeWhile_cons_of_neg (by simpa using hr c (by simp)), List.append_nil]

theorem dropWhile_noMore {f : Char → Bool} {m rest : Text} (hm : ∀ c ∈ m, f c = true) (hr : NoMore f rest) :
    (m ++ rest).dropWhile f = rest := by
  rw [List.dropWhile_append_of_pos (by simpa using hm)]
  cases rest with
  | nil => simp
  | cons c r => rw [List.dropWhile_cons_of_neg (by simpa using hr c (by simp))]

theorem Reads_takeWhile {npos : Nat} {f : Char → Bool} {w m : Text} (hw : W w) (hne : m ≠ [])
    (hm : ∀ c ∈ m, f c = true) (hf : ∀ c, f c = true → isWs c = false) :
    Reads (takeWhile npos f) (w ++ m) (NoMore f) (fun t => t.s = m) := by
  intro rest off hr
  have hs : Solid (m ++ rest) := by
    cases m with
    | nil => exact absurd rfl hne
    | cons c r => exact Solid_cons (hf c (hm c (by simp))) _
  have h1 := takeWhitespace_ws hw hs off
  refine ⟨⟨m, off + byteLen w + byteLen m - 1⟩, rfl, ?_⟩
  rw [List.append_assoc, takeWhile, bind_ok h1]
  simp only [takeWhile_noMore hm hr, if_neg hne]
  rw [bind_ok (moveInput_append m rest _)]
  simp only [matchToken, Lx.current, byteLen_append, Nat.add_assoc]

end Verif.Cell
