import Verif.Text
import Mathlib.Tactic.Common
/-
The format of object files: bincode 1.3 (`bincode::serialize` and `bincode::deserialize_from` with their default options: numbers of fixed width, least byte first;
lengths as `u64`; variants of enumerations as `u32`), as used in src/module/mod.rs:78-103 and 184-204.  bincode and serde are not part of the repository; this is
modelled from their documentation.
-/
namespace Verif.Object

abbrev Bytes := List UInt8

/-- How values of a type are written and read.  Writing is a relation, because hash maps and sets are written in the order they are iterated over; reading gives the value
and the bytes that follow it, or fails. -/
structure Codec (α : Type) where
  enc : α → Bytes → Prop
  dec : Bytes → Option (α × Bytes)

/-- What is written is read back, whatever follows; a value that was read does not depend on what follows it; and reading takes bytes from the front. -/
structure Lawful {α : Type} (c : Codec α) : Prop where
  read : ∀ {a b}, c.enc a b → ∀ r, c.dec (b ++ r) = some (a, r)
  stable : ∀ {p a r}, c.dec p = some (a, r) → ∀ s, c.dec (p ++ s) = some (a, r ++ s)
  front : ∀ {p a r}, c.dec p = some (a, r) → ∃ q, p = q ++ r

/-! ## The building blocks -/

/-- The `k` bytes of a number, least byte first. -/
def leBytes : Nat → Nat → Bytes
  | 0, _ => []
  | k + 1, n => UInt8.ofNat (n % 256) :: leBytes k (n / 256)

/-- The number with these bytes. -/
def leNat : Bytes → Nat
  | [] => 0
  | b :: bs => b.toNat + 256 * leNat bs

/-- An unsigned number of `k` bytes (`u8`, `u32`, `u64`; `usize` is written as `u64`). -/
def le (k : Nat) : Codec Nat :=
  ⟨fun n b => n < 256 ^ k ∧ b = leBytes k n, fun p => if p.length < k then none else some (leNat (p.take k), p.drop k)⟩

/-- Nothing (a variant without fields). -/
def unit : Codec Unit := ⟨fun _ b => b = [], fun p => some ((), p)⟩

/-- One value after the other (the fields of a `struct` or variant). -/
def pair {α β : Type} (c : Codec α) (d : Codec β) : Codec (α × β) :=
  ⟨fun x b => ∃ b₁ b₂, c.enc x.1 b₁ ∧ d.enc x.2 b₂ ∧ b = b₁ ++ b₂,
   fun p => match c.dec p with
    | none => none
    | some (a, r) =>
      match d.dec r with
      | none => none
      | some (a', r') => some ((a, a'), r')⟩

/-- The value made from its fields. -/
def ctor {α β : Type} (f : α → β) (c : Codec α) : Codec β :=
  ⟨fun y b => ∃ x, y = f x ∧ c.enc x b, fun p => (c.dec p).map fun x => (f x.1, x.2)⟩

/-- A value of which only some have a form to be written in. -/
def check {α β : Type} (f : α → Option β) (c : Codec α) : Codec β :=
  ⟨fun y b => ∃ x, f x = some y ∧ c.enc x b, fun p => match c.dec p with
    | none => none
    | some (x, r) => (f x).map fun y => (y, r)⟩

/-- An enumeration: the number of the variant as `u32`, and the fields of the variant. -/
def enum {α : Type} (alts : List (Codec α)) : Codec α :=
  ⟨fun a b => ∃ (i : Nat) (c : Codec α) (b₁ b₂ : Bytes), alts[i]? = some c ∧ (le 4).enc i b₁ ∧ c.enc a b₂ ∧ b = b₁ ++ b₂,
   fun p => match (le 4).dec p with
    | none => none
    | some (i, r) =>
      match alts[i]? with
      | none => none
      | some c => c.dec r⟩

/-- `bool`: one byte, 0 or 1. -/
def bool : Codec Bool := check (fun n => if n = 0 then some false else if n = 1 then some true else none) (le 1)

/-- `Option`: a byte 0, or a byte 1 and the value. -/
def option {α : Type} (c : Codec α) : Codec (Option α) :=
  ⟨fun a b => match a with
    | none => b = [0]
    | some x => ∃ b', c.enc x b' ∧ b = 1 :: b',
   fun p => match p with
    | [] => none
    | t :: r =>
      if t = 0 then some (none, r)
      else if t = 1 then (c.dec r).map fun x => (some x.1, x.2)
      else none⟩

/-- The elements one after the other. -/
inductive EncAll {α : Type} (c : Codec α) : List α → Bytes → Prop
  | nil : EncAll c [] []
  | cons {a as b bs} : c.enc a b → EncAll c as bs → EncAll c (a :: as) (b ++ bs)

/-- `n` elements one after the other. -/
def decN {α : Type} (c : Codec α) : Nat → Bytes → Option (List α × Bytes)
  | 0, p => some ([], p)
  | n + 1, p =>
    match c.dec p with
    | none => none
    | some (a, r) =>
      match decN c n r with
      | none => none
      | some (as, r') => some (a :: as, r')

/-- `Vec`: the length as `u64`, and the elements. -/
def list {α : Type} (c : Codec α) : Codec (List α) :=
  ⟨fun l b => ∃ b₁ b₂, (le 8).enc l.length b₁ ∧ EncAll c l b₂ ∧ b = b₁ ++ b₂,
   fun p => match (le 8).dec p with
    | none => none
    | some (n, r) => decN c n r⟩

/-- `n` bytes. -/
def bytesN (n : Nat) (p : Bytes) : Option (Bytes × Bytes) := if p.length < n then none else some (p.take n, p.drop n)

/-- The UTF-8 bytes of a text. -/
def utf8 (t : Text) : Bytes := t.flatMap String.utf8EncodeChar

/-- The text with these UTF-8 bytes, if there is one. -/
def ofUtf8 (b : Bytes) : Option Text := (b.toByteArray.utf8Decode?).map (·.toList)

/-- `String`: the number of bytes as `u64`, and the bytes in UTF-8, which reading verifies. -/
def text : Codec Text :=
  ⟨fun t b => ∃ b₁, (le 8).enc (utf8 t).length b₁ ∧ b = b₁ ++ utf8 t,
   fun p => match (le 8).dec p with
    | none => none
    | some (n, r) =>
      match bytesN n r with
      | none => none
      | some (b, r') => (ofUtf8 b).map fun t => (t, r')⟩

/-- `i64`: two's complement. -/
def signed (n : Nat) : Int := if n < 2 ^ 63 then n else (n : Int) - 2 ^ 64

/-- `i64`. -/
def i64 : Codec Int := ctor signed (le 8)

/-- `u8`. -/
def u8 : Codec UInt8 := ctor UInt8.ofNat (le 1)

/-- What is in a `HashMap` after the entries were inserted one after the other. -/
def mapOf {α : Type} (es : List (Text × α)) : Text → Option α := fun k => es.reverse.lookup k

/-- `HashMap<String, _>`: the number of entries and the entries, in any order. -/
def hashMap {α : Type} (c : Codec α) : Codec (Text → Option α) :=
  ⟨fun f b => ∃ es, (es.map (·.1)).Nodup ∧ f = mapOf es ∧ (list (pair text c)).enc es b,
   fun p => ((list (pair text c)).dec p).map fun x => (mapOf x.1, x.2)⟩

/-- `HashSet` of a type with finitely many values: the number of members and the members, in any order. -/
def hashSet {α : Type} [DecidableEq α] (c : Codec α) : Codec (α → Bool) :=
  ⟨fun f b => ∃ l : List α, l.Nodup ∧ (∀ x, f x = decide (x ∈ l)) ∧ (list c).enc l b,
   fun p => ((list c).dec p).map fun x => (fun y => decide (y ∈ x.1), x.2)⟩

/-! ## The laws -/

theorem leBytes_length (k n : Nat) : (leBytes k n).length = k := by
  induction k generalizing n with
  | zero => rfl
  | succ k ih => simp [leBytes, ih]

theorem leNat_leBytes {k n : Nat} (h : n < 256 ^ k) : leNat (leBytes k n) = n := by
  induction k generalizing n with
  | zero => simp only [Nat.pow_zero] at h; simp [leBytes, leNat]; omega
  | succ k ih =>
    rw [leBytes, leNat, ih (by rw [Nat.pow_succ] at h; omega)]
    have : (UInt8.ofNat (n % 256)).toNat = n % 256 := by
      rw [UInt8.toNat_ofNat']
      omega
    rw [this]
    omega

theorem le_lawful (k : Nat) : Lawful (le k) where
  read := by
    rintro a b ⟨h, rfl⟩ r
    have hl := leBytes_length k a
    simp only [le]
    rw [if_neg (by simp [hl]), List.take_left' hl, List.drop_left' hl, leNat_leBytes h]
  stable := by
    intro p a r h s
    simp only [le] at h ⊢
    split at h
    · cases h
    · rename_i hk
      cases h
      rw [if_neg (by simp; omega), List.take_append_of_le_length (by omega), List.drop_append_of_le_length (by omega)]
  front := by
    intro p a r h
    simp only [le] at h
    split at h
    · cases h
    · cases h
      exact ⟨p.take k, (List.take_append_drop k p).symm⟩

theorem le_short {k : Nat} {p r : Bytes} {n : Nat} (h : (le k).dec p = some (n, r)) : p.length = r.length + k := by
  simp only [le] at h
  split at h
  · cases h
  · cases h
    simp
    omega

theorem unit_lawful : Lawful unit where
  read := by rintro _ b rfl r; rfl
  stable := by intro p a r h s; cases h; rfl
  front := by intro p a r h; cases h; exact ⟨[], rfl⟩

theorem pair_dec {α β : Type} {c : Codec α} {d : Codec β} {p : Bytes} {x : α × β} {r : Bytes} (h : (pair c d).dec p = some (x, r)) :
    ∃ r₁, c.dec p = some (x.1, r₁) ∧ d.dec r₁ = some (x.2, r) := by
  simp only [pair] at h
  split at h
  · cases h
  · rename_i a r₁ h1
    split at h
    · cases h
    · rename_i a' r' h2
      cases h
      exact ⟨r₁, h1, h2⟩

theorem pair_dec_of {α β : Type} {c : Codec α} {d : Codec β} {p r₁ r : Bytes} {a : α} {a' : β} (h1 : c.dec p = some (a, r₁)) (h2 : d.dec r₁ = some (a', r)) :
    (pair c d).dec p = some ((a, a'), r) := by
  simp only [pair, h1, h2]

theorem pair_lawful {α β : Type} {c : Codec α} {d : Codec β} (hc : Lawful c) (hd : Lawful d) : Lawful (pair c d) where
  read := by
    rintro ⟨x, y⟩ b ⟨b₁, b₂, h1, h2, rfl⟩ r
    rw [List.append_assoc]
    exact pair_dec_of (hc.read h1 _) (hd.read h2 r)
  stable := by
    rintro p ⟨x, y⟩ r h s
    obtain ⟨r₁, h1, h2⟩ := pair_dec h
    exact pair_dec_of (hc.stable h1 s) (hd.stable h2 s)
  front := by
    rintro p ⟨x, y⟩ r h
    obtain ⟨r₁, h1, h2⟩ := pair_dec h
    obtain ⟨q₁, rfl⟩ := hc.front h1
    obtain ⟨q₂, rfl⟩ := hd.front h2
    exact ⟨q₁ ++ q₂, (List.append_assoc ..).symm⟩

theorem check_dec {α β : Type} {f : α → Option β} {c : Codec α} {p r : Bytes} {y : β} : (check f c).dec p = some (y, r) ↔ ∃ x, c.dec p = some (x, r) ∧ f x = some y := by
  simp only [check]
  cases h : c.dec p with
  | none => simp
  | some x =>
    obtain ⟨x, r'⟩ := x
    simp only [Option.map_eq_some_iff, Option.some.injEq, Prod.mk.injEq]
    constructor
    · rintro ⟨y', h1, rfl, rfl⟩; exact ⟨x, ⟨rfl, rfl⟩, h1⟩
    · rintro ⟨_, ⟨rfl, rfl⟩, h1⟩; exact ⟨y, h1, rfl, rfl⟩

theorem check_lawful {α β : Type} (f : α → Option β) {c : Codec α} (hc : Lawful c) : Lawful (check f c) where
  read := by
    rintro a b ⟨x, h1, h2⟩ r
    exact check_dec.mpr ⟨x, hc.read h2 r, h1⟩
  stable := by
    intro p a r h s
    obtain ⟨x, h1, h2⟩ := check_dec.mp h
    exact check_dec.mpr ⟨x, hc.stable h1 s, h2⟩
  front := by
    intro p a r h
    obtain ⟨x, h1, h2⟩ := check_dec.mp h
    exact hc.front h1

theorem ctor_dec {α β : Type} {f : α → β} {c : Codec α} {p r : Bytes} {y : β} : (ctor f c).dec p = some (y, r) ↔ ∃ x, c.dec p = some (x, r) ∧ f x = y := by
  simp only [ctor, Option.map_eq_some_iff, Prod.exists, Prod.mk.injEq]
  constructor
  · rintro ⟨x, r', h1, h2, rfl⟩; exact ⟨x, h1, h2⟩
  · rintro ⟨x, h1, h2⟩; exact ⟨x, r, h1, h2, rfl⟩

theorem ctor_lawful {α β : Type} (f : α → β) {c : Codec α} (hc : Lawful c) : Lawful (ctor f c) where
  read := by
    rintro a b ⟨x, rfl, h2⟩ r
    exact ctor_dec.mpr ⟨x, hc.read h2 r, rfl⟩
  stable := by
    intro p a r h s
    obtain ⟨x, h1, h2⟩ := ctor_dec.mp h
    exact ctor_dec.mpr ⟨x, hc.stable h1 s, h2⟩
  front := by
    intro p a r h
    obtain ⟨x, h1, h2⟩ := ctor_dec.mp h
    exact hc.front h1

theorem enum_dec {α : Type} {alts : List (Codec α)} {p r : Bytes} {a : α} :
    (enum alts).dec p = some (a, r) ↔ ∃ i r₁ c, (le 4).dec p = some (i, r₁) ∧ alts[i]? = some c ∧ c.dec r₁ = some (a, r) := by
  simp only [enum]
  cases h : (le 4).dec p with
  | none => simp
  | some x =>
    obtain ⟨i, r₁⟩ := x
    cases h' : alts[i]? with
    | none => simp [h']
    | some c => simp [h']

theorem enum_lawful {α : Type} {alts : List (Codec α)} (h : ∀ c ∈ alts, Lawful c) : Lawful (enum alts) where
  read := by
    rintro a b ⟨i, c, b₁, b₂, h1, h2, h3, rfl⟩ r
    rw [List.append_assoc]
    exact enum_dec.mpr ⟨i, _, c, (le_lawful 4).read h2 _, h1, (h c (List.mem_of_getElem? h1)).read h3 r⟩
  stable := by
    intro p a r hd s
    obtain ⟨i, r₁, c, h1, h2, h3⟩ := enum_dec.mp hd
    exact enum_dec.mpr ⟨i, _, c, (le_lawful 4).stable h1 s, h2, (h c (List.mem_of_getElem? h2)).stable h3 s⟩
  front := by
    intro p a r hd
    obtain ⟨i, r₁, c, h1, h2, h3⟩ := enum_dec.mp hd
    obtain ⟨q₁, rfl⟩ := (le_lawful 4).front h1
    obtain ⟨q₂, rfl⟩ := (h c (List.mem_of_getElem? h2)).front h3
    exact ⟨q₁ ++ q₂, (List.append_assoc ..).symm⟩

theorem bool_lawful : Lawful bool := check_lawful _ (le_lawful 1)

theorem option_lawful {α : Type} {c : Codec α} (hc : Lawful c) : Lawful (option c) where
  read := by
    rintro (_ | x) b h r
    · simp only [option] at h
      subst h
      rfl
    · obtain ⟨b', h1, rfl⟩ := h
      simp only [option, List.cons_append]
      rw [if_neg (by decide), if_pos trivial, hc.read h1]
      rfl
  stable := by
    intro p a r h s
    cases p with
    | nil => simp [option] at h
    | cons t p =>
      simp only [option, List.cons_append] at h ⊢
      split at h
      · cases h
        rw [if_pos (by assumption)]
      · rename_i ht
        rw [if_neg ht]
        split at h
        · rw [if_pos (by assumption)]
          obtain ⟨⟨x, r'⟩, h1, h2⟩ := Option.map_eq_some_iff.mp h
          cases h2
          rw [hc.stable h1 s]
          rfl
        · cases h
  front := by
    intro p a r h
    cases p with
    | nil => simp [option] at h
    | cons t p =>
      simp only [option] at h
      split at h
      · cases h
        exact ⟨[t], rfl⟩
      · split at h
        · obtain ⟨⟨x, r'⟩, h1, h2⟩ := Option.map_eq_some_iff.mp h
          cases h2
          obtain ⟨q, rfl⟩ := hc.front h1
          exact ⟨t :: q, rfl⟩
        · cases h

theorem decN_cons {α : Type} {c : Codec α} {n : Nat} {p r : Bytes} {l : List α} :
    decN c (n + 1) p = some (l, r) ↔ ∃ a as r₁, c.dec p = some (a, r₁) ∧ decN c n r₁ = some (as, r) ∧ l = a :: as := by
  rw [decN]
  cases h : c.dec p with
  | none => simp
  | some x =>
    obtain ⟨a, r₁⟩ := x
    simp only
    cases h' : decN c n r₁ with
    | none => simp [h']
    | some y =>
      obtain ⟨as, r'⟩ := y
      simp only [Option.some.injEq, Prod.mk.injEq]
      constructor
      · rintro ⟨rfl, rfl⟩; exact ⟨a, as, r₁, ⟨rfl, rfl⟩, h', rfl⟩
      · rintro ⟨a', as', r₁', ⟨rfl, rfl⟩, h2, rfl⟩
        rw [h'] at h2; cases h2
        exact ⟨rfl, rfl⟩

theorem decN_read {α : Type} {c : Codec α} (hc : Lawful c) {l : List α} {b : Bytes} (h : EncAll c l b) (r : Bytes) : decN c l.length (b ++ r) = some (l, r) := by
  induction h with
  | nil => rfl
  | cons h1 _ ih =>
    rw [List.append_assoc]
    exact decN_cons.mpr ⟨_, _, _, hc.read h1 _, ih, rfl⟩

theorem decN_stable {α : Type} {c : Codec α} (hc : Lawful c) {n : Nat} {p r : Bytes} {l : List α} (h : decN c n p = some (l, r)) (s : Bytes) :
    decN c n (p ++ s) = some (l, r ++ s) := by
  induction n generalizing p l with
  | zero => cases h; rfl
  | succ n ih =>
    obtain ⟨a, as, r₁, h1, h2, rfl⟩ := decN_cons.mp h
    exact decN_cons.mpr ⟨a, as, _, hc.stable h1 s, ih h2, rfl⟩

theorem decN_front {α : Type} {c : Codec α} (hc : Lawful c) {n : Nat} {p r : Bytes} {l : List α} (h : decN c n p = some (l, r)) : ∃ q, p = q ++ r := by
  induction n generalizing p l with
  | zero => cases h; exact ⟨[], rfl⟩
  | succ n ih =>
    obtain ⟨a, as, r₁, h1, h2, rfl⟩ := decN_cons.mp h
    obtain ⟨q₁, rfl⟩ := hc.front h1
    obtain ⟨q₂, rfl⟩ := ih h2
    exact ⟨q₁ ++ q₂, (List.append_assoc ..).symm⟩

theorem list_dec {α : Type} {c : Codec α} {p r : Bytes} {l : List α} : (list c).dec p = some (l, r) ↔ ∃ n r₁, (le 8).dec p = some (n, r₁) ∧ decN c n r₁ = some (l, r) := by
  simp only [list]
  cases h : (le 8).dec p with
  | none => simp
  | some x => obtain ⟨n, r₁⟩ := x; simp

theorem list_lawful {α : Type} {c : Codec α} (hc : Lawful c) : Lawful (list c) where
  read := by
    rintro l b ⟨b₁, b₂, h1, h2, rfl⟩ r
    rw [List.append_assoc]
    exact list_dec.mpr ⟨_, _, (le_lawful 8).read h1 _, decN_read hc h2 r⟩
  stable := by
    intro p l r h s
    obtain ⟨n, r₁, h1, h2⟩ := list_dec.mp h
    exact list_dec.mpr ⟨n, _, (le_lawful 8).stable h1 s, decN_stable hc h2 s⟩
  front := by
    intro p l r h
    obtain ⟨n, r₁, h1, h2⟩ := list_dec.mp h
    obtain ⟨q₁, rfl⟩ := (le_lawful 8).front h1
    obtain ⟨q₂, rfl⟩ := decN_front hc h2
    exact ⟨q₁ ++ q₂, (List.append_assoc ..).symm⟩

theorem ofUtf8_utf8 (t : Text) : ofUtf8 (utf8 t) = some t := by
  have h : (utf8 t).toByteArray = t.utf8Encode := rfl
  rw [ofUtf8, h, List.utf8Decode?_utf8Encode]
  simp

theorem text_dec {p r : Bytes} {t : Text} : text.dec p = some (t, r) ↔ ∃ n r₁, (le 8).dec p = some (n, r₁) ∧ n ≤ r₁.length ∧ ofUtf8 (r₁.take n) = some t ∧ r = r₁.drop n := by
  simp only [text]
  cases h : (le 8).dec p with
  | none => simp
  | some x =>
    obtain ⟨n, r₁⟩ := x
    simp only [bytesN]
    by_cases hn : r₁.length < n
    · rw [if_pos hn]
      simp only [reduceCtorEq, Option.some.injEq, Prod.mk.injEq, false_iff, not_exists]
      rintro n' r' ⟨⟨rfl, rfl⟩, h2, -⟩
      omega
    · rw [if_neg hn]
      simp only [Option.map_eq_some_iff, Option.some.injEq, Prod.mk.injEq]
      constructor
      · rintro ⟨a, h1, rfl, rfl⟩; exact ⟨n, r₁, ⟨rfl, rfl⟩, by omega, h1, rfl⟩
      · rintro ⟨n', r', ⟨rfl, rfl⟩, -, h1, rfl⟩; exact ⟨t, h1, rfl, rfl⟩

theorem text_lawful : Lawful text where
  read := by
    rintro t b ⟨b₁, h1, rfl⟩ r
    rw [List.append_assoc]
    refine text_dec.mpr ⟨_, _, (le_lawful 8).read h1 _, by simp, ?_, ?_⟩
    · rw [List.take_left]; exact ofUtf8_utf8 t
    · rw [List.drop_left]
  stable := by
    intro p t r h s
    obtain ⟨n, r₁, h1, h2, h3, rfl⟩ := text_dec.mp h
    refine text_dec.mpr ⟨n, _, (le_lawful 8).stable h1 s, by simp; omega, ?_, ?_⟩
    · rw [List.take_append_of_le_length h2]; exact h3
    · rw [List.drop_append_of_le_length h2]
  front := by
    intro p t r h
    obtain ⟨n, r₁, h1, h2, h3, rfl⟩ := text_dec.mp h
    obtain ⟨q₁, rfl⟩ := (le_lawful 8).front h1
    exact ⟨q₁ ++ r₁.take n, by rw [List.append_assoc, List.take_append_drop]⟩

theorem i64_lawful : Lawful i64 := ctor_lawful _ (le_lawful 8)

theorem u8_lawful : Lawful u8 := ctor_lawful _ (le_lawful 1)

theorem hashMap_lawful {α : Type} {c : Codec α} (hc : Lawful c) : Lawful (hashMap c) := by
  have hl := ctor_lawful mapOf (list_lawful (pair_lawful text_lawful hc))
  exact ⟨(by rintro a b ⟨es, -, h1, h2⟩ r; exact hl.read ⟨es, h1, h2⟩ r), hl.stable, hl.front⟩

theorem hashSet_lawful {α : Type} [DecidableEq α] {c : Codec α} (hc : Lawful c) : Lawful (hashSet c) := by
  have hl := ctor_lawful (fun (l : List α) (x : α) => decide (x ∈ l)) (list_lawful hc)
  exact ⟨(by rintro a b ⟨l, -, h1, h2⟩ r; exact hl.read ⟨l, funext h1, h2⟩ r), hl.stable, hl.front⟩

/-! ## What the laws say about files -/

/-- A file that was cut off is not read. -/
theorem cut_off {α : Type} {c : Codec α} (hc : Lawful c) {a : α} {b p : Bytes} (h : c.enc a b) (hp : p <+: b) (hne : p ≠ b) : c.dec p = none := by
  cases hd : c.dec p with
  | none => rfl
  | some x =>
    obtain ⟨a', r⟩ := x
    obtain ⟨s, rfl⟩ := hp
    have h1 := hc.stable hd s
    have h2 := hc.read h []
    rw [List.append_nil, h1, Option.some.injEq, Prod.mk.injEq] at h2
    have : s = [] := (List.append_eq_nil_iff.mp h2.2).2
    exact absurd (by rw [this, List.append_nil]) hne

end Verif.Object
