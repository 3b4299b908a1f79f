import Verif.Object.Props
import Mathlib.Logic.Relation
import Mathlib.Tactic.Common
/-
C117: several runs of the compiler at the same time, that share the object file of a module.

The model: a run that writes the object file creates it, or empties it, and then writes its bytes from the start (src/module/mod.rs:197 `fs::write`); a run that
reads it opens it and reads from the start (src/module/mod.rs:87-92 `File::open` and `bincode::deserialize_from`, which reads each value from the file, without a buffer).
The steps of different runs are interleaved in every possible way.  Two switches say if a file is also read, or written, in pieces; without them all bytes are read by
one step and all bytes are written by one step.  A run that crashes makes no more steps.  Simplification: modification times are left out.
-/
namespace Verif.Object
open Verif.Ast Verif.Loader Verif.Sheet Verif.Cache
open Verif.Cell hiding Target

/-- What a run does with the object file. -/
inductive ObjRun where
  /-- src/module/mod.rs:184-204 `write_object_file`, with these bytes -/
  | writer (b : Bytes)
  /-- src/module/mod.rs:80-103 `load_from_object_code_from_filename` -/
  | reader

/-- Where a run is. -/
inductive ObjPhase where
  | begin
  /-- so many bytes have been written -/
  | writing (n : Nat)
  /-- these bytes have been read -/
  | reading (got : Bytes)
  | written
  /-- what was read -/
  | result (r : Option (Module Text))

/-- What is in a file after `b` has been written at position `n`: what is missing before that position becomes zeros. -/
def putAt (c : Bytes) (n : Nat) (b : Bytes) : Bytes := c.take n ++ List.replicate (n - c.length) 0 ++ b ++ c.drop (n + b.length)

section
variable (X : Ext) (pieceReads pieceWrites : Bool)

/-- A step of one run, with the object file before and after. -/
inductive ObjStep : ObjRun → Option Bytes → ObjPhase → Option Bytes → ObjPhase → Prop
  /-- src/module/mod.rs:197 `fs::write`: the file is created, or emptied -/
  | create {b f} : ObjStep (.writer b) f .begin (some []) (.writing 0)
  /-- all bytes are written -/
  | put {b c} : ObjStep (.writer b) (some c) (.writing 0) (some (putAt c 0 b)) .written
  /-- some bytes are written -/
  | write {b c n k} : pieceWrites = true → 0 < k → n < b.length →
      ObjStep (.writer b) (some c) (.writing n) (some (putAt c n ((b.drop n).take k))) (.writing (n + ((b.drop n).take k).length))
  | last {b f n} : pieceWrites = true → b.length ≤ n → ObjStep (.writer b) f (.writing n) f .written
  /-- src/module/mod.rs:83-103: all bytes are read; no file, or one that cannot be read, gives nothing -/
  | look {f} : ObjStep .reader f .begin f (.result (f.bind (readObject X)))
  /-- src/module/mod.rs:87 -/
  | opened {c} : pieceReads = true → ObjStep .reader (some c) .begin (some c) (.reading [])
  /-- src/module/mod.rs:92: some bytes are read -/
  | get {c got k} : pieceReads = true → 0 < k → got.length < c.length → ObjStep .reader (some c) (.reading got) (some c) (.reading (got ++ (c.drop got.length).take k))
  /-- src/module/mod.rs:92: there are enough bytes -/
  | enough {f got m} : pieceReads = true → readObject X got = some m → ObjStep .reader f (.reading got) f (.result (some m))
  /-- src/module/mod.rs:92-100: the end of the file was reached before -/
  | eof {c got} : pieceReads = true → readObject X got = none → c.length ≤ got.length → ObjStep .reader (some c) (.reading got) (some c) (.result none)

end

/-- The object file, and where the runs are. -/
structure ObjRuns where
  file : Option Bytes
  phase : Nat → ObjPhase

/-- Some run makes a step. -/
def ObjTogether (X : Ext) (pieceReads pieceWrites : Bool) (runs : Nat → ObjRun) (s t : ObjRuns) : Prop :=
  ∃ i, ObjStep X pieceReads pieceWrites (runs i) s.file (s.phase i) t.file (t.phase i) ∧ ∀ k, k ≠ i → t.phase k = s.phase k

/-- All runs are at their beginning. -/
def objBegin (file : Option Bytes) : ObjRuns := ⟨file, fun _ => .begin⟩

/-! ### Specification -/

/-- The bytes of a module up to its definitions: version, path and scope (src/module/mod.rs:22-26). -/
def HeadOf (X : Ext) (m : Module Text) (p : Bytes) : Prop := ∃ path, (pair X.version (pair mpath (scope X))).enc (m.version, path, m.scope) p

/-- The other bytes of a module: the cells, the modules it uses and its source (src/module/mod.rs:27-31). -/
def RestOf (X : Ext) (m : Module Text) (q : Bytes) : Prop :=
  (pair (sheet X) (pair (list mpath) (pair source (pair bool bool)))).enc (m.sheet, m.required, m.source, m.dirty, m.needsEval) q

/-- The module with the version and the definitions of the first and everything else of the second. -/
def mixed (m₁ m₂ : Module Text) : Module Text := { m₂ with version := m₁.version, scope := m₁.scope }

variable {X : Ext} {runs : Nat → ObjRun} {file₀ : Option Bytes}

/-! ### Lemmas -/

theorem putAt_zero (c b : Bytes) : putAt c 0 b = b ++ c.drop b.length := by simp [putAt]

/-- A file that some run has written (and that may end with other bytes). -/
def WrittenBy (runs : Nat → ObjRun) (s : ObjRuns) (k : Nat) (c : Bytes) : Prop := ∃ b r, runs k = .writer b ∧ s.phase k = .written ∧ c = b ++ r

/-- A phase that a run of this kind can be in. -/
def Kind (r : ObjRun) : ObjPhase → Prop
  | .begin => True
  | .writing n => n = 0 ∧ ∃ b, r = .writer b
  | .reading _ => False
  | .written => ∃ b, r = .writer b
  | .result _ => r = .reader

/-- What is invariant if files are read and written at once. -/
structure ObjInv (X : Ext) (runs : Nat → ObjRun) (file₀ : Option Bytes) (s : ObjRuns) : Prop where
  now : (s.file = file₀ ∧ ∀ i, (s.phase i = .begin ∨ ∃ r, s.phase i = .result r)) ∨ (s.file = some [] ∧ ∃ i, s.phase i = .writing 0) ∨
    ∃ k c, s.file = some c ∧ WrittenBy runs s k c
  seen : ∀ i r, s.phase i = .result r → r = file₀.bind (readObject X) ∨ r = readObject X [] ∨ ∃ k c, WrittenBy runs s k c ∧ r = readObject X c
  kinds : ∀ i, Kind (runs i) (s.phase i)

theorem objInv_begin : ObjInv X runs file₀ (objBegin file₀) :=
  ⟨.inl ⟨rfl, fun _ => .inl rfl⟩, (fun i r h => by cases h), fun i => trivial⟩

theorem objInv_step {s t : ObjRuns} (h : ObjInv X runs file₀ s) (hst : ObjTogether X false false runs s t) : ObjInv X runs file₀ t := by
  obtain ⟨i, hstep, hother⟩ := hst
  obtain ⟨file, phase⟩ := s
  obtain ⟨file', phase'⟩ := t
  simp only at hstep hother
  obtain ⟨hnow, hseen, hkinds⟩ := h
  simp only at hnow hseen hkinds
  generalize hp : phase i = p at hstep
  generalize hp' : phase' i = p' at hstep
  generalize hr : runs i = ri at hstep
  have keep : p ≠ .written → ∀ {k c}, WrittenBy runs ⟨file, phase⟩ k c → WrittenBy runs ⟨file', phase'⟩ k c := by
    intro hne k c ⟨b, r, h1, h2, h3⟩
    have : k ≠ i := by rintro rfl; exact hne (hp ▸ h2)
    exact ⟨b, r, h1, (hother k this).trans h2, h3⟩
  have seen' : p ≠ .written → (∀ r, p' = .result r → r = file₀.bind (readObject X) ∨ r = readObject X [] ∨ ∃ k c, WrittenBy runs ⟨file', phase'⟩ k c ∧ r = readObject X c) →
      ∀ j r, phase' j = .result r → r = file₀.bind (readObject X) ∨ r = readObject X [] ∨ ∃ k c, WrittenBy runs ⟨file', phase'⟩ k c ∧ r = readObject X c := by
    intro hne hi j r hj
    by_cases hji : j = i
    · subst hji
      exact hi r (hp'.symm.trans hj)
    · rw [hother j hji] at hj
      rcases hseen j r hj with h | h | ⟨k, c, h1, h2⟩
      · exact .inl h
      · exact .inr (.inl h)
      · exact .inr (.inr ⟨k, c, keep hne h1, h2⟩)
  have kinds' : Kind (runs i) p' → ∀ j, Kind (runs j) (phase' j) := by
    intro hi j
    by_cases hji : j = i
    · subst hji
      rw [hp']
      exact hi
    · rw [hother j hji]
      exact hkinds j
  cases hstep with
  | create =>
    exact ⟨.inr (.inl ⟨rfl, i, hp'⟩), seen' (by simp) (by simp), kinds' ⟨rfl, _, hr⟩⟩
  | @put b c =>
    exact ⟨.inr (.inr ⟨i, _, rfl, b, _, hr, hp', putAt_zero _ _⟩), seen' (by simp) (by simp), kinds' ⟨_, hr⟩⟩
  | write h => cases h
  | last h => cases h
  | look =>
    refine ⟨?_, seen' (by simp) ?_, kinds' hr⟩
    · rcases hnow with ⟨h1, h2⟩ | ⟨h1, j, h2⟩ | ⟨k, c, h1, h2⟩
      · refine .inl ⟨h1, fun j => ?_⟩
        by_cases hji : j = i
        · subst hji
          exact .inr ⟨_, hp'⟩
        · simp only [hother j hji]
          exact h2 j
      · have : j ≠ i := by
          rintro rfl
          rw [hp] at h2
          cases h2
        exact .inr (.inl ⟨h1, j, (hother j this).trans h2⟩)
      · exact .inr (.inr ⟨k, c, h1, keep (by simp) h2⟩)
    · intro r hrr
      cases hrr
      rcases hnow with ⟨h1, h2⟩ | ⟨h1, j, h2⟩ | ⟨k, c, h1, h2⟩
      · exact .inl (by rw [h1])
      · exact .inr (.inl (by rw [h1]; rfl))
      · exact .inr (.inr ⟨k, c, keep (by simp) h2, by rw [h1]; rfl⟩)
  | opened h => cases h
  | get h => cases h
  | enough h => cases h
  | eof h => cases h

theorem objInv_reach {s : ObjRuns} (h : Relation.ReflTransGen (ObjTogether X false false runs) (objBegin file₀) s) : ObjInv X runs file₀ s := by
  induction h with
  | refl => exact objInv_begin
  | tail _ hst ih => exact objInv_step ih hst

theorem readObject_nil {m : Module Text} {b : Bytes} (h : ObjectFile X m b) (hb : b ≠ []) : readObject X [] = none :=
  C90_cut_off h List.nil_prefix (Ne.symm hb)

/-- The head of one module and the rest of another are an object file of both together. -/
theorem mixed_enc {m₁ m₂ : Module Text} {p q : Bytes} (hp : HeadOf X m₁ p) (hq : RestOf X m₂ q) : (module X).enc (mixed m₁ m₂) (p ++ q) := by
  obtain ⟨path, v, b, h1, ⟨c, d, h2, h3, rfl⟩, rfl⟩ := hp
  exact ⟨(m₁.version, path, m₁.scope, m₂.sheet, m₂.required, m₂.source, m₂.dirty, m₂.needsEval), rfl, v, c ++ (d ++ q), h1, ⟨c, d ++ q, h2, ⟨d, q, h3, hq, rfl⟩, rfl⟩,
    by simp only [List.append_assoc]⟩

theorem readObject_enc {m : Module Text} {b : Bytes} (h : (module X).enc m b) (r : Bytes) : readObject X (b ++ r) = some m := by
  rw [readObject, (module_lawful X).read h r]
  rfl

/-! ### C117 -/

/-- C117, if files are read and written at once: whatever the schedule, what a run reads is the module that was there before the runs, or nothing (and then it compiles the
source), or a module that a run has written. -/
theorem C117_reads_partial (hw : ∀ k b, runs k = .writer b → b ≠ [] ∧ ∃ m, ObjectFile X m b) {s : ObjRuns}
    (h : Relation.ReflTransGen (ObjTogether X false false runs) (objBegin file₀) s) {i : Nat} {r : Option (Module Text)} (hi : s.phase i = .result r) :
    r = file₀.bind (readObject X) ∨ r = none ∨ ∃ k b m m', runs k = .writer b ∧ ObjectFile X m b ∧ SameModule m m' ∧ r = some m' := by
  have inv := objInv_reach h
  rcases inv.seen i r hi with h1 | h1 | ⟨k, c, ⟨b, e, h2, -, rfl⟩, h4⟩
  · exact .inl h1
  · cases hn : readObject X [] with
    | none => exact .inr (.inl (h1.trans hn))
    | some m =>
      -- then nothing was written at all
      rcases inv.now with ⟨h2, h3⟩ | ⟨h2, j, h3⟩ | ⟨k, c, -, b, e, h3, -, -⟩
      · by_cases hwr : ∃ k b, runs k = .writer b
        · obtain ⟨k, b, hk⟩ := hwr
          obtain ⟨hne, m', hm⟩ := hw k b hk
          rw [readObject_nil hm hne] at hn
          cases hn
        · -- no run writes
          push Not at hwr
          have : ∀ t, Relation.ReflTransGen (ObjTogether X false false runs) (objBegin file₀) t →
              t.file = file₀ ∧ ∀ i r, t.phase i = .result r → r = file₀.bind (readObject X) := by
            intro t ht
            induction ht with
            | refl => exact ⟨rfl, fun i r h => by cases h⟩
            | @tail a b _ hst ih =>
              obtain ⟨l, hstep, hother⟩ := hst
              obtain ⟨file, phase⟩ := a
              obtain ⟨file', phase'⟩ := b
              simp only at hstep hother ih ⊢
              generalize hp : phase l = p at hstep
              generalize hp' : phase' l = p' at hstep
              generalize hr : runs l = rl at hstep
              cases hstep with
              | create => exact absurd hr (hwr l _)
              | put => exact absurd hr (hwr l _)
              | write h => cases h
              | last h => cases h
              | look =>
                refine ⟨ih.1, fun j r hj => ?_⟩
                by_cases hjl : j = l
                · subst hjl
                  rw [hp'] at hj
                  cases hj
                  rw [ih.1]
                · rw [hother j hjl] at hj
                  exact ih.2 j r hj
              | opened h => cases h
              | get h => cases h
              | enough h => cases h
              | eof h => cases h
          exact .inl ((this s h).2 i r hi)
      · have := inv.kinds j
        rw [h3] at this
        obtain ⟨-, b, hb⟩ := this
        obtain ⟨hne, m', hm⟩ := hw j b hb
        rw [readObject_nil hm hne] at hn
        cases hn
      · obtain ⟨hne, m', hm⟩ := hw k b h3
        rw [readObject_nil hm hne] at hn
        cases hn
  · obtain ⟨-, m, hm⟩ := hw k b h2
    obtain ⟨m', h5, h6⟩ := C90_roundtrip hm e
    exact .inr (.inr ⟨k, b, m, m', h2, hm, h6, h4.trans h5⟩)

/-- C117, if files are read and written at once: when some run has written and no run is about to write, the object file is read as the module of one of the runs that have
written. -/
theorem C117_final_partial (hw : ∀ k b, runs k = .writer b → ∃ m, ObjectFile X m b) {s : ObjRuns}
    (h : Relation.ReflTransGen (ObjTogether X false false runs) (objBegin file₀) s) (hno : ∀ i n, s.phase i ≠ .writing n) {i : Nat} (hi : s.phase i = .written) :
    ∃ k b m m' c, runs k = .writer b ∧ s.phase k = .written ∧ ObjectFile X m b ∧ SameModule m m' ∧ s.file = some c ∧ readObject X c = some m' := by
  have inv := objInv_reach h
  rcases inv.now with ⟨-, h2⟩ | ⟨-, j, h2⟩ | ⟨k, c, h1, b, e, h2, h3, rfl⟩
  · rcases h2 i with h | ⟨r, h⟩ <;> rw [hi] at h <;> cases h
  · exact absurd h2 (hno j 0)
  · obtain ⟨m, hm⟩ := hw k b h2
    obtain ⟨m', h5, h6⟩ := C90_roundtrip hm e
    exact ⟨k, b, m, m', _, h2, h3, hm, h6, h1, h5⟩

/-- The phases of the first two runs. -/
def two (a b : ObjPhase) : Nat → ObjPhase := fun i => if i = 0 then a else if i = 1 then b else .begin

theorem objBegin_two : objBegin file₀ = ⟨file₀, two .begin .begin⟩ := by
  simp only [objBegin, ObjRuns.mk.injEq, true_and]
  funext i
  simp only [two]
  split <;> [rfl; (split <;> rfl)]

theorem step_first {pr pw : Bool} {f f' : Option Bytes} {a a' b : ObjPhase} (h : ObjStep X pr pw (runs 0) f a f' a') :
    ObjTogether X pr pw runs ⟨f, two a b⟩ ⟨f', two a' b⟩ := ⟨0, by simpa [two] using h, fun k hk => by simp [two, hk]⟩

theorem step_second {pr pw : Bool} {f f' : Option Bytes} {a b b' : ObjPhase} (h : ObjStep X pr pw (runs 1) f b f' b') :
    ObjTogether X pr pw runs ⟨f, two a b⟩ ⟨f', two a b'⟩ := ⟨1, by simpa [two] using h, fun k hk => by simp [two, hk]⟩

/-- C117, violated by reading in pieces (as the code does): a run that reads the object file while another replaces it (at once) can read a module that no run has ever
written: the definitions of the old module with the cells, the uses and the source of the new one. -/
theorem C117_violated_reading {m₁ m₂ : Module Text} {p₁ q₁ p₂ q₂ : Bytes} (h1 : HeadOf X m₁ p₁) (h2 : RestOf X m₂ q₂) (hlen : p₁.length = p₂.length)
    (hp : p₁ ≠ []) (hq : q₂ ≠ []) (hr : runs 0 = .reader) (hw : runs 1 = .writer (p₂ ++ q₂)) :
    ∃ s, Relation.ReflTransGen (ObjTogether X true false runs) (objBegin (some (p₁ ++ q₁))) s ∧ s.phase 0 = .result (some (mixed m₁ m₂)) ∧ s.phase 1 = .written ∧
      s.file = some (p₂ ++ q₂) := by
  have l1 : 0 < p₁.length := List.length_pos_iff.mpr hp
  have l2 : 0 < q₂.length := List.length_pos_iff.mpr hq
  refine ⟨⟨some (p₂ ++ q₂), two (.result (some (mixed m₁ m₂))) .written⟩, ?_, by simp [two], by simp [two], rfl⟩
  rw [objBegin_two]
  have s1 : ObjStep X true false (runs 0) (some (p₁ ++ q₁)) .begin (some (p₁ ++ q₁)) (.reading []) := by rw [hr]; exact .opened rfl
  have s2 : ObjStep X true false (runs 0) (some (p₁ ++ q₁)) (.reading []) (some (p₁ ++ q₁)) (.reading p₁) := by
    rw [hr]
    have := ObjStep.get (X := X) (pieceWrites := false) (c := p₁ ++ q₁) (got := []) (k := p₁.length) rfl l1 (by simp only [List.length_nil, List.length_append]; omega)
    simpa using this
  have s3 : ObjStep X true false (runs 1) (some (p₁ ++ q₁)) .begin (some []) (.writing 0) := by rw [hw]; exact .create
  have s4 : ObjStep X true false (runs 1) (some []) (.writing 0) (some (p₂ ++ q₂)) .written := by
    rw [hw]
    have := ObjStep.put (X := X) (pieceReads := true) (pieceWrites := false) (b := p₂ ++ q₂) (c := [])
    rwa [putAt_zero, List.drop_nil, List.append_nil] at this
  have s5 : ObjStep X true false (runs 0) (some (p₂ ++ q₂)) (.reading p₁) (some (p₂ ++ q₂)) (.reading (p₁ ++ q₂)) := by
    rw [hr]
    have := ObjStep.get (X := X) (pieceWrites := false) (c := p₂ ++ q₂) (got := p₁) (k := q₂.length) rfl l2 (by simp only [List.length_append]; omega)
    rwa [hlen, List.drop_left, List.take_length] at this
  have s6 : ObjStep X true false (runs 0) (some (p₂ ++ q₂)) (.reading (p₁ ++ q₂)) (some (p₂ ++ q₂)) (.result (some (mixed m₁ m₂))) := by
    rw [hr]
    refine .enough rfl ?_
    have := readObject_enc (mixed_enc h1 h2) []
    rwa [List.append_nil] at this
  exact .tail (.tail (.tail (.tail (.tail (.tail .refl (step_first s1)) (step_first s2)) (step_second s3)) (step_second s4)) (step_first s5)) (step_first s6)

/-- C117, violated by writing in pieces (if the system does not write all bytes at once): when two runs write the object file and one of them crashes, the file can be left
as a module that no run has compiled: the definitions of one with everything else of the other. -/
theorem C117_violated_writing {m₁ m₂ : Module Text} {p₁ q₁ p₂ q₂ : Bytes} (h1 : HeadOf X m₁ p₁) (h2 : RestOf X m₂ q₂) (hlen : p₁.length = p₂.length)
    (hp : p₁ ≠ []) (hr : runs 0 = .writer (p₁ ++ q₁)) (hw : runs 1 = .writer (p₂ ++ q₂)) :
    ∃ s c, Relation.ReflTransGen (ObjTogether X false true runs) (objBegin file₀) s ∧ s.phase 1 = .written ∧ s.file = some c ∧ readObject X c = some (mixed m₁ m₂) := by
  have l1 : 0 < p₁.length := List.length_pos_iff.mpr hp
  refine ⟨⟨some (p₁ ++ q₂), two (.writing p₁.length) .written⟩, p₁ ++ q₂, ?_, by simp [two], rfl, ?_⟩
  · rw [objBegin_two]
    have s1 : ObjStep X false true (runs 0) file₀ .begin (some []) (.writing 0) := by rw [hr]; exact .create
    have s2 : ObjStep X false true (runs 1) (some []) .begin (some []) (.writing 0) := by rw [hw]; exact .create
    have s3 : ObjStep X false true (runs 1) (some []) (.writing 0) (some (p₂ ++ q₂)) .written := by
      rw [hw]
      have := ObjStep.put (X := X) (pieceReads := false) (pieceWrites := true) (b := p₂ ++ q₂) (c := [])
      rwa [putAt_zero, List.drop_nil, List.append_nil] at this
    have s4 : ObjStep X false true (runs 0) (some (p₂ ++ q₂)) (.writing 0) (some (p₁ ++ q₂)) (.writing p₁.length) := by
      rw [hr]
      have := ObjStep.write (X := X) (pieceReads := false) (b := p₁ ++ q₁) (c := p₂ ++ q₂) (n := 0) (k := p₁.length) rfl l1 (by rw [List.length_append]; omega)
      rw [List.drop_zero, List.take_left, putAt_zero, Nat.zero_add, hlen, List.drop_left] at this
      rw [hlen]
      exact this
    exact .tail (.tail (.tail (.tail .refl (step_first s1)) (step_second s2)) (step_second s3)) (step_first s4)
  · have := readObject_enc (mixed_enc h1 h2) []
    rwa [List.append_nil] at this

end Verif.Object
