import Verif.Object.Laws
import Verif.Cache.Sessions
/-
C90: an object file is read back as the module it was written for, and one that was only partly written is never used.
-/
namespace Verif.Object
open Verif.Ast Verif.Loader Verif.Sheet Verif.Cache
open Verif.Cell hiding Target

/-! ## Specification -/

/-- A directory: the texts of source files and the bytes of object files, with their modification times. -/
structure Dir where
  src : MPath → Option (Text × Nat)
  obj : MPath → Option (Bytes × Nat)

/-- The object file of `p` now has the bytes `b`. -/
def Dir.put (d : Dir) (t : Nat) (p : MPath) (b : Bytes) : Dir := ⟨d.src, fun q => if q = p then some (b, t) else d.obj q⟩

/-- What the compiler reads in a directory (src/module/mod.rs:78-103): an object file that cannot be read is like none. -/
def Dir.read (X : Ext) (d : Dir) : FS Text :=
  ⟨d.src, fun p => match d.obj p with
    | none => none
    | some (b, t) => (readObject X b).map fun m => (m, t)⟩

/-- src/module/mod.rs:184-204 (`fs::write`) for one module after the other, when `File m b` says that `b` may be written for `m`: the second directory is left when
writing stops anywhere, possibly after some of the bytes of a file. -/
inductive Writing (File : Module Text → Bytes → Prop) (t : Nat) : Dir → List (MPath × Module Text) → Dir → Prop
  | stop {d w} : Writing File t d w d
  | within {d p m w b} (part : Bytes) : File m b → part <+: b → Writing File t d ((p, m) :: w) (d.put t p part)
  | next {d p m w b d'} : File m b → Writing File t (d.put t p b) w d' → Writing File t d ((p, m) :: w) d'

/-- The histories of Verif.Cache.Sessions, of a directory with bytes: the compiler may be stopped after any byte that it writes.  The exported names are written in the
order in which the model lists them. -/
inductive ByteSession (X : Ext) (parse : Text → Except LoadError Parsed) (version : Nat) (lib : List MPath) : Dir → Nat → Prop
  | start {d clock} : (∀ p, d.obj p = none) → (∀ p c t, d.src p = some (c, t) → t ≤ clock) → LibrarySources parse lib (d.read X) →
      (∀ p c t, p ∉ lib → d.src p = some (c, t) → UsesOnce parse lib c) → ByteSession X parse version lib d clock
  | edit {d clock t p c} : ByteSession X parse version lib d clock → clock < t → p ∉ lib → UsesOnce parse lib c →
      ByteSession X parse version lib ⟨fun q => if q = p then some (c, t) else d.src q, d.obj⟩ t
  | compile {d d' clock t useCache kv mp o w} : ByteSession X parse version lib d clock → clock ≤ t → mp ∉ lib →
      Compile parse version useCache kv (d.read X) mp o w → Writing (module X).enc t d w d' → ByteSession X parse version lib d' t
  | delete {d clock} (p : MPath) : ByteSession X parse version lib d clock →
      ByteSession X parse version lib ⟨d.src, fun q => if q = p then none else d.obj q⟩ clock

/-! ## Proofs -/

section
variable {X : Ext}

/-- C90, reading.  What was written for a module is read back as that module (whatever bytes follow). -/
theorem C90_roundtrip {m : Module Text} {b : Bytes} (h : ObjectFile X m b) (r : Bytes) : ∃ m', readObject X (b ++ r) = some m' ∧ SameModule m m' := by
  obtain ⟨m', h1, -, h2⟩ := h
  exact ⟨m', by rw [readObject, (module_lawful X).read h2 r]; rfl, h1⟩

theorem SameModule.symm {m m' : Module Text} (h : SameModule m m') : SameModule m' m := by
  obtain ⟨h1, h2⟩ := h
  refine ⟨fun k => (h1 k).symm, ?_⟩
  rw [h2]

theorem SameModule.trans {m₁ m₂ m₃ : Module Text} (h : SameModule m₁ m₂) (h' : SameModule m₂ m₃) : SameModule m₁ m₃ := by
  obtain ⟨h1, h2⟩ := h
  obtain ⟨h3, h4⟩ := h'
  refine ⟨fun k => (h1 k).trans (h3 k), ?_⟩
  rw [h4, h2]

/-- C90, no confusion.  An object file can only have been written for one module. -/
theorem C90_faithful {m₁ m₂ : Module Text} {b : Bytes} (h₁ : ObjectFile X m₁ b) (h₂ : ObjectFile X m₂ b) : SameModule m₁ m₂ := by
  obtain ⟨m', e1, e2⟩ := C90_roundtrip h₁ []
  obtain ⟨m'', e3, e4⟩ := C90_roundtrip h₂ []
  rw [e1] at e3
  cases e3
  exact e2.trans e4.symm

/-- C90, cut off.  An object file of which some bytes at the end are missing is not read. -/
theorem C90_cut_off {m : Module Text} {b p : Bytes} (h : ObjectFile X m b) (hp : p <+: b) (hne : p ≠ b) : readObject X p = none := by
  obtain ⟨m', -, -, h2⟩ := h
  rw [readObject, cut_off (module_lawful X) h2 hp hne]
  rfl

theorem read_put (d : Dir) (t : Nat) (p : MPath) (b : Bytes) (q : MPath) :
    ((d.put t p b).read X).obj q = if q = p then (readObject X b).map fun m => (m, t) else (d.read X).obj q := by
  simp only [Dir.read, Dir.put]
  by_cases h : q = p
  · simp only [h, if_true]
  · simp only [h, if_false]

/-- C90, stopping.  When the compiler is stopped after any byte while it writes object files, each object file is then read as the module that it was read as before,
or as a module that was being written, or not at all; source files are as before. -/
theorem C90_stopped {t : Nat} {d d' : Dir} {w : List (MPath × Module Text)} (h : Writing (ObjectFile X) t d w d') :
    d'.src = d.src ∧ ∀ p, (d'.read X).obj p = (d.read X).obj p ∨ (d'.read X).obj p = none ∨
      ∃ m m', (p, m) ∈ w ∧ SameModule m m' ∧ (d'.read X).obj p = some (m', t) := by
  induction h with
  | stop => exact ⟨rfl, fun p => .inl rfl⟩
  | @within d p m w b part hf hp =>
    refine ⟨rfl, fun q => ?_⟩
    rw [read_put]
    by_cases hq : q = p
    · subst hq
      rw [if_pos rfl]
      by_cases hb : part = b
      · subst hb
        obtain ⟨m', e1, e2⟩ := C90_roundtrip hf []
        rw [List.append_nil] at e1
        exact .inr (.inr ⟨m, m', List.mem_cons_self .., e2, by rw [e1]; rfl⟩)
      · rw [C90_cut_off hf hp hb]
        exact .inr (.inl rfl)
    · rw [if_neg hq]
      exact .inl rfl
  | @next d p m w b d' hf _ ih =>
    refine ⟨ih.1, fun q => ?_⟩
    rcases ih.2 q with h | h | ⟨m₁, m', h1, h2, h3⟩
    · rw [h, read_put]
      by_cases hq : q = p
      · subst hq
        rw [if_pos rfl]
        obtain ⟨m', e1, e2⟩ := C90_roundtrip hf []
        rw [List.append_nil] at e1
        exact .inr (.inr ⟨m, m', List.mem_cons_self .., e2, by rw [e1]; rfl⟩)
      · rw [if_neg hq]
        exact .inl rfl
    · exact .inr (.inl h)
    · exact .inr (.inr ⟨m₁, m', List.mem_cons_of_mem _ h1, h2, h3⟩)

/-- The directory is left as if some of the object files had been written and possibly one deleted. -/
theorem writing_prefix {t : Nat} {d d' : Dir} {w : List (MPath × Module Text)} (h : Writing (module X).enc t d w d') :
    ∃ n, d'.read X = (d.read X).writeAll t (w.take n) ∨
      ∃ p, d'.read X = ⟨((d.read X).writeAll t (w.take n)).src, fun q => if q = p then none else ((d.read X).writeAll t (w.take n)).obj q⟩ := by
  have hput : ∀ (d : Dir) (p : MPath) (m : Module Text) (b : Bytes), (module X).enc m b → (d.put t p b).read X = (d.read X).writeObj t (p, m) := by
    intro d p m b hb
    have : ((d.put t p b).read X).obj = ((d.read X).writeObj t (p, m)).obj := by
      funext q
      rw [read_put]
      have := (module_lawful X).read hb []
      rw [List.append_nil] at this
      simp only [readObject, this, FS.writeObj, Option.map_some]
    show (⟨((d.put t p b).read X).src, ((d.put t p b).read X).obj⟩ : FS Text) = _
    rw [this]
    rfl
  induction h with
  | stop => exact ⟨0, .inl rfl⟩
  | @within d p m w b part hf hp =>
    by_cases hb : part = b
    · subst hb
      exact ⟨1, .inl (hput d p m part hf)⟩
    · refine ⟨0, .inr ⟨p, ?_⟩⟩
      have : ((d.put t p part).read X).obj = fun q => if q = p then none else (d.read X).obj q := by
        funext q
        rw [read_put, readObject, cut_off (module_lawful X) hf hp hb]
        rfl
      show (⟨((d.put t p part).read X).src, ((d.put t p part).read X).obj⟩ : FS Text) = _
      rw [this]
      rfl
  | @next d p m w b d' hf _ ih =>
    obtain ⟨n, ih⟩ := ih
    refine ⟨n + 1, ?_⟩
    rw [hput d p m b hf] at ih
    exact ih

/-- The histories of directories with bytes are histories of the model of Verif.Cache.Sessions. -/
theorem byteSession_read {parse : Text → Except LoadError Parsed} {version : Nat} {lib : List MPath} {d : Dir} {clock : Nat}
    (h : ByteSession X parse version lib d clock) : Session parse version lib (d.read X) clock := by
  induction h with
  | start h1 h2 h3 h4 => exact .start (fun p => by simp only [Dir.read, h1]) h2 h3 h4
  | edit _ h1 h2 h3 ih => exact .edit ih h1 h2 h3
  | @compile d d' clock t useCache kv mp o w _ h1 h2 h3 h4 ih =>
    obtain ⟨n, h | ⟨p, h⟩⟩ := writing_prefix h4
    · rw [h]; exact .compile n ih h1 h2 h3
    · rw [h]; exact .delete p (.compile n ih h1 h2 h3)
  | @delete d clock p _ ih =>
    have : (⟨d.src, fun q => if q = p then none else d.obj q⟩ : Dir).read X = ⟨(d.read X).src, fun q => if q = p then none else (d.read X).obj q⟩ := by
      simp only [Dir.read, FS.mk.injEq, true_and]
      funext q
      by_cases hq : q = p
      · simp only [hq, if_true]
      · simp only [hq, if_false]
    rw [this]
    exact .delete p ih

/-- C90 and C86.  Also when the compiler is stopped after any byte, what is read as an object file of the library is up to date. -/
theorem C90_up_to_date {parse : Text → Except LoadError Parsed} {version : Nat} {lib : List MPath} {d : Dir} {clock : Nat}
    (h : ByteSession X parse version lib d clock) : ∀ q ∈ lib, UpToDate parse version (d.read X) q := C86_up_to_date (byteSession_read h)

end
end Verif.Object
