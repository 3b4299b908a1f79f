import Verif.Cache.History
import Mathlib.Logic.Relation
/-
C111: runs at the same time, and source files that are saved while the program runs.

The model: one source file, which uses no other (so the loader has nothing to do, `load_nothing`); any number of runs, which read the object file, ask for its time, ask for the time of the
source, read the source, evaluate, and write the object file, in steps that are interleaved in every possible way; and an author, who can save the source at any time.
A run can crash at any step.  Simplifications: a file is read at once, and written by opening (which leaves an empty file) and one write.  An object file that was opened
and not written is one that cannot be read (C90), and of two that were written over each other the last one counts: what is left of a longer one after its end is not
looked at (src/module/mod.rs:92 `deserialize_from`).
-/
namespace Verif.Cache
open Verif.Ast Verif.Loader Verif.Sheet

/-- Where a run is. -/
inductive Doing (C : Type) where
  /-- it has not begun -/
  | start
  /-- src/module/mod.rs:80-103: it has read the object file -/
  | objRead (m : Module C)
  /-- src/module/mod.rs:214-223: it has asked for the time of the object file -/
  | objTime (m : Module C) (t : Nat)
  /-- src/module/mod.rs:162: it will read the source file -/
  | toSource
  /-- src/compiler/mod.rs:48: the module is loaded -/
  | ready (m : Module C)
  /-- src/compiler/mod.rs:54-65: it is evaluated, and its object file will be written -/
  | evaluated (m : Module C)
  /-- src/module/mod.rs:195: the object file is opened, and empty -/
  | writing (m : Module C)
  /-- the run goes on with this sheet -/
  | done (s : Sheet)
  | failed

/-- The run has begun and not ended. -/
def Doing.Busy {C : Type} : Doing C → Prop
  | .start => False
  | .done _ => False
  | .failed => False
  | _ => True

/-- The files with their times (no module: an object file that cannot be read), the time, and the runs. -/
structure World (C : Type) where
  src : C × Nat
  obj : Option (Option (Module C) × Nat)
  clock : Nat
  doing : Nat → Doing C

section
variable {C : Type} (parse : C → Except LoadError Parsed) (version : Nat) (kv : Text → Option Ast) (useCache : Nat → Bool)

/-- What a sheet is if it comes from these contents. -/
def SheetOf (c : C) (s : Sheet) : Prop := ∃ pm, parse c = .ok pm ∧ EvalSheet pm.scope kv pm.sheet (.ok s)

/-- A step of the run `i`: the object file, the time and where it is, before and after. -/
inductive RunDoes (i : Nat) (src : C × Nat) : Option (Option (Module C) × Nat) → Nat → Doing C → Option (Option (Module C) × Nat) → Nat → Doing C → Prop
  /-- src/module/mod.rs:83-85 -/
  | no_object {clock} : RunDoes i src none clock .start none clock .toSource
  /-- src/module/mod.rs:87-101 -/
  | unreadable {clock t} : RunDoes i src (some (none, t)) clock .start (some (none, t)) clock .toSource
  | object {clock m t} : RunDoes i src (some (some m, t)) clock .start (some (some m, t)) clock (.objRead m)
  /-- src/module/mod.rs:217-222 -/
  | time {clock m x t} : RunDoes i src (some (x, t)) clock (.objRead m) (some (x, t)) clock (.objTime m t)
  /-- src/module/mod.rs:224-240, 156-162: the source is newer -/
  | newer {clock obj m t} : src.2 > t → RunDoes i src obj clock (.objTime m t) obj clock .toSource
  /-- src/module/mod.rs:242-263, 156-162 -/
  | version {clock obj m t} : ¬ src.2 > t → version < m.version → RunDoes i src obj clock (.objTime m t) obj clock .toSource
  | clean {clock obj m t} : ¬ src.2 > t → ¬ version < m.version → RunDoes i src obj clock (.objTime m t) obj clock (.ready { m with dirty := false })
  /-- src/module/mod.rs:119-145 -/
  | wrong {clock obj e} : parse src.1 = .error e → RunDoes i src obj clock .toSource obj clock .failed
  | parsed {clock obj pm} : parse src.1 = .ok pm →
      RunDoes i src obj clock .toSource obj clock (.ready ⟨version, pm.required, pm.scope, pm.sheet, src.1, false, true⟩)
  /-- src/compiler/mod.rs:66-68 -/
  | cached {clock obj m} : m.needsEval = false → RunDoes i src obj clock (.ready m) obj clock (.done m.sheet)
  /-- src/compiler/mod.rs:96-97 -/
  | unevaluated {clock obj m} : m.needsEval = true → RunDoes i src obj clock (.ready m) obj clock .failed
  /-- src/compiler/mod.rs:54-59; the scope that is written with the module is of no consequence here -/
  | no_cache {clock obj m s} : m.needsEval = true → EvalSheet m.scope kv m.sheet (.ok s) → useCache i = false →
      RunDoes i src obj clock (.ready m) obj clock (.done s)
  | eval {clock obj m s sc} : m.needsEval = true → EvalSheet m.scope kv m.sheet (.ok s) → useCache i = true →
      RunDoes i src obj clock (.ready m) obj clock (.evaluated ⟨m.version, m.required, sc, s, m.source, false, false⟩)
  /-- src/module/mod.rs:195 `fs::write` -/
  | open {clock obj m t} : clock ≤ t → RunDoes i src obj clock (.evaluated m) (some (none, t)) t (.writing m)
  | write {clock obj m t} : clock ≤ t → RunDoes i src obj clock (.writing m) (some (some m, t)) t (.done m.sheet)
  | crash {clock obj d} : d.Busy → RunDoes i src obj clock d obj clock .failed

/-- The run `i` makes a step. -/
def RunMoves (i : Nat) (a b : World C) : Prop :=
  b.src = a.src ∧ RunDoes parse version kv useCache i a.src a.obj a.clock (a.doing i) b.obj b.clock (b.doing i) ∧ ∀ k, k ≠ i → b.doing k = a.doing k

/-- The author saves the source file. -/
def Saves (a b : World C) : Prop := ∃ c t, a.clock < t ∧ b = { a with src := (c, t), clock := t }

/-- Something happens. -/
inductive Happens (a b : World C) : Prop
  | run (i : Nat) : RunMoves parse version kv useCache i a b → Happens a b
  | save : Saves a b → Happens a b

/-- Runs make steps, and nobody saves. -/
def Quiet (a b : World C) : Prop := ∃ i, RunMoves parse version kv useCache i a b

/-- No run is under way. -/
def Idle (w : World C) : Prop := ∀ i, ¬ (w.doing i).Busy

/-- The object file was written before the source was saved. -/
def Behind (w : World C) : Prop := ∃ m t, w.obj = some (some m, t) ∧ t < w.src.2

/-- What happens, in order: the source is saved when no run is under way, and after it has been saved the first run has ended, or has begun to write its object file,
before another one begins. -/
inductive Orderly (a b : World C) : Prop
  | run (i : Nat) : RunMoves parse version kv useCache i a b → (a.doing i = .start → Idle a ∨ ¬ Behind a) → Orderly a b
  | save : Saves a b → Idle a → Orderly a b

/-- No run is under way, and the source has been saved after everything else (or there is no object file that can be read). -/
def New (w : World C) : Prop :=
  (∀ m t, w.obj = some (some m, t) → t < w.src.2) ∧ (∀ x t, w.obj = some (x, t) → t ≤ w.clock) ∧ w.src.2 ≤ w.clock ∧ Idle w

end

section
variable {C : Type} {parse : C → Except LoadError Parsed} {version : Nat} {kv : Text → Option Ast} {useCache : Nat → Bool} {a b : World C}

/-- A module that was evaluated from these contents. -/
def Right (parse : C → Except LoadError Parsed) (version : Nat) (kv : Text → Option Ast) (c : C) (m : Module C) : Prop :=
  m.version = version ∧ m.needsEval = false ∧ SheetOf parse kv c m.sheet

structure OrderInv (parse : C → Except LoadError Parsed) (version : Nat) (kv : Text → Option Ast) (w : World C) : Prop where
  time : w.src.2 ≤ w.clock
  objTime : ∀ x t, w.obj = some (x, t) → t ≤ w.clock
  fresh : ∀ m t, w.obj = some (some m, t) → w.src.2 ≤ t → Right parse version kv w.src.1 m
  one : Behind w → ∀ i k, (w.doing i).Busy → (w.doing k).Busy → i = k
  reads : ∀ i m, w.doing i = .objRead m → w.obj ≠ none ∧ (Right parse version kv w.src.1 m ∨ Behind w)
  times : ∀ i m t, w.doing i = .objTime m t → Right parse version kv w.src.1 m ∨ t < w.src.2
  readies : ∀ i m, w.doing i = .ready m → Right parse version kv w.src.1 m ∨
    m.version = version ∧ m.needsEval = true ∧ ∃ pm, parse w.src.1 = .ok pm ∧ m.scope = pm.scope ∧ m.sheet = pm.sheet
  evals : ∀ i m, w.doing i = .evaluated m ∨ w.doing i = .writing m → Right parse version kv w.src.1 m

/-- How the object file changes. -/
theorem obj_after {i : Nat} {src : C × Nat} {o o' : Option (Option (Module C) × Nat)} {t t' : Nat} {d d' : Doing C}
    (h : RunDoes parse version kv useCache i src o t d o' t' d') :
    o' = o ∧ t' = t ∨ t ≤ t' ∧ (∃ m, d = .evaluated m ∧ o' = some (none, t') ∧ d' = .writing m) ∨
      t ≤ t' ∧ ∃ m, d = .writing m ∧ o' = some (some m, t') ∧ d' = .done m.sheet := by
  cases h <;> first
    | exact .inl ⟨rfl, rfl⟩
    | exact .inr (.inl ⟨‹_›, _, rfl, rfl, rfl⟩)
    | exact .inr (.inr ⟨‹_›, _, rfl, rfl, rfl⟩)

/-- A run that was under way or begins. -/
theorem busy_before {i : Nat} {src : C × Nat} {o o' : Option (Option (Module C) × Nat)} {t t' : Nat} {d d' : Doing C}
    (h : RunDoes parse version kv useCache i src o t d o' t' d') : d = .start ∨ d.Busy := by
  cases h <;> first | exact .inl rfl | exact .inr trivial | exact .inr ‹_›

theorem orderly_run (hi : OrderInv parse version kv a) {i : Nat} (h : RunMoves parse version kv useCache i a b)
    (ho : a.doing i = .start → Idle a ∨ ¬ Behind a) : OrderInv parse version kv b ∧ ∀ s, b.doing i = .done s → SheetOf parse kv a.src.1 s := by
  obtain ⟨hs, hd, hk⟩ := h
  have cases_k : ∀ k, k = i ∨ k ≠ i ∧ b.doing k = a.doing k := fun k => by
    by_cases e : k = i
    · exact .inl e
    · exact .inr ⟨e, hk k e⟩
  have before := busy_before hd
  rcases obj_after hd with ⟨eo, et⟩ | ⟨ht, m, e1, e2, e3⟩ | ⟨ht, m, e1, e2, e3⟩
  · -- the object file stays as it is
    have hbehind : Behind b ↔ Behind a := by unfold Behind; rw [eo, hs]
    -- what happens to this run
    have mine : (∀ m, b.doing i = .objRead m → b.obj ≠ none ∧ (Right parse version kv a.src.1 m ∨ Behind a)) ∧
        (∀ m t, b.doing i = .objTime m t → Right parse version kv a.src.1 m ∨ t < a.src.2) ∧
        (∀ m, b.doing i = .ready m → Right parse version kv a.src.1 m ∨
          m.version = version ∧ m.needsEval = true ∧ ∃ pm, parse a.src.1 = .ok pm ∧ m.scope = pm.scope ∧ m.sheet = pm.sheet) ∧
        (∀ m, b.doing i = .evaluated m ∨ b.doing i = .writing m → Right parse version kv a.src.1 m) ∧
        ∀ s, b.doing i = .done s → SheetOf parse kv a.src.1 s := by
      rw [eo, et] at hd
      have r1 := hi.reads i
      have r2 := hi.times i
      have r3 := hi.readies i
      have r4 := hi.evals i
      have hob := hi.objTime
      have hfr := hi.fresh
      have hbe : ∀ m t, a.obj = some (some m, t) → t < a.src.2 → Behind a := fun m t h1 h2 => ⟨m, t, h1, h2⟩
      have hbe' : ∀ x t, a.obj = some (x, t) → Behind a → t < a.src.2 := by
        rintro x t h1 ⟨m, t', h2, h3⟩
        rw [h1] at h2; cases h2; exact h3
      rw [eo]
      generalize a.doing i = d at hd r1 r2 r3 r4
      generalize b.doing i = d' at hd
      generalize a.obj = o at hd r1 hob hfr hbe hbe'
      cases hd with
      | no_object => simp
      | unreadable => simp
      | @object _ m t =>
        refine ⟨?_, by simp, by simp, by simp, by simp⟩
        intro m' h
        cases h
        refine ⟨by simp, ?_⟩
        by_cases hle : a.src.2 ≤ t
        · exact .inl (hfr m t rfl hle)
        · exact .inr (hbe m t rfl (by omega))
      | @time _ m x t =>
        refine ⟨by simp, ?_, by simp, by simp, by simp⟩
        intro m' t' h
        cases h
        rcases (r1 m rfl).2 with h | h
        · exact .inl h
        · exact .inr (hbe' x t rfl h)
      | newer => simp
      | version => simp
      | @clean _ _ m t h1 h2 =>
        refine ⟨by simp, by simp, ?_, by simp, by simp⟩
        intro m' h
        cases h
        rcases r2 m t rfl with h | h
        · exact .inl h
        · exact absurd h (by omega)
      | wrong => simp
      | @parsed _ _ pm hp =>
        refine ⟨by simp, by simp, ?_, by simp, by simp⟩
        intro m' h
        cases h
        exact .inr ⟨rfl, rfl, pm, hp, rfl, rfl⟩
      | @cached _ _ m hn =>
        refine ⟨by simp, by simp, by simp, by simp, ?_⟩
        intro s h
        cases h
        rcases r3 m rfl with h | ⟨_, h, _⟩
        · exact h.2.2
        · rw [hn] at h; cases h
      | unevaluated => simp
      | @no_cache _ _ m s hn he =>
        refine ⟨by simp, by simp, by simp, by simp, ?_⟩
        intro s' h
        cases h
        rcases r3 m rfl with h | ⟨_, _, pm, h1, h2, h3⟩
        · rw [h.2.1] at hn; cases hn
        · exact ⟨pm, h1, h2 ▸ h3 ▸ he⟩
      | @eval _ _ m s sc hn he =>
        refine ⟨by simp, by simp, by simp, ?_, by simp⟩
        intro m' h
        rcases h with h | h <;> cases h
        rcases r3 m rfl with h | ⟨h0, _, pm, h1, h2, h3⟩
        · rw [h.2.1] at hn; cases hn
        · exact ⟨h0, rfl, pm, h1, h2 ▸ h3 ▸ he⟩
      | crash => simp
      | «open» => exact ⟨by simp, by simp, by simp, fun m' h => by rcases h with h | h <;> cases h; exact r4 _ (.inl rfl), by simp⟩
      | write =>
        refine ⟨by simp, by simp, by simp, by simp, fun s h => ?_⟩
        cases h
        exact (r4 _ (.inr rfl)).2.2
    refine ⟨⟨by rw [hs, et]; exact hi.time, by rw [eo, et]; exact hi.objTime, by rw [eo, hs]; exact hi.fresh, ?_, ?_, ?_, ?_, ?_⟩, mine.2.2.2.2⟩
    · intro hb k l hk' hl'
      have hb' := hbehind.mp hb
      have hone := hi.one hb'
      -- a run that begins is alone
      have key : ∀ k, (b.doing k).Busy → k = i ∨ (a.doing k).Busy := fun k hk' => by
        rcases cases_k k with e | ⟨_, e⟩
        · exact .inl e
        · exact .inr (by rw [← e]; exact hk')
      have alone : ∀ k, (a.doing k).Busy → k = i := fun k hk' => by
        rcases before with h | h
        · rcases ho h with h' | h'
          · exact absurd hk' (h' k)
          · exact absurd hb' h'
        · exact hone k i hk' h
      rcases key k hk' with rfl | h1 <;> rcases key l hl' with rfl | h2
      · rfl
      · exact (alone l h2).symm
      · exact alone k h1
      · exact (alone k h1).trans (alone l h2).symm
    · intro k m h
      rw [hs, hbehind]
      rcases cases_k k with rfl | ⟨_, e⟩
      · exact mine.1 m h
      · rw [e] at h; rw [eo]; exact hi.reads k m h
    · intro k m t h
      rw [hs]
      rcases cases_k k with rfl | ⟨_, e⟩
      · exact mine.2.1 m t h
      · rw [e] at h; exact hi.times k m t h
    · intro k m h
      rw [hs]
      rcases cases_k k with rfl | ⟨_, e⟩
      · exact mine.2.2.1 m h
      · rw [e] at h; exact hi.readies k m h
    · intro k m h
      rw [hs]
      rcases cases_k k with rfl | ⟨_, e⟩
      · exact mine.2.2.2.1 m h
      · rw [e] at h; exact hi.evals k m h
  · -- it is emptied
    have hright := hi.evals i m (.inl e1)
    have hbusy : (a.doing i).Busy := by rw [e1]; trivial
    have hno : ¬ Behind b := by
      rintro ⟨m', t', h, _⟩
      rw [e2] at h; cases h
    refine ⟨⟨?_, ?_, ?_, fun h => absurd h hno, ?_, ?_, ?_, ?_⟩, ?_⟩
    · rw [hs]; exact Nat.le_trans hi.time ht
    · intro x t h; rw [e2] at h; cases h; exact Nat.le_refl _
    · intro m' t h; rw [e2] at h; cases h
    · intro k m' h
      refine ⟨by rw [e2]; simp, ?_⟩
      rcases cases_k k with rfl | ⟨hne, e⟩
      · rw [e3] at h; cases h
      · rw [e] at h
        rcases (hi.reads k m' h).2 with h' | h'
        · exact .inl (hs ▸ h')
        · exact absurd (hi.one h' k i (by rw [h]; trivial) hbusy) hne
    · intro k m' t h
      rcases cases_k k with rfl | ⟨hne, e⟩
      · rw [e3] at h; cases h
      · rw [e] at h; rw [hs]; exact hi.times k m' t h
    · intro k m' h
      rcases cases_k k with rfl | ⟨hne, e⟩
      · rw [e3] at h; cases h
      · rw [e] at h; rw [hs]; exact hi.readies k m' h
    · intro k m' h
      rcases cases_k k with rfl | ⟨hne, e⟩
      · rw [e3] at h; rcases h with h | h <;> cases h; rw [hs]; exact hright
      · rw [e] at h; rw [hs]; exact hi.evals k m' h
    · intro s h; rw [e3] at h; cases h
  · -- it is written
    have hright := hi.evals i m (.inr e1)
    have hbusy : (a.doing i).Busy := by rw [e1]; trivial
    have hno : ¬ Behind b := by
      rintro ⟨m', t', h, h'⟩
      rw [e2] at h; cases h
      rw [hs] at h'
      have := hi.time
      omega
    refine ⟨⟨?_, ?_, ?_, fun h => absurd h hno, ?_, ?_, ?_, ?_⟩, ?_⟩
    · rw [hs]; exact Nat.le_trans hi.time ht
    · intro x t h; rw [e2] at h; cases h; exact Nat.le_refl _
    · intro m' t h; rw [e2] at h; cases h; intro _; rw [hs]; exact hright
    · intro k m' h
      refine ⟨by rw [e2]; simp, ?_⟩
      rcases cases_k k with rfl | ⟨hne, e⟩
      · rw [e3] at h; cases h
      · rw [e] at h
        rcases (hi.reads k m' h).2 with h' | h'
        · exact .inl (hs ▸ h')
        · exact absurd (hi.one h' k i (by rw [h]; trivial) hbusy) hne
    · intro k m' t h
      rcases cases_k k with rfl | ⟨hne, e⟩
      · rw [e3] at h; cases h
      · rw [e] at h; rw [hs]; exact hi.times k m' t h
    · intro k m' h
      rcases cases_k k with rfl | ⟨hne, e⟩
      · rw [e3] at h; cases h
      · rw [e] at h; rw [hs]; exact hi.readies k m' h
    · intro k m' h
      rcases cases_k k with rfl | ⟨hne, e⟩
      · rw [e3] at h; rcases h with h | h <;> cases h
      · rw [e] at h; rw [hs]; exact hi.evals k m' h
    · intro s h; rw [e3] at h; cases h; exact hright.2.2

theorem orderly_save (hi : OrderInv parse version kv a) (h : Saves a b) (hidle : Idle a) : OrderInv parse version kv b := by
  obtain ⟨c, t, ht, rfl⟩ := h
  have hd : ∀ i, ¬ (a.doing i).Busy := hidle
  refine ⟨Nat.le_refl _, fun x t' h => ?_, fun m t' h hle => ?_, fun _ i k h => absurd h (hd i), fun i m h => ?_, fun i m t' h => ?_, fun i m h => ?_, fun i m h => ?_⟩
  · have := hi.objTime x t' h; show t' ≤ t; omega
  · have := hi.objTime (some m) t' h
    have hle' : t ≤ t' := hle
    omega
  · exact absurd (by rw [show a.doing i = _ from h]; trivial) (hd i)
  · exact absurd (by rw [show a.doing i = _ from h]; trivial) (hd i)
  · exact absurd (by rw [show a.doing i = _ from h]; trivial) (hd i)
  · rcases h with h | h <;> exact absurd (by rw [show a.doing i = _ from h]; trivial) (hd i)

theorem orderly_inv {w : World C} (hn : New w) (h : Relation.ReflTransGen (Orderly parse version kv useCache) w a) : OrderInv parse version kv a := by
  induction h with
  | refl =>
    obtain ⟨h1, h2, h3, h4⟩ := hn
    refine ⟨h3, h2, fun m t h hle => absurd (h1 m t h) (by omega), fun _ i k h => absurd h (h4 i), fun i m h => ?_, fun i m t h => ?_, fun i m h => ?_, fun i m h => ?_⟩
    · exact absurd (by rw [h]; trivial) (h4 i)
    · exact absurd (by rw [h]; trivial) (h4 i)
    · exact absurd (by rw [h]; trivial) (h4 i)
    · rcases h with h | h <;> exact absurd (by rw [h]; trivial) (h4 i)
  | tail _ hst ih =>
    cases hst with
    | run i h1 h2 => exact (orderly_run ih h1 h2).1
    | save h1 h2 => exact orderly_save ih h1 h2

/-- C111: if the source is saved only while no run is under way, and the first run after that is given the time to compile it before others begin, then whatever else the
schedule is, whatever runs crash, and whatever was there before, the sheet with which a run ends is that of the present source. -/
theorem C111_orderly_partial {w : World C} (hn : New w) (h : Relation.ReflTransGen (Orderly parse version kv useCache) w a)
    (hst : Orderly parse version kv useCache a b) {i : Nat} {s : Sheet} (hb : a.doing i ≠ .done s) (hd : b.doing i = .done s) :
    b.src = a.src ∧ SheetOf parse kv b.src.1 s := by
  cases hst with
  | run k h1 h2 =>
    by_cases e : i = k
    · subst e
      refine ⟨h1.1, ?_⟩
      rw [h1.1]
      exact (orderly_run (orderly_inv hn h) h1 h2).2 s hd
    · rw [h1.2.2 i e] at hd; exact absurd hd hb
  | save h1 =>
    obtain ⟨c, t, _, rfl⟩ := h1
    exact absurd hd hb

/-! ### Without object files -/

/-- The phases of runs that find no object file and write none. -/
def Sourced : Doing C → Prop
  | .start => True
  | .toSource => True
  | .ready m => m.needsEval = true
  | .done _ => True
  | .failed => True
  | _ => False

/-- C111: if there is no object file and all runs are made with `--no-cache`, then, whatever the schedule, and whenever the source is saved, the sheet with which a run ends
is that of the contents that the source had at some time during the run. -/
theorem C111_no_cache_partial {w : World C} (hn : w.obj = none) (hu : ∀ i, useCache i = false) (hs : ∀ i, w.doing i = .start)
    (h : Relation.ReflTransGen (Happens parse version kv useCache) w b) {i : Nat} {s : Sheet} (hd : b.doing i = .done s) :
    ∃ x, Relation.ReflTransGen (Happens parse version kv useCache) w x ∧ Relation.ReflTransGen (Happens parse version kv useCache) x b ∧
      (x.doing i).Busy ∧ SheetOf parse kv x.src.1 s := by
  have inv : b.obj = none ∧ (∀ k, Sourced (b.doing k)) ∧
      (∀ k m, b.doing k = .ready m → ∃ x pm, Relation.ReflTransGen (Happens parse version kv useCache) w x ∧
        Relation.ReflTransGen (Happens parse version kv useCache) x b ∧ (x.doing k).Busy ∧ parse x.src.1 = .ok pm ∧ m.scope = pm.scope ∧ m.sheet = pm.sheet) ∧
      ∀ k s, b.doing k = .done s → ∃ x, Relation.ReflTransGen (Happens parse version kv useCache) w x ∧
        Relation.ReflTransGen (Happens parse version kv useCache) x b ∧ (x.doing k).Busy ∧ SheetOf parse kv x.src.1 s := by
    clear hd
    induction h with
    | refl => exact ⟨hn, fun k => (by rw [hs k]; trivial), fun k m h => (by rw [hs k] at h; cases h), fun k s h => (by rw [hs k] at h; cases h)⟩
    | @tail y z hy hst ih =>
      obtain ⟨i1, i2, i3, i4⟩ := ih
      cases hst with
      | save h =>
        have hst' : Happens parse version kv useCache y z := .save h
        obtain ⟨c, t, _, rfl⟩ := h
        refine ⟨i1, i2, fun k m h => ?_, fun k s h => ?_⟩
        · obtain ⟨x, pm, x1, x2, x3⟩ := i3 k m h
          exact ⟨x, pm, x1, x2.tail hst', x3⟩
        · obtain ⟨x, x1, x2, x3⟩ := i4 k s h
          exact ⟨x, x1, x2.tail hst', x3⟩
      | run l h =>
        have hst' : Happens parse version kv useCache y z := .run l h
        obtain ⟨h1, h2, h3⟩ := h
        have key : z.obj = none ∧ Sourced (z.doing l) ∧
            (∀ m, z.doing l = .ready m → (y.doing l).Busy ∧ ∃ pm, parse y.src.1 = .ok pm ∧ m.scope = pm.scope ∧ m.sheet = pm.sheet) ∧
            ∀ s, z.doing l = .done s → ∃ m, y.doing l = .ready m ∧ m.needsEval = true ∧ EvalSheet m.scope kv m.sheet (.ok s) := by
          have p := i2 l
          rw [i1] at h2
          generalize y.doing l = d at h2 p
          generalize z.doing l = d' at h2
          generalize z.obj = o' at h2
          generalize y.clock = cl at h2
          generalize z.clock = cl' at h2
          cases h2 with
          | no_object => exact ⟨rfl, trivial, by simp, by simp⟩
          | newer => exact p.elim
          | version => exact p.elim
          | clean => exact p.elim
          | wrong => exact ⟨rfl, trivial, by simp, by simp⟩
          | @parsed _ _ pm hp => exact ⟨rfl, rfl, fun m h => (by cases h; exact ⟨trivial, pm, hp, rfl, rfl⟩), by simp⟩
          | cached h => rw [show _ = true from p] at h; cases h
          | unevaluated => exact ⟨rfl, trivial, by simp, by simp⟩
          | @no_cache _ _ m s hm he => exact ⟨rfl, trivial, by simp, fun s h => (by cases h; exact ⟨m, rfl, hm, he⟩)⟩
          | eval _ _ h => rw [hu l] at h; cases h
          | «open» => exact p.elim
          | write => exact p.elim
          | crash => exact ⟨rfl, trivial, by simp, by simp⟩
        refine ⟨key.1, fun k => ?_, fun k m h => ?_, fun k s h => ?_⟩
        · by_cases e : k = l
          · subst e; exact key.2.1
          · rw [h3 k e]; exact i2 k
        · by_cases e : k = l
          · subst e
            obtain ⟨x1, pm, x2, x3, x4⟩ := key.2.2.1 m h
            exact ⟨y, pm, hy, .single hst', x1, x2, x3, x4⟩
          · rw [h3 k e] at h
            obtain ⟨x, pm, x1, x2, x3⟩ := i3 k m h
            exact ⟨x, pm, x1, x2.tail hst', x3⟩
        · by_cases e : k = l
          · subst e
            obtain ⟨m, x1, x2, x3⟩ := key.2.2.2 s h
            obtain ⟨x, pm, y1, y2, y3, y4, y5, y6⟩ := i3 k m x1
            exact ⟨x, y1, y2.tail hst', y3, pm, y4, y5 ▸ y6 ▸ x3⟩
          · rw [h3 k e] at h
            obtain ⟨x, x1, x2, x3⟩ := i4 k s h
            exact ⟨x, x1, x2.tail hst', x3⟩
  exact inv.2.2.2 i s hd

/-! ### What goes wrong -/

/-- What a run can be doing if the object file is not older than the source. -/
def Follows (m : Module C) (t : Nat) : Doing C → Prop
  | .start => True
  | .objRead m' => m' = m
  | .objTime m' t' => m' = m ∧ t' = t
  | .ready m' => m' = { m with dirty := false }
  | .done s => s = m.sheet
  | .failed => True
  | _ => False

/-- C111: whatever is in an object file that is not older than the source, and whatever is in the source: until the source is saved again, every run that begins
ends with the sheet of the object file, and the object file stays as it is. -/
theorem C111_lasting {m : Module C} {t : Nat} (ho : a.obj = some (some m, t)) (ht : a.src.2 ≤ t) (hv : m.version ≤ version) (hn : m.needsEval = false)
    (hidle : Idle a) (h : Relation.ReflTransGen (Quiet parse version kv useCache) a b) :
    b.src = a.src ∧ b.obj = a.obj ∧ ∀ i s, a.doing i = .start → b.doing i = .done s → s = m.sheet := by
  have inv : b.src = a.src ∧ b.obj = a.obj ∧ ∀ i, (a.doing i = .start ∧ Follows m t (b.doing i)) ∨ b.doing i = a.doing i := by
    induction h with
    | refl => exact ⟨rfl, rfl, fun i => .inr rfl⟩
    | @tail x y _ hst ih =>
      obtain ⟨i, h1, h2, h3⟩ := hst
      obtain ⟨i1, i2, i3⟩ := ih
      rw [i1, i2, ho] at h2
      -- the run was at its beginning
      have hb : a.doing i = .start ∧ Follows m t (x.doing i) := by
        rcases i3 i with h | h
        · exact h
        · rcases busy_before h2 with e | e
          · rw [e]; rw [h] at e; exact ⟨e, trivial⟩
          · exact absurd (h ▸ e) (hidle i)
      have hy : y.obj = some (some m, t) ∧ Follows m t (y.doing i) := by
        have hf := hb.2
        generalize x.doing i = d at h2 hf
        generalize y.doing i = d' at h2
        generalize y.obj = o' at h2
        generalize y.clock = cl at h2
        cases h2 with
        | object => exact ⟨rfl, rfl⟩
        | time => exact ⟨rfl, hf, rfl⟩
        | newer h => obtain ⟨_, rfl⟩ := hf; omega
        | version h h' => obtain ⟨rfl, _⟩ := hf; omega
        | clean => exact ⟨rfl, by rw [hf.1]; rfl⟩
        | cached => exact ⟨rfl, by rw [show _ = _ from hf]; rfl⟩
        | unevaluated => exact ⟨rfl, trivial⟩
        | no_cache h => rw [show _ = _ from hf] at h; rw [hn] at h; cases h
        | eval h => rw [show _ = _ from hf] at h; rw [hn] at h; cases h
        | wrong => exact hf.elim
        | parsed => exact hf.elim
        | «open» => exact hf.elim
        | write => exact hf.elim
        | crash => exact ⟨rfl, trivial⟩
      refine ⟨h1.trans i1, hy.1.trans ho.symm, fun k => ?_⟩
      by_cases e : k = i
      · subst e; exact .inl ⟨hb.1, hy.2⟩
      · rw [h3 k e]; exact i3 k
  refine ⟨inv.1, inv.2.1, fun i s h1 h2 => ?_⟩
  rcases inv.2.2 i with ⟨_, h⟩ | h
  · rw [h2] at h; exact h
  · rw [h1, h2] at h; cases h

/-- Two runs and the others. -/
def two (ph : Nat → Doing C) (src : C × Nat) (obj : Option (Option (Module C) × Nat)) (clock : Nat) (x y : Doing C) : World C :=
  ⟨src, obj, clock, fun k => if k = 0 then x else if k = 1 then y else ph k⟩

theorem two_eq (w : World C) : w = two w.doing w.src w.obj w.clock (w.doing 0) (w.doing 1) := by
  obtain ⟨src, obj, clock, doing⟩ := w
  unfold two
  congr 1
  funext k
  simp only
  split
  · rename_i h; rw [h]
  · split
    · rename_i h; rw [h]
    · rfl

theorem moves0 {ph : Nat → Doing C} {src : C × Nat} {o o' : Option (Option (Module C) × Nat)} {t t' : Nat} {x x' y : Doing C}
    (h : RunDoes parse version kv useCache 0 src o t x o' t' x') : Quiet parse version kv useCache (two ph src o t x y) (two ph src o' t' x' y) :=
  ⟨0, rfl, h, fun k hk => by simp [two, hk]⟩

theorem moves1 {ph : Nat → Doing C} {src : C × Nat} {o o' : Option (Option (Module C) × Nat)} {t t' : Nat} {x y y' : Doing C}
    (h : RunDoes parse version kv useCache 1 src o t y o' t' y') : Quiet parse version kv useCache (two ph src o t x y) (two ph src o' t' x y') :=
  ⟨1, rfl, h, fun k hk => by simp [two, hk]⟩

theorem quiet_happens (h : Quiet parse version kv useCache a b) : Happens parse version kv useCache a b := .run h.choose h.choose_spec

/-- C111, violated: the source is saved between the time when a run reads it and the time when it writes its object file.  The run ends with the old sheet, and so does every
later run, until the source is saved again: the edit is not seen. -/
theorem C111_violated_edit {w : World C} {pm : Parsed} {s : Sheet} (hn : w.obj = none) (hidle : Idle w) (h0 : w.doing 0 = .start) (hu : useCache 0 = true)
    (hp : parse w.src.1 = .ok pm) (he : EvalSheet pm.scope kv pm.sheet (.ok s)) (c' : C) :
    ∃ b, Relation.ReflTransGen (Happens parse version kv useCache) w b ∧ b.src.1 = c' ∧ b.doing 0 = .done s ∧ (∀ i, i ≠ 0 → b.doing i = w.doing i) ∧
      ∀ b', Relation.ReflTransGen (Quiet parse version kv useCache) b b' → b'.src.1 = c' ∧
        ∀ i s', b.doing i = .start → b'.doing i = .done s' → s' = s := by
  obtain ⟨src, obj, clock, doing⟩ := w
  simp only at hn hp h0
  subst hn
  have hd : ∀ k : Nat, k ≠ 0 → (two doing (c', clock + 1) (some (some (⟨version, pm.required, pm.scope, s, src.1, false, false⟩ : Module C), clock + 1)) (clock + 1) (.done s)
      (doing 1)).doing k = doing k := by
    intro k hk
    simp only [two, if_neg hk]
    split
    · rename_i h; rw [h]
    · rfl
  refine ⟨two doing (c', clock + 1) (some (some ⟨version, pm.required, pm.scope, s, src.1, false, false⟩, clock + 1)) (clock + 1) (.done s) (doing 1), ?_, rfl, rfl, hd,
    fun b' hb => ?_⟩
  · rw [two_eq ⟨src, none, clock, doing⟩]
    simp only [h0]
    refine (((((Relation.ReflTransGen.single (quiet_happens (moves0 .no_object))).tail (quiet_happens (moves0 (.parsed hp)))).tail
      (quiet_happens (moves0 (.eval (sc := pm.scope) rfl he hu)))).tail (.save ⟨c', clock + 1, Nat.lt_succ_self _, rfl⟩)).tail
      (quiet_happens (moves0 (ph := doing) (src := (c', clock + 1)) (.open (clock := clock + 1) (t := clock + 1) (Nat.le_refl _))))).tail ?_
    exact quiet_happens (moves0 (.write (Nat.le_refl _)))
  · have hidle' : Idle (two doing (c', clock + 1) (some (some (⟨version, pm.required, pm.scope, s, src.1, false, false⟩ : Module C), clock + 1)) (clock + 1) (.done s)
        (doing 1)) := by
      intro k
      by_cases hk : k = 0
      · subst hk; exact fun h => h
      · rw [hd k hk]; exact hidle k
    obtain ⟨h1, _, h3⟩ := C111_lasting (m := ⟨version, pm.required, pm.scope, s, src.1, false, false⟩) (t := clock + 1) rfl (Nat.le_refl _) (Nat.le_refl _) rfl hidle' hb
    exact ⟨by rw [h1]; rfl, h3⟩

/-- C111, violated: nobody saves while a run is under way, but two runs begin after the source was saved.  The first reads the old object file; the second compiles the source
and writes a new one; and the first then takes the time of the new object file for that of the one that it has read: it ends with the old sheet. -/
theorem C111_violated_check {w : World C} {pm : Parsed} {s : Sheet} {m : Module C} {t : Nat} (ho : w.obj = some (some m, t)) (ht : t < w.src.2) (hc : w.src.2 ≤ w.clock)
    (hv : m.version ≤ version) (hne : m.needsEval = false) (h0 : w.doing 0 = .start) (h1 : w.doing 1 = .start) (hu : useCache 1 = true)
    (hp : parse w.src.1 = .ok pm) (he : EvalSheet pm.scope kv pm.sheet (.ok s)) :
    ∃ b, Relation.ReflTransGen (Quiet parse version kv useCache) w b ∧ b.src = w.src ∧ b.doing 0 = .done m.sheet ∧ b.doing 1 = .done s := by
  obtain ⟨src, obj, clock, doing⟩ := w
  simp only at ho ht hc hp h0 h1
  subst ho
  refine ⟨two doing src (some (some ⟨version, pm.required, pm.scope, s, src.1, false, false⟩, clock)) clock (.done m.sheet) (.done s), ?_, rfl, rfl, rfl⟩
  rw [two_eq ⟨src, some (some m, t), clock, doing⟩]
  simp only [h0, h1]
  -- the first run reads the object file; the second one does all its steps
  refine (((((((Relation.ReflTransGen.single (moves0 .object)).tail (moves1 .object)).tail (moves1 .time)).tail (moves1 (.newer ht))).tail
    (moves1 (.parsed hp))).tail (moves1 (.eval (sc := pm.scope) rfl he hu))).tail (moves1 (.open (Nat.le_refl _)))).trans ?_
  refine (((Relation.ReflTransGen.single (moves1 (.write (Nat.le_refl _)))).tail (moves0 .time)).tail
    (moves0 (.clean (by omega) (by omega)))).tail ?_
  exact moves0 (.cached (m := { m with dirty := false }) hne)

/-- One run and the others. -/
def alone (ph : Nat → Doing C) (i : Nat) (src : C × Nat) (obj : Option (Option (Module C) × Nat)) (clock : Nat) (x : Doing C) : World C :=
  ⟨src, obj, clock, fun k => if k = i then x else ph k⟩

theorem moves {ph : Nat → Doing C} {i : Nat} {src : C × Nat} {o o' : Option (Option (Module C) × Nat)} {t t' : Nat} {x x' : Doing C}
    (h : RunDoes parse version kv useCache i src o t x o' t' x') : RunMoves parse version kv useCache i (alone ph i src o t x) (alone ph i src o' t' x') :=
  ⟨rfl, by simpa [alone] using h, fun k hk => by simp [alone, hk]⟩

/-- C111: a run that begins after an edit can always end, alone, with the sheet of the source, whatever object file there is: none, one that cannot be read or an older one. -/
theorem C111_completes {w : World C} (hn : New w) {i : Nat} (h0 : w.doing i = .start) {pm : Parsed} {s : Sheet} (hp : parse w.src.1 = .ok pm) (he : EvalSheet pm.scope kv pm.sheet (.ok s)) :
    ∃ b, Relation.ReflTransGen (RunMoves parse version kv useCache i) w b ∧ b.src = w.src ∧ b.doing i = .done s := by
  obtain ⟨src, obj, clock, doing⟩ := w
  obtain ⟨hold, -, -, -⟩ := hn
  simp only at hp h0 hold
  have hw : (⟨src, obj, clock, doing⟩ : World C) = alone doing i src obj clock .start := by
    unfold alone
    congr 1
    funext k
    split
    · rename_i h; rw [h, h0]
    · rfl
  -- up to the source
  have h1 : Relation.ReflTransGen (RunMoves parse version kv useCache i) (alone doing i src obj clock .start) (alone doing i src obj clock .toSource) := by
    match obj, hold with
    | none, _ => exact .single (moves .no_object)
    | some (none, t), _ => exact .single (moves .unreadable)
    | some (some m, t), hold => exact ((Relation.ReflTransGen.single (moves .object)).tail (moves .time)).tail (moves (.newer (hold m t rfl)))
  have h2 := h1.tail (moves (.parsed hp))
  rw [hw]
  cases hu : useCache i with
  | false =>
    exact ⟨_, h2.tail (moves (.no_cache rfl he hu)), rfl, by simp [alone]⟩
  | true =>
    exact ⟨_, ((h2.tail (moves (.eval (sc := pm.scope) rfl he hu))).tail (moves (.open (Nat.le_refl _)))).tail (moves (.write (Nat.le_refl _))), rfl, by simp [alone]⟩

/-- The assumptions can be met: an object file that cannot be read. -/
example : New (⟨((), 3), some (none, 5), 7, fun _ => .start⟩ : World Unit) := ⟨by simp, by simp, by decide, fun _ h => h⟩

end
end Verif.Cache
