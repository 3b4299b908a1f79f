import Verif.Target.Run
import Mathlib.Logic.Relation
/-
C110: several runs of the program at the same time, with the same CSV file as their target.

The model: each run makes its steps one after the other (looking for the name of the backup, creating it, copying, reading the target, opening it for writing, writing),
the steps of different runs are interleaved in every possible way, and reads, copies and writes move any number of characters at a time.  A run that crashes is one that
makes no more steps.  Simplifications: files are texts (a multi-byte character is not divided), and the runs have compiled their sources before.
-/
namespace Verif.Target
open Verif.Cell Verif.Sheet

/-- One run: the options that matter here, its sheet, and its time in the formats of src/target/file_backer_upper.rs:7-16. -/
structure Job where
  backup : Bool
  ov : Bool
  timestamps : List Text
  sheet : Sheet

/-- Where a run is. -/
inductive Phase where
  /-- src/target/file_backer_upper.rs:48: the names that have not been tried -/
  | choosing (names : List Path)
  /-- src/target/file_backer_upper.rs:59: there was no file of this name, and it will be created -/
  | chosen (new : Path)
  /-- src/target/file_backer_upper.rs:59 `fs::copy`: so many characters have been copied -/
  | copying (new : Path) (n : Nat)
  /-- src/target/csv/mod.rs:35: the target will be opened for reading -/
  | toRead
  /-- src/target/csv/mod.rs:47-64: what has been read -/
  | reading (got : Text)
  /-- src/target/csv/compilation_target.rs:15-17: the target will be opened for writing this text -/
  | merged (w : Text)
  /-- src/target/csv/compilation_target.rs:42-52: so many characters have been written -/
  | writing (w : Text) (n : Nat)
  | done
  | failed

/-- src/target/file_backer_upper.rs:33-54: the names for a backup. -/
def candidates (target : Path) (timestamps : List Text) : Option (List Path) :=
  match target.fileStem, target.parent, target.extension with
  | some stem, some parent, some ext => some (timestamps.map (backupName parent stem ext))
  | _, _, _ => none

/-- src/main.rs:34-46: a run begins with the backup, if it makes one. -/
def Job.start (j : Job) (target : Path) : Phase :=
  if j.backup then match candidates target j.timestamps with
    | some names => .choosing names
    | none => .failed
  else .toRead

/-- What is in a file after `t` has been written at position `n`: what is missing before that position becomes zeros. -/
def overlay (c : Text) (n : Nat) (t : Text) : Text :=
  c.take n ++ List.replicate (n - c.length) (Char.ofNat 0) ++ t ++ c.drop (n + t.length)

/-- A step of one run, with the files before and after. -/
inductive RunStep (j : Job) (target : Path) : Files Text → Phase → Files Text → Phase → Prop
  /-- src/target/file_backer_upper.rs:68-70: no name is left -/
  | none_left {fs} : RunStep j target fs (.choosing []) fs .failed
  /-- src/target/file_backer_upper.rs:55-57 -/
  | taken {fs p ps} : fs p ≠ none → RunStep j target fs (.choosing (p :: ps)) fs (.choosing ps)
  | free {fs p ps} : fs p = none → RunStep j target fs (.choosing (p :: ps)) fs (.chosen p)
  /-- src/target/file_backer_upper.rs:59-63: `fs::copy` opens the target and creates the other file, or empties it -/
  | no_source {fs p} : fs target = none → RunStep j target fs (.chosen p) fs .failed
  | create {fs p c} : fs target = some c → RunStep j target fs (.chosen p) (fs.set p []) (.copying p 0)
  | copy {fs p n c b k} : fs target = some c → fs p = some b → 0 < k → n < c.length →
      RunStep j target fs (.copying p n) (fs.set p (overlay b n ((c.drop n).take k))) (.copying p (n + ((c.drop n).take k).length))
  | copied {fs p n c} : fs target = some c → c.length ≤ n → RunStep j target fs (.copying p n) fs .toRead
  /-- src/target/csv/mod.rs:35-44 -/
  | no_file {fs} : fs target = none → RunStep j target fs .toRead fs (.merged (writeCsv j.ov j.sheet none))
  | file {fs} : fs target ≠ none → RunStep j target fs .toRead fs (.reading [])
  /-- src/target/csv/mod.rs:46-64 -/
  | read {fs got c k} : fs target = some c → 0 < k → got.length < c.length →
      RunStep j target fs (.reading got) fs (.reading (got ++ (c.drop got.length).take k))
  | eof {fs got c} : fs target = some c → c.length ≤ got.length → RunStep j target fs (.reading got) fs (.merged (writeCsv j.ov j.sheet (some got)))
  /-- src/target/csv/compilation_target.rs:15-17: the file is created, or emptied -/
  | open {fs w} : RunStep j target fs (.merged w) (fs.set target []) (.writing w 0)
  /-- src/target/csv/compilation_target.rs:42-52 -/
  | write {fs w n c k} : fs target = some c → 0 < k → n < w.length →
      RunStep j target fs (.writing w n) (fs.set target (overlay c n ((w.drop n).take k))) (.writing w (n + ((w.drop n).take k).length))
  | flush {fs w n} : w.length ≤ n → RunStep j target fs (.writing w n) fs .done

/-- The files, and where the runs are. -/
structure Runs where
  fs : Files Text
  phase : Nat → Phase

/-- The run `i` makes a step. -/
def StepOf (jobs : Nat → Job) (target : Path) (i : Nat) (s t : Runs) : Prop :=
  RunStep (jobs i) target s.fs (s.phase i) t.fs (t.phase i) ∧ ∀ k, k ≠ i → t.phase k = s.phase k

/-- Some run makes a step. -/
def Together (jobs : Nat → Job) (target : Path) (s t : Runs) : Prop := ∃ i, StepOf jobs target i s t

/-- All runs are at their beginning. -/
def begin (jobs : Nat → Job) (target : Path) (fs : Files Text) : Runs := ⟨fs, fun i => (jobs i).start target⟩

/-- The text that a run writes if it finds these contents. -/
def Job.output (j : Job) (file : Option Text) : Text := writeCsv j.ov j.sheet file

/-- No two runs have chosen the same name at the same time (and not yet created the file). -/
def Apart (s : Runs) : Prop := ∀ i k p, s.phase i = .chosen p → s.phase k = .chosen p → i = k

/-- Some run makes a step, while the runs are apart. -/
def TogetherApart (jobs : Nat → Job) (target : Path) (s t : Runs) : Prop := Apart s ∧ Together jobs target s t

/-! ### Lemmas -/

theorem overlay_append (w : Text) {c : Text} {n : Nat} (k : Nat) (h : c = w.take n) (hn : n ≤ w.length) :
    overlay c n ((w.drop n).take k) = w.take (n + ((w.drop n).take k).length) := by
  subst h
  have e1 : (w.take n).length = n := by rw [List.length_take]; omega
  have e2 : (w.take n).drop (n + ((w.drop n).take k).length) = [] := List.drop_eq_nil_of_le (by rw [e1]; omega)
  rw [overlay, e1, e2, Nat.sub_self, List.replicate_zero, List.append_nil, List.append_nil, List.take_take, Nat.min_self, List.take_add,
    List.length_take, ← List.take_eq_take_min]

theorem overlay_at {c t : Text} {n i : Nat} (hi : i < c.length ∨ n ≤ i) :
    (overlay c n t)[i]? = if n ≤ i ∧ i < n + t.length then t[i - n]? else if n ≤ i then c[i]? else c[i]? := by
  have hl : (c.take n ++ List.replicate (n - c.length) (Char.ofNat 0)).length = n := by
    rw [List.length_append, List.length_take, List.length_replicate]; omega
  rw [overlay]
  by_cases h1 : n ≤ i
  · by_cases h2 : i < n + t.length
    · rw [if_pos ⟨h1, h2⟩, List.append_assoc, List.getElem?_append_right (by rw [hl]; omega), hl,
        List.getElem?_append_left (by omega)]
    · rw [if_neg (by omega), if_pos h1, List.append_assoc, List.getElem?_append_right (by rw [hl]; omega), hl,
        List.getElem?_append_right (by omega), List.getElem?_drop]
      congr 1
      omega
  · rw [if_neg (by omega), if_neg h1, List.append_assoc, List.append_assoc, List.getElem?_append_left (by rw [List.length_take]; omega),
      List.getElem?_take, if_pos (by omega)]

theorem overlay_length {c t : Text} {n : Nat} : (overlay c n t).length = max c.length (n + t.length) := by
  rw [overlay]
  simp only [List.length_append, List.length_take, List.length_replicate, List.length_drop]
  omega

/-- Writing a piece of `w` at its place. -/
theorem overlay_piece {c w : Text} {n m : Nat} (k : Nat) (h : c.take m = w.take m) (hm : m ≤ c.length) :
    (overlay c n ((w.drop n).take k)).take m = w.take m := by
  apply List.ext_getElem?
  intro i
  rw [List.getElem?_take, List.getElem?_take]
  split
  · rename_i hi
    rw [overlay_at (.inl (by omega))]
    have hc : c[i]? = w[i]? := by
      have := congrArg (fun l => l[i]?) h
      simp only [List.getElem?_take, if_pos hi] at this
      exact this
    split
    · rename_i h1
      rw [List.length_take, List.length_drop] at h1
      rw [List.getElem?_take, if_pos (by omega), List.getElem?_drop]
      congr 1
      omega
    · split <;> exact hc
  · rfl

theorem piece_le {w : Text} {n : Nat} (k : Nat) (h : n ≤ w.length) : n + ((w.drop n).take k).length ≤ w.length := by
  rw [List.length_take, List.length_drop]; omega

/-! ### One step -/

section
variable {jobs : Nat → Job} {target : Path} {fs₀ : Files Text} {s t : Runs}

/-- No file is ever removed. -/
theorem step_keeps {j : Job} {fs fs' : Files Text} {p p' : Phase} (h : RunStep j target fs p fs' p') {q : Path} (hq : fs q ≠ none) : fs' q ≠ none := by
  cases h <;> first
    | exact hq
    | (simp only [Files.set]; split <;> first | exact hq | exact fun h => by cases h)

/-- The files that a step can change. -/
theorem step_changes {j : Job} {fs fs' : Files Text} {p p' : Phase} (h : RunStep j target fs p fs' p') {q : Path} (hq : fs' q ≠ fs q) :
    p = .chosen q ∨ (∃ n, p = .copying q n) ∨ q = target := by
  cases h with
  | @create r c hs =>
    by_cases e : q = r
    · subst e; exact .inl rfl
    · exact absurd (set_ne e) hq
  | @copy r n c b k hs hb hk hn =>
    by_cases e : q = r
    · subst e; exact .inr (.inl ⟨_, rfl⟩)
    · exact absurd (set_ne e) hq
  | «open» =>
    by_cases e : q = target
    · exact .inr (.inr e)
    · exact absurd (set_ne e) hq
  | write =>
    by_cases e : q = target
    · exact .inr (.inr e)
    · exact absurd (set_ne e) hq
  | none_left => exact absurd rfl hq
  | taken => exact absurd rfl hq
  | free => exact absurd rfl hq
  | no_source => exact absurd rfl hq
  | copied => exact absurd rfl hq
  | no_file => exact absurd rfl hq
  | file => exact absurd rfl hq
  | read => exact absurd rfl hq
  | eof => exact absurd rfl hq
  | flush => exact absurd rfl hq

/-! ### Backups -/

/-- A backup that nobody writes to. -/
def Saved (target : Path) (fs₀ : Files Text) (c₀ : Text) (s : Runs) : Prop :=
  ∃ p, p ≠ target ∧ fs₀ p = none ∧ s.fs p = some c₀ ∧ ∀ i n, s.phase i ≠ .copying p n

/-- Phases before the end of the backup. -/
def Phase.Early : Phase → Prop
  | .choosing _ => True
  | .chosen _ => True
  | .copying _ _ => True
  | .failed => True
  | _ => False

structure BackupInv (target : Path) (fs₀ : Files Text) (c₀ : Text) (s : Runs) : Prop where
  there : s.fs target ≠ none
  kept : ∀ q, fs₀ q ≠ none → s.fs q ≠ none
  chosen : ∀ i p, s.phase i = .chosen p → s.fs p = none
  copying : ∀ i p n, s.phase i = .copying p n → p ≠ target ∧ fs₀ p = none ∧ s.fs p ≠ none
  one : ∀ i k p n m, s.phase i = .copying p n → s.phase k = .copying p m → i = k
  main : Saved target fs₀ c₀ s ∨ s.fs target = some c₀ ∧
    (∀ i p n, s.phase i = .copying p n → n ≤ c₀.length ∧ s.fs p = some (c₀.take n)) ∧ ∀ i, (s.phase i).Early

/-- A step of one run, seen from all runs. -/
theorem phases {i : Nat} (ho : ∀ k, k ≠ i → t.phase k = s.phase k) (k : Nat) : k = i ∨ k ≠ i ∧ t.phase k = s.phase k := by
  by_cases h : k = i
  · exact .inl h
  · exact .inr ⟨h, ho k h⟩

theorem copying_from {j : Job} {fs fs' : Files Text} {p p' : Phase} {q : Path} {n : Nat} (h : RunStep j target fs p fs' p') (hc : p' = .copying q n) :
    p = .chosen q ∧ n = 0 ∧ fs' = fs.set q [] ∨ ∃ m c b k, p = .copying q m ∧ fs target = some c ∧ fs q = some b ∧ m < c.length ∧ 
      fs' = fs.set q (overlay b m ((c.drop m).take k)) ∧ n = m + ((c.drop m).take k).length := by
  cases h <;> first | cases hc; done | skip
  · cases hc
    exact .inl ⟨rfl, rfl, rfl⟩
  · cases hc
    exact .inr ⟨_, _, _, _, rfl, ‹_›, ‹_›, ‹_›, rfl, rfl⟩

theorem chosen_from {j : Job} {fs fs' : Files Text} {p p' : Phase} {q : Path} (h : RunStep j target fs p fs' p') (hc : p' = .chosen q) :
    fs' = fs ∧ fs q = none := by
  cases h <;> first | cases hc; done | skip
  cases hc
  exact ⟨rfl, ‹_›⟩

theorem backup_step {c₀ : Text} (hi : BackupInv target fs₀ c₀ s) (ha : Apart s) {i : Nat} (h : StepOf jobs target i s t) : BackupInv target fs₀ c₀ t := by
  obtain ⟨hs, ho⟩ := h
  have kept : ∀ q, s.fs q ≠ none → t.fs q ≠ none := fun q hq => step_keeps hs hq
  have chosen : ∀ k p, t.phase k = .chosen p → t.fs p = none := by
    intro k p hk
    rcases phases ho k with rfl | ⟨hne, he⟩
    · obtain ⟨h1, h2⟩ := chosen_from hs hk
      rw [h1, h2]
    · rw [he] at hk
      by_contra hc
      rcases step_changes hs (q := p) (by rw [hi.chosen k p hk]; exact hc) with h | ⟨n, h⟩ | h
      · exact hne (ha _ _ _ hk h)
      · exact (hi.copying _ _ _ h).2.2 (hi.chosen k p hk)
      · exact hi.there (h ▸ hi.chosen k p hk)
  have copying : ∀ k p n, t.phase k = .copying p n → p ≠ target ∧ fs₀ p = none ∧ t.fs p ≠ none := by
    intro k p n hk
    rcases phases ho k with rfl | ⟨hne, he⟩
    · rcases copying_from hs hk with ⟨h1, _, h3⟩ | ⟨m, c, b, k', h1, _, _, _, h3, _⟩
      · have hn := hi.chosen _ _ h1
        refine ⟨by rintro rfl; exact hi.there hn, ?_, by rw [h3, set_eq]; exact fun h => by cases h⟩
        by_contra hc
        exact hi.kept p hc hn
      · obtain ⟨h4, h5, h6⟩ := hi.copying _ _ _ h1
        exact ⟨h4, h5, kept _ h6⟩
    · rw [he] at hk
      obtain ⟨h4, h5, h6⟩ := hi.copying _ _ _ hk
      exact ⟨h4, h5, kept _ h6⟩
  -- a run that copies did so before, or has just created its file
  have before : ∀ k p n, t.phase k = .copying p n → (∃ m, s.phase k = .copying p m) ∨ k = i ∧ s.phase i = .chosen p := by
    intro k p n hk
    rcases phases ho k with rfl | ⟨hne, he⟩
    · rcases copying_from hs hk with ⟨h1, _, _⟩ | ⟨m, c, b, k', h1, _, _, _, _, _⟩
      · exact .inr ⟨rfl, h1⟩
      · exact .inl ⟨m, h1⟩
    · rw [he] at hk
      exact .inl ⟨n, hk⟩
  have one : ∀ k l p n m, t.phase k = .copying p n → t.phase l = .copying p m → k = l := by
    intro k l p n m hk hl
    rcases before k p n hk with ⟨n', hk'⟩ | ⟨rfl, hk'⟩ <;> rcases before l p m hl with ⟨m', hl'⟩ | ⟨rfl, hl'⟩
    · exact hi.one _ _ _ _ _ hk' hl'
    · exact absurd (hi.chosen _ _ hl') (hi.copying _ _ _ hk').2.2
    · exact absurd (hi.chosen _ _ hk') (hi.copying _ _ _ hl').2.2
    · rfl
  refine ⟨kept _ hi.there, fun q hq => kept q (hi.kept q hq), chosen, copying, one, ?_⟩
  rcases hi.main with ⟨p, h1, h2, h3, h4⟩ | ⟨h1, h2, h3⟩
  · refine .inl ⟨p, h1, h2, ?_, fun k n hk => ?_⟩
    · by_contra hc
      rcases step_changes hs (q := p) (by rw [h3]; exact hc) with h | ⟨n, h⟩ | h
      · rw [hi.chosen _ _ h] at h3; cases h3
      · exact h4 _ _ h
      · exact h1 h
    · rcases before k p n hk with ⟨n', hk'⟩ | ⟨rfl, hk'⟩
      · exact h4 _ _ hk'
      · rw [hi.chosen _ _ hk'] at h3; cases h3
  · -- the target has not been opened for writing
    have early := h3 i
    generalize hp : s.phase i = p at hs early
    generalize hp' : t.phase i = p' at hs
    have others : ∀ k, k ≠ i → (t.phase k).Early := fun k hk => by rw [ho k hk]; exact h3 k
    -- nothing changed but the phase
    have same : t.fs = s.fs → p'.Early → (∀ q n, p' ≠ .copying q n) →
        t.fs target = some c₀ ∧ (∀ i p n, t.phase i = .copying p n → n ≤ c₀.length ∧ t.fs p = some (c₀.take n)) ∧ ∀ i, (t.phase i).Early := by
      intro he hq hnc
      rw [he]
      refine ⟨h1, fun k q n hk => ?_, fun k => ?_⟩
      · rcases phases ho k with rfl | ⟨hne, e⟩
        · rw [hp'] at hk; exact absurd hk (hnc _ _)
        · rw [e] at hk; exact h2 _ _ _ hk
      · rcases phases ho k with rfl | ⟨hne, e⟩
        · rw [hp']; exact hq
        · exact others k hne
    cases hs' : p with
    | choosing l =>
      subst hs'
      have : t.fs = s.fs ∧ p'.Early ∧ ∀ q n, p' ≠ .copying q n := by
        generalize t.fs = fs' at hs
        cases hs <;> exact ⟨rfl, trivial, fun _ _ h => by cases h⟩
      exact .inr (same this.1 this.2.1 this.2.2)
    | chosen q =>
      subst hs'
      have hn := hi.chosen _ _ hp
      have : t.fs = s.fs ∧ p' = .failed ∨ t.fs = s.fs.set q [] ∧ p' = .copying q 0 := by
        generalize t.fs = fs' at hs
        cases hs
        · exact .inl ⟨rfl, rfl⟩
        · exact .inr ⟨rfl, rfl⟩
      rcases this with ⟨e1, rfl⟩ | ⟨e1, rfl⟩
      · exact .inr (same e1 trivial (fun _ _ h => by cases h))
      · refine .inr ⟨?_, fun k r n hk => ?_, fun k => ?_⟩
        · rw [e1, set_ne (by rintro rfl; exact hi.there hn), h1]
        · rcases phases ho k with rfl | ⟨hne, e⟩
          · rw [hp'] at hk
            cases hk
            exact ⟨by omega, by rw [e1, set_eq]; rfl⟩
          · rw [e] at hk
            obtain ⟨h4, h5⟩ := h2 _ _ _ hk
            exact ⟨h4, by rw [e1, set_ne (by rintro rfl; exact (hi.copying _ _ _ hk).2.2 hn), h5]⟩
        · rcases phases ho k with rfl | ⟨hne, e⟩
          · rw [hp']; trivial
          · exact others k hne
    | copying q n =>
      subst hs'
      obtain ⟨h4, h5⟩ := h2 _ _ _ hp
      obtain ⟨h6, h7, h8⟩ := hi.copying _ _ _ hp
      have : (∃ k, t.fs = s.fs.set q (overlay (c₀.take n) n ((c₀.drop n).take k)) ∧ p' = .copying q (n + ((c₀.drop n).take k).length)) ∨
          t.fs = s.fs ∧ p' = .toRead ∧ c₀.length ≤ n := by
        generalize t.fs = fs' at hs
        cases hs with
        | @copy _ _ c b k e1 e2 =>
          rw [h1, Option.some.injEq] at e1
          rw [h5, Option.some.injEq] at e2
          subst e1; subst e2
          exact .inl ⟨k, rfl, rfl⟩
        | @copied _ _ c e1 e2 =>
          rw [h1, Option.some.injEq] at e1
          subst e1
          exact .inr ⟨rfl, rfl, e2⟩
      rcases this with ⟨k, e1, rfl⟩ | ⟨e1, rfl, e2⟩
      · rw [overlay_append c₀ k rfl h4] at e1
        refine .inr ⟨by rw [e1, set_ne (Ne.symm h6), h1], fun l r m hl => ?_, fun l => ?_⟩
        · rcases phases ho l with rfl | ⟨hne, e⟩
          · rw [hp'] at hl
            cases hl
            exact ⟨piece_le k h4, by rw [e1, set_eq]⟩
          · rw [e] at hl
            obtain ⟨h9, h10⟩ := h2 _ _ _ hl
            exact ⟨h9, by rw [e1, set_ne (by rintro rfl; exact hne (hi.one _ _ _ _ _ hl hp)), h10]⟩
        · rcases phases ho l with rfl | ⟨hne, e⟩
          · rw [hp']; trivial
          · exact others l hne
      · refine .inl ⟨q, h6, h7, by rw [e1, h5, List.take_of_length_le e2], fun l m hl => ?_⟩
        rcases phases ho l with rfl | ⟨hne, e⟩
        · rw [hp'] at hl; cases hl
        · rw [e] at hl; exact hne (hi.one _ _ _ _ _ hl hp)
    | failed =>
      subst hs'
      cases hs
    | toRead => subst hs'; exact early.elim
    | reading g => subst hs'; exact early.elim
    | merged w => subst hs'; exact early.elim
    | writing w n => subst hs'; exact early.elim
    | done => subst hs'; exact early.elim

theorem start_cases (j : Job) : j.start target = .toRead ∨ (∃ l, j.start target = .choosing l) ∨ j.start target = .failed := by
  unfold Job.start
  split
  · split
    · exact .inr (.inl ⟨_, rfl⟩)
    · exact .inr (.inr rfl)
  · exact .inl rfl

theorem start_backup {j : Job} (h : j.backup = true) : (j.start target).Early := by
  unfold Job.start
  rw [if_pos h]
  split <;> trivial

theorem backup_begin {c₀ : Text} (hb : ∀ i, (jobs i).backup = true) (hc : fs₀ target = some c₀) : BackupInv target fs₀ c₀ (begin jobs target fs₀) := by
  have h : ∀ i p n, (begin jobs target fs₀).phase i ≠ .copying p n := fun i p n he => by
    rcases start_cases (target := target) (jobs i) with h | ⟨l, h⟩ | h <;> (rw [show (begin jobs target fs₀).phase i = (jobs i).start target from rfl, h] at he; cases he)
  have h' : ∀ i p, (begin jobs target fs₀).phase i ≠ .chosen p := fun i p he => by
    rcases start_cases (target := target) (jobs i) with h | ⟨l, h⟩ | h <;> (rw [show (begin jobs target fs₀).phase i = (jobs i).start target from rfl, h] at he; cases he)
  exact ⟨(by rw [show (begin jobs target fs₀).fs = fs₀ from rfl, hc]; intro h; cases h), fun _ h => h, fun i p he => absurd he (h' i p),
    fun i p n he => absurd he (h i p n), fun i _ p n _ he => absurd he (h i p n), .inr ⟨hc, fun i p n he => absurd he (h i p n), fun i => start_backup (hb i)⟩⟩

/-- C110: if all runs make backups, and no two runs have chosen the same name for it before the first has created it, then at every moment of every schedule, whatever
run crashes, the contents that the target had are in the target or in a file that was not there before. -/
theorem C110_backup_partial {c₀ : Text} (hb : ∀ i, (jobs i).backup = true) (hc : fs₀ target = some c₀)
    (h : Relation.ReflTransGen (TogetherApart jobs target) (begin jobs target fs₀) s) :
    s.fs target = some c₀ ∨ ∃ p, p ≠ target ∧ fs₀ p = none ∧ s.fs p = some c₀ := by
  have inv : BackupInv target fs₀ c₀ s := by
    induction h with
    | refl => exact backup_begin hb hc
    | tail _ hst ih => exact backup_step ih hst.1 hst.2.choose_spec
  rcases inv.main with ⟨p, h1, h2, h3, _⟩ | ⟨h1, _⟩
  · exact .inr ⟨p, h1, h2, h3⟩
  · exact .inl h1

/-! ### The same contents -/

/-- What has been written up to now by the run that has emptied the target last. -/
structure SameInv (target : Path) (fs₀ : Files Text) (w : Text) (s : Runs) : Prop where
  there : fs₀ target ≠ none → s.fs target ≠ none
  busy : ∀ i, (∃ l, s.phase i = .choosing l) ∨ (∃ p, s.phase i = .chosen p) ∨ (∃ p n, s.phase i = .copying p n) → fs₀ target ≠ none
  names : ∀ i p n, s.phase i = .chosen p ∨ s.phase i = .copying p n → p ≠ target
  texts : ∀ i v n, s.phase i = .merged v ∨ s.phase i = .writing v n → v = w
  main : (∀ i, s.phase i ≠ .done ∧ ∀ v n, s.phase i ≠ .writing v n) ∨
    ∃ i n c, (s.phase i = .writing w n ∨ s.phase i = .done ∧ w.length ≤ n) ∧ s.fs target = some c ∧ c.take n = w.take n ∧
      min n w.length ≤ c.length ∧ c.length ≤ w.length

/-- The target after a step of a run that does not write to it. -/
theorem same_target {j : Job} {fs fs' : Files Text} {p p' : Phase} (h : RunStep j target fs p fs' p')
    (h1 : ∀ q n, p = .chosen q ∨ p = .copying q n → q ≠ target) (h2 : ∀ w, p ≠ .merged w) (h3 : ∀ w n, p ≠ .writing w n) : fs' target = fs target := by
  cases h with
  | @create q c hs => exact set_ne (Ne.symm (h1 q 0 (.inl rfl)))
  | @copy q n c b k hs hb hk hn => exact set_ne (Ne.symm (h1 q n (.inr rfl)))
  | «open» => exact absurd rfl (h2 _)
  | write => exact absurd rfl (h3 _ _)
  | _ => rfl

/-- The phases of the backup come from such phases. -/
theorem busy_from {j : Job} {fs fs' : Files Text} {p p' : Phase} (h : RunStep j target fs p fs' p')
    (hp : (∃ l, p' = .choosing l) ∨ (∃ q, p' = .chosen q) ∨ (∃ q n, p' = .copying q n)) :
    (∃ l, p = .choosing l) ∨ (∃ q, p = .chosen q) ∨ (∃ q n, p = .copying q n) := by
  cases h <;> first
    | exact .inl ⟨_, rfl⟩
    | exact .inr (.inl ⟨_, rfl⟩)
    | exact .inr (.inr ⟨_, _, rfl⟩)
    | (rcases hp with ⟨_, h⟩ | ⟨_, h⟩ | ⟨_, _, h⟩ <;> cases h)

/-- Texts to be written are those of the job. -/
theorem text_from {j : Job} {fs fs' : Files Text} {p p' : Phase} {w v : Text} {n : Nat} (hw : ∀ f, j.output f = w)
    (h : RunStep j target fs p fs' p') (hp : ∀ v n, p = .merged v ∨ p = .writing v n → v = w) (h' : p' = .merged v ∨ p' = .writing v n) : v = w := by
  cases h with
  | no_file => rcases h' with h' | h' <;> cases h'; exact hw none
  | eof => rcases h' with h' | h' <;> cases h'; exact hw _
  | «open» => rcases h' with h' | h' <;> cases h'; exact hp _ 0 (.inl rfl)
  | write => rcases h' with h' | h' <;> cases h'; exact hp _ _ (.inr rfl)
  | _ => rcases h' with h' | h' <;> cases h'

theorem take_min {c w : Text} {n : Nat} (h : c.take (min n w.length) = w.take (min n w.length)) (hl : min n w.length ≤ c.length) (hu : c.length ≤ w.length) :
    c.take n = w.take n := by
  by_cases hn : n ≤ w.length
  · rwa [Nat.min_eq_left hn] at h
  · rw [Nat.min_eq_right (by omega)] at h hl
    rw [List.take_of_length_le (l := c) (by omega), List.take_of_length_le (l := w) (by omega)] at h
    rw [h]

theorem same_step {w : Text} (hw : ∀ i f, (jobs i).output f = w) (hi : SameInv target fs₀ w s) {i : Nat} (h : StepOf jobs target i s t) :
    SameInv target fs₀ w t := by
  obtain ⟨hs, ho⟩ := h
  have there : fs₀ target ≠ none → t.fs target ≠ none := fun h => step_keeps hs (hi.there h)
  refine ⟨there, fun k hk => ?_, fun k q n hk => ?_, fun k v n hk => ?_, ?_⟩
  · rcases phases ho k with rfl | ⟨hne, he⟩
    · exact hi.busy _ (busy_from hs hk)
    · rw [he] at hk; exact hi.busy _ hk
  · rcases phases ho k with rfl | ⟨hne, he⟩
    · have hb : fs₀ target ≠ none := hi.busy k (busy_from hs (by rcases hk with h | h; exacts [.inr (.inl ⟨_, h⟩), .inr (.inr ⟨_, _, h⟩)]))
      rcases hk with hk | hk
      · rintro rfl
        exact hi.there hb (chosen_from hs hk).2
      · rcases copying_from hs hk with ⟨h1, _⟩ | ⟨m, _, _, _, h1, _⟩
        · exact hi.names _ _ 0 (.inl h1)
        · exact hi.names _ _ m (.inr h1)
    · rw [he] at hk; exact hi.names _ _ _ hk
  · rcases phases ho k with rfl | ⟨hne, he⟩
    · exact text_from (hw k) hs (hi.texts k) hk
    · rw [he] at hk; exact hi.texts _ _ _ hk
  · -- a run that was not writing and does not begin to
    have quiet : (∀ q n, s.phase i = .chosen q ∨ s.phase i = .copying q n → q ≠ target) → (∀ w, s.phase i ≠ .merged w) →
        (∀ w n, s.phase i ≠ .writing w n) → s.phase i ≠ .done → t.phase i ≠ .done → (∀ w n, t.phase i ≠ .writing w n) →
        ((∀ i, t.phase i ≠ .done ∧ ∀ v n, t.phase i ≠ .writing v n) ∨
          ∃ i n c, (t.phase i = .writing w n ∨ t.phase i = .done ∧ w.length ≤ n) ∧ t.fs target = some c ∧ c.take n = w.take n ∧
            min n w.length ≤ c.length ∧ c.length ≤ w.length) := by
      intro h1 h2 h3 h4 h5 h6
      have ht := same_target hs h1 h2 h3
      rcases hi.main with hm | ⟨L, n, c, hL, hc⟩
      · refine .inl fun k => ?_
        rcases phases ho k with rfl | ⟨hne, he⟩
        · exact ⟨h5, h6⟩
        · rw [he]; exact hm k
      · have hne : L ≠ i := by
          rintro rfl
          rcases hL with hL | ⟨hL, _⟩
          · exact h3 _ _ hL
          · exact h4 hL
        exact .inr ⟨L, n, c, by rw [ho L hne]; exact hL, by rw [ht]; exact hc⟩
    have hnames := hi.names i
    have htexts := hi.texts i
    generalize hp : s.phase i = p at hs quiet hnames htexts
    generalize hp' : t.phase i = p' at hs quiet
    generalize hfs : t.fs = fs' at hs
    rw [hfs] at quiet
    cases hs with
    | @«open» v =>
      have hv := htexts v 0 (.inl rfl)
      subst hv
      exact .inr ⟨i, 0, [], .inl hp', set_eq, rfl, by simp, by simp⟩
    | @write v n₀ c₀ k hc hk hn =>
      have hv := htexts v n₀ (.inr rfl)
      subst hv
      rcases hi.main with hm | ⟨L, n, c, hL, hc', h1, h2, h3⟩
      · exact absurd hp ((hm i).2 v n₀)
      rw [hc, Option.some.injEq] at hc'
      subst hc'
      have hlen : (overlay c₀ n₀ ((v.drop n₀).take k)).length ≤ v.length := by
        rw [overlay_length]
        have := piece_le (w := v) (n := n₀) k (by omega)
        omega
      have hlow : c₀.length ≤ (overlay c₀ n₀ ((v.drop n₀).take k)).length := by rw [overlay_length]; omega
      by_cases hLi : L = i
      · subst hLi
        have hnn : n = n₀ := by
          rcases hL with hL | ⟨hL, _⟩
          · rw [hp] at hL; cases hL; rfl
          · rw [hp] at hL; cases hL
        subst hnn
        rw [Nat.min_eq_left (by omega)] at h2
        refine .inr ⟨L, _, _, .inl hp', set_eq, ?_, ?_, hlen⟩
        · apply List.ext_getElem?
          intro x
          rw [List.getElem?_take, List.getElem?_take]
          split
          · rename_i hx
            by_cases hxn : x < n
            · have := overlay_piece (w := v) (n := n) k h1 h2
              have := congrArg (fun l => l[x]?) this
              simpa only [List.getElem?_take, if_pos hxn] using this
            · rw [overlay_at (.inr (by omega)), if_pos ⟨by omega, hx⟩]
              rw [List.length_take, List.length_drop] at hx
              rw [List.getElem?_take, if_pos (by omega), List.getElem?_drop]
              congr 1
              omega
          · rfl
        · rw [overlay_length]; omega
      · refine .inr ⟨L, n, _, by rw [ho L hLi]; exact hL, set_eq, take_min ?_ (by omega) hlen, by omega, hlen⟩
        refine overlay_piece k ?_ h2
        have := congrArg (List.take (min n v.length)) h1
        rwa [List.take_take, List.take_take, Nat.min_eq_left (Nat.min_le_left _ _)] at this
    | @flush v n₀ hn =>
      have hv := htexts v n₀ (.inr rfl)
      subst hv
      rcases hi.main with hm | ⟨L, n, c, hL, hc⟩
      · exact absurd hp ((hm i).2 v n₀)
      rw [← hfs] at *
      by_cases hLi : L = i
      · subst hLi
        have hnn : n = n₀ := by
          rcases hL with hL | ⟨hL, _⟩
          · rw [hp] at hL; cases hL; rfl
          · rw [hp] at hL; cases hL
        subst hnn
        exact .inr ⟨L, n, c, .inr ⟨hp', hn⟩, hc⟩
      · exact .inr ⟨L, n, c, by rw [ho L hLi]; exact hL, hc⟩
    | _ => exact quiet hnames (by simp) (by simp) (by simp) (by simp) (by simp)

theorem same_begin {w : Text} (hb : ∀ i, (jobs i).backup = true → fs₀ target ≠ none) : SameInv target fs₀ w (begin jobs target fs₀) := by
  have key : ∀ i, (begin jobs target fs₀).phase i = .toRead ∨
      (fs₀ target ≠ none ∧ ∃ l, (begin jobs target fs₀).phase i = .choosing l) ∨ (begin jobs target fs₀).phase i = .failed := by
    intro i
    show (jobs i).start target = _ ∨ (_ ∧ ∃ l, (jobs i).start target = _) ∨ (jobs i).start target = _
    unfold Job.start
    split
    · rename_i h
      split
      · exact .inr (.inl ⟨hb i h, _, rfl⟩)
      · exact .inr (.inr rfl)
    · exact .inl rfl
  refine ⟨fun h => h, fun i h => ?_, fun i p n h => ?_, fun i v n h => ?_, .inl fun i => ?_⟩
  · rcases key i with e | ⟨h', _, e⟩ | e
    · rw [e] at h; simp at h
    · exact h'
    · rw [e] at h; simp at h
  · rcases key i with e | ⟨_, _, e⟩ | e <;> (rw [e] at h; simp at h)
  · rcases key i with e | ⟨_, _, e⟩ | e <;> (rw [e] at h; simp at h)
  · rcases key i with e | ⟨_, _, e⟩ | e <;> (rw [e]; simp)

/-- C110: if what the runs write does not depend on what they find, and is the same text for all of them, then, whatever the schedule was, this text is in the target
when one run has come to its end and no other one is writing. -/
theorem C110_same_partial {w : Text} (hw : ∀ i f, (jobs i).output f = w) (hb : ∀ i, (jobs i).backup = true → fs₀ target ≠ none)
    (h : Relation.ReflTransGen (Together jobs target) (begin jobs target fs₀) s) {i : Nat} (hd : s.phase i = .done)
    (hn : ∀ k v n, s.phase k ≠ .writing v n) : s.fs target = some w := by
  have inv : SameInv target fs₀ w s := by
    clear hd hn
    induction h with
    | refl => exact same_begin hb
    | tail _ hst ih => exact same_step hw ih hst.choose_spec
  rcases inv.main with hm | ⟨L, n, c, hL, hc, h1, h2, h3⟩
  · exact absurd hd (hm i).1
  · rcases hL with hL | ⟨_, hL⟩
    · exact absurd hL (hn _ _ _)
    · rw [hc, List.take_of_length_le (l := c) (by omega), List.take_of_length_le (l := w) hL] at *
      rw [h1]

end

end Verif.Target
