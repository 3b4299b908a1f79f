import Verif.Target.Together
import Verif.Target.CsvProps
/-
C110, continued: one run alone, runs that write the same text, and schedules of two runs in which something is lost.
-/
namespace Verif.Target
open Verif.Cell Verif.Sheet

section
variable {jobs : Nat → Job} {target : Path} {fs₀ : Files Text} {s t : Runs}

/-! ### One run alone -/

theorem set_set {fs : Files Text} {p : Path} {a b : Text} : (fs.set p a).set p b = fs.set p b := by
  funext q
  simp only [Files.set]
  split <;> rfl

/-- What is true of a run that is not disturbed. -/
def AloneInv (j : Job) (target : Path) (f : Option Text) (fs : Files Text) : Phase → Prop
  | .choosing _ => fs target = f
  | .chosen p => fs target = f ∧ fs p = none
  | .copying p _ => fs target = f ∧ p ≠ target
  | .toRead => fs target = f
  | .reading got => fs target = f ∧ ∃ c, f = some c ∧ got = c.take got.length
  | .merged w => w = j.output f
  | .writing w n => w = j.output f ∧ n ≤ w.length ∧ fs target = some (w.take n)
  | .done => fs target = some (j.output f)
  | .failed => fs target = f

theorem alone_step {j : Job} {f : Option Text} {fs fs' : Files Text} {p p' : Phase} (hi : AloneInv j target f fs p) (h : RunStep j target fs p fs' p') :
    AloneInv j target f fs' p' := by
  cases h with
  | none_left => exact hi
  | taken => exact hi
  | free hn => exact ⟨hi, hn⟩
  | no_source => exact hi.1
  | @create q c hc =>
    have hne : q ≠ target := by rintro rfl; rw [hi.2] at hc; cases hc
    exact ⟨by rw [set_ne (Ne.symm hne)]; exact hi.1, hne⟩
  | copy => exact ⟨by rw [set_ne (Ne.symm hi.2)]; exact hi.1, hi.2⟩
  | copied => exact hi.1
  | no_file hn => rw [AloneInv, ← show fs target = f from hi, hn]; rfl
  | file hn =>
    obtain ⟨c, hc⟩ := Option.ne_none_iff_exists'.mp hn
    exact ⟨hi, c, by rw [← show fs target = f from hi, hc], rfl⟩
  | @read got c k hc hk hl =>
    obtain ⟨h1, c', h2, h3⟩ := hi
    rw [hc, h2, Option.some.injEq] at h1
    subst h1
    refine ⟨by rw [hc, h2], c, h2, ?_⟩
    rw [List.length_append, List.take_add, ← h3, List.length_take, ← List.take_eq_take_min]
  | @eof got c hc hl =>
    obtain ⟨h1, c', h2, h3⟩ := hi
    rw [hc, h2, Option.some.injEq] at h1
    subst h1
    rw [List.take_of_length_le hl] at h3
    subst h3
    rw [AloneInv, h2]; rfl
  | «open» => exact ⟨hi, Nat.zero_le _, by rw [set_eq]; rfl⟩
  | @write w n c k hc hk hl =>
    obtain ⟨h1, h2, h3⟩ := hi
    rw [hc, Option.some.injEq] at h3
    exact ⟨h1, piece_le k h2, by rw [set_eq, overlay_append w k h3 h2]⟩
  | @flush w n hl =>
    obtain ⟨h1, h2, h3⟩ := hi
    rw [AloneInv, h3, List.take_of_length_le hl, h1]

/-- C110: as long as the other runs do nothing, a run that comes to its end has written what it would write alone, whatever the other runs have not yet done. -/
theorem C110_alone {i : Nat} (h : Relation.ReflTransGen (StepOf jobs target i) (begin jobs target fs₀) s) (hd : s.phase i = .done) :
    s.fs target = some (writeCsv (jobs i).ov (jobs i).sheet (fs₀ target)) := by
  have inv : AloneInv (jobs i) target (fs₀ target) s.fs (s.phase i) := by
    clear hd
    induction h with
    | refl =>
      show AloneInv _ _ _ fs₀ ((jobs i).start target)
      rcases start_cases (target := target) (jobs i) with e | ⟨l, e⟩ | e <;> (rw [e]; exact rfl)
    | tail _ hst ih => exact alone_step ih hst.1
  rw [hd] at inv
  exact inv

/-- The files after the backup, for the names that have not been tried. -/
def firstFree (fs₀ : Files Text) (target : Path) : List Path → Option (Files Text)
  | [] => none
  | p :: ps => if (fs₀ p).isSome then firstFree fs₀ target ps else (fs₀ target).map (fs₀.set p)

theorem firstFree_loop (fs₀ : Files Text) (target parent : Path) (stem ext : Text) (ts : List Text) :
    firstFree fs₀ target (ts.map (backupName parent stem ext)) = (backupLoop fs₀ target parent stem ext ts).map Prod.fst := by
  induction ts with
  | nil => rfl
  | cons t ts ih =>
    rw [List.map_cons, firstFree, backupLoop]
    split
    · exact ih
    · cases fs₀ target <;> rfl

/-- What is true of all files while a run is not disturbed; `B` are the files after the backup. -/
def FilesInv (j : Job) (target : Path) (fs₀ : Files Text) (B : Option (Files Text)) (fs : Files Text) : Phase → Prop
  | .choosing names => fs = fs₀ ∧ B = firstFree fs₀ target names
  | .chosen p => fs = fs₀ ∧ fs₀ p = none ∧ B = (fs₀ target).map (fs₀.set p)
  | .copying p n => ∃ c, fs₀ target = some c ∧ fs₀ p = none ∧ n ≤ c.length ∧ fs = fs₀.set p (c.take n) ∧ B = some (fs₀.set p c)
  | .toRead => B = some fs
  | .reading got => B = some fs ∧ ∃ c, fs target = some c ∧ got = c.take got.length
  | .merged w => B = some fs ∧ w = j.output (fs target)
  | .writing w n => ∃ f, B = some f ∧ w = j.output (f target) ∧ n ≤ w.length ∧ fs = f.set target (w.take n)
  | .done => ∃ f, B = some f ∧ fs = f.set target (j.output (f target))
  | .failed => B = none ∧ fs = fs₀

theorem files_step {j : Job} {B : Option (Files Text)} {fs fs' : Files Text} {p p' : Phase} (hi : FilesInv j target fs₀ B fs p) (h : RunStep j target fs p fs' p') :
    FilesInv j target fs₀ B fs' p' := by
  cases h with
  | none_left => exact ⟨hi.2, hi.1⟩
  | taken h =>
    obtain ⟨rfl, hB⟩ := hi
    exact ⟨rfl, by rw [hB, firstFree, if_pos (Option.isSome_iff_ne_none.mpr h)]⟩
  | free h =>
    obtain ⟨rfl, hB⟩ := hi
    exact ⟨rfl, h, by rw [hB, firstFree, if_neg (by rw [h]; simp)]⟩
  | no_source h =>
    obtain ⟨rfl, _, hB⟩ := hi
    exact ⟨by rw [hB, h]; rfl, rfl⟩
  | @create q c hc =>
    obtain ⟨rfl, hq, hB⟩ := hi
    exact ⟨c, hc, hq, Nat.zero_le _, rfl, by rw [hB, hc]; rfl⟩
  | @copy q n c b k hc hb hk hl =>
    obtain ⟨c', h1, h2, h3, h4, h5⟩ := hi
    have hne : target ≠ q := by rintro rfl; rw [h1] at h2; cases h2
    rw [h4, set_ne hne, h1, Option.some.injEq] at hc
    rw [h4, set_eq, Option.some.injEq] at hb
    subst hc
    subst hb
    exact ⟨c', h1, h2, piece_le k h3, by rw [h4, set_set, overlay_append c' k rfl h3], h5⟩
  | @copied q n c hc hl =>
    obtain ⟨c', h1, h2, h3, h4, h5⟩ := hi
    have hne : target ≠ q := by rintro rfl; rw [h1] at h2; cases h2
    rw [h4, set_ne hne, h1, Option.some.injEq] at hc
    subst hc
    show B = some fs
    rw [h5, h4, List.take_of_length_le hl]
  | no_file hn => exact ⟨hi, by rw [hn]; rfl⟩
  | file hn =>
    obtain ⟨c, hc⟩ := Option.ne_none_iff_exists'.mp hn
    exact ⟨hi, c, hc, rfl⟩
  | @read got c k hc hk hl =>
    obtain ⟨h1, c', h2, h3⟩ := hi
    rw [hc, Option.some.injEq] at h2
    subst h2
    refine ⟨h1, c, hc, ?_⟩
    rw [List.length_append, List.take_add, ← h3, List.length_take, ← List.take_eq_take_min]
  | @eof got c hc hl =>
    obtain ⟨h1, c', h2, h3⟩ := hi
    rw [hc, Option.some.injEq] at h2
    subst h2
    rw [List.take_of_length_le hl] at h3
    subst h3
    exact ⟨h1, by rw [hc]; rfl⟩
  | «open» => exact ⟨fs, hi.1, hi.2, Nat.zero_le _, rfl⟩
  | @write w n c k hc hk hl =>
    obtain ⟨f, h1, h2, h3, h4⟩ := hi
    rw [h4, set_eq, Option.some.injEq] at hc
    subst hc
    exact ⟨f, h1, h2, piece_le k h3, by rw [h4, set_set, overlay_append w k rfl h3]⟩
  | @flush w n hl =>
    obtain ⟨f, h1, h2, h3, h4⟩ := hi
    exact ⟨f, h1, by rw [h4, List.take_of_length_le hl, h2]⟩

/-- C110: as long as the other runs do nothing, a run does to the files what the sequential model says: it makes the backup of C43, if it makes one, and writes to the
target what the contents of the target call for; and if it fails it has changed nothing. -/
theorem C110_alone_files {i : Nat} (h : Relation.ReflTransGen (StepOf jobs target i) (begin jobs target fs₀) s) :
    (s.phase i = .done → ∃ f, (if (jobs i).backup then (backupFile (jobs i).timestamps fs₀ target).map Prod.fst else some fs₀) = some f ∧
      s.fs = f.set target (writeCsv (jobs i).ov (jobs i).sheet (f target))) ∧
    (s.phase i = .failed → (jobs i).backup = true ∧ backupFile (jobs i).timestamps fs₀ target = none ∧ s.fs = fs₀) := by
  have inv : FilesInv (jobs i) target fs₀ (if (jobs i).backup then (backupFile (jobs i).timestamps fs₀ target).map Prod.fst else some fs₀) s.fs (s.phase i) := by
    induction h with
    | refl =>
      show FilesInv _ _ _ _ fs₀ ((jobs i).start target)
      unfold Job.start candidates backupFile
      split
      · cases target.fileStem <;> cases target.parent <;> cases target.extension <;> first | exact ⟨rfl, rfl⟩ | exact ⟨rfl, (firstFree_loop ..).symm⟩
      · exact rfl
    | tail _ hst ih => exact files_step ih hst.1
  refine ⟨fun hd => ?_, fun hd => ?_⟩
  · rw [hd] at inv; exact inv
  · rw [hd] at inv
    obtain ⟨h1, h2⟩ := inv
    by_cases hb : (jobs i).backup = true
    · rw [if_pos hb, Option.map_eq_none_iff] at h1
      exact ⟨hb, h1, h2⟩
    · rw [if_neg hb] at h1; cases h1

/-! ### Sheets without short rows -/

/-- Without `--safe`, what is written for a sheet in which every cell of the target's width is there does not depend on the target. -/
theorem write_full {sh : Sheet} (hr : ∀ r ∈ sh.rows, ∀ r' ∈ sh.rows, r.cells.length = r'.cells.length) (f g : Option Text) :
    writeCsv true sh f = writeCsv true sh g := by
  have hw : ∀ r ∈ sh.rows, ∀ j, j < widestRow sh → j < r.cells.length := by
    intro r hm j hj
    obtain ⟨r', hr', hlt⟩ := lt_widest.mp hj
    rw [hr r hm r' hr']; exact hlt
  unfold writeCsv
  congr 1
  apply List.ext_getElem?
  intro i
  rw [outputRows_at, outputRows_at]
  cases he : sh.rows[i]? with
  | none => rfl
  | some r =>
    have hm := List.mem_of_getElem? he
    simp only [Option.map_some, Option.some.injEq]
    apply List.ext_getElem?
    intro j
    by_cases hj : j < widestRow sh
    · rw [outputRow_at _ _ _ _ _ hj, outputRow_at _ _ _ _ _ hj, List.getElem?_eq_getElem (hw r hm j hj)]
      congr 1
      generalize (((readExisting f)[0 + i]?).getD [])[j]?.getD .empty = a
      generalize (((readExisting g)[0 + i]?).getD [])[j]?.getD .empty = b
      cases a <;> cases b <;> rfl
    · rw [List.getElem?_eq_none (by rw [outputRow_length]; omega), List.getElem?_eq_none (by rw [outputRow_length]; omega)]

/-- C110: several runs of the same program without `--safe`, whose rows all have the same number of cells: whatever the schedule was, when one has come to its end and none
is writing, the target is what one run alone would have written. -/
theorem C110_same_program {sh : Sheet} (hr : ∀ r ∈ sh.rows, ∀ r' ∈ sh.rows, r.cells.length = r'.cells.length)
    (hj : ∀ i, (jobs i).ov = true ∧ (jobs i).sheet = sh) (hb : ∀ i, (jobs i).backup = true → fs₀ target ≠ none)
    (h : Relation.ReflTransGen (Together jobs target) (begin jobs target fs₀) s) {i : Nat} (hd : s.phase i = .done)
    (hn : ∀ k v n, s.phase k ≠ .writing v n) : s.fs target = some (writeCsv true sh (fs₀ target)) := by
  refine C110_same_partial (fun k f => ?_) hb h hd hn
  rw [Job.output, (hj k).1, (hj k).2]
  exact write_full hr _ _

/-! ### Schedules -/

theorem overlay_whole {w : Text} : overlay [] 0 w = w := by simp [overlay]

/-- Several steps of one run. -/
def Steps (j : Job) (target : Path) (fs : Files Text) (p : Phase) (fs' : Files Text) (p' : Phase) : Prop :=
  Relation.ReflTransGen (fun a b : Files Text × Phase => RunStep j target a.1 a.2 b.1 b.2) (fs, p) (fs', p')

theorem Steps.one {j : Job} {fs fs' : Files Text} {p p' : Phase} (h : RunStep j target fs p fs' p') : Steps j target fs p fs' p' :=
  Relation.ReflTransGen.single h

theorem Steps.trans {j : Job} {fs fs' fs'' : Files Text} {p p' p'' : Phase} (h : Steps j target fs p fs' p') (h' : Steps j target fs' p' fs'' p'') :
    Steps j target fs p fs'' p'' := Relation.ReflTransGen.trans h h'

/-- Reading the target. -/
theorem steps_read {j : Job} {fs : Files Text} {c : Text} (h : fs target = some c) : Steps j target fs .toRead fs (.merged (j.output (some c))) := by
  have h1 : Steps j target fs .toRead fs (.reading []) := .one (.file (by rw [h]; simp))
  cases c with
  | nil => exact h1.trans (.one (.eof h (Nat.le_refl _)))
  | cons x c =>
    have h2 : RunStep j target fs (.reading []) fs (.reading ([] ++ ((x :: c).drop 0).take (x :: c).length)) := .read h (Nat.succ_pos _) (Nat.succ_pos _)
    rw [List.drop_zero, List.take_length, List.nil_append] at h2
    exact h1.trans ((Steps.one h2).trans (.one (.eof h (Nat.le_refl _))))

/-- Writing to the target, after it has been opened and whatever is there. -/
theorem steps_write {j : Job} {fs : Files Text} {w c : Text} (h : fs target = some c) :
    Steps j target fs (.writing w 0) (fs.set target (overlay c 0 w)) .done := by
  cases w with
  | nil =>
    have : fs.set target (overlay c 0 []) = fs := by
      funext q
      simp only [Files.set]
      split
      · rename_i e; subst e; rw [h]; simp [overlay]
      · rfl
    rw [this]
    exact .one (.flush (Nat.le_refl _))
  | cons x w =>
    have h2 : RunStep j target fs (.writing (x :: w) 0) (fs.set target (overlay c 0 (((x :: w).drop 0).take (x :: w).length)))
        (.writing (x :: w) (0 + (((x :: w).drop 0).take (x :: w).length).length)) := .write h (Nat.succ_pos _) (Nat.succ_pos _)
    rw [List.drop_zero, List.take_length] at h2
    exact (Steps.one h2).trans (.one (.flush (by omega)))

/-- Copying. -/
theorem steps_copy {j : Job} {fs : Files Text} {c : Text} {p : Path} (h : fs target = some c) (hp : p ≠ target) :
    Steps j target fs (.chosen p) (fs.set p c) .toRead := by
  have h1 : Steps j target fs (.chosen p) (fs.set p []) (.copying p 0) := .one (.create h)
  have ht : (fs.set p []) target = some c := by rw [set_ne (Ne.symm hp), h]
  have ht' : (fs.set p c) target = some c := by rw [set_ne (Ne.symm hp), h]
  cases c with
  | nil => exact h1.trans (.one (.copied ht (Nat.le_refl _)))
  | cons x c =>
    have h2 : RunStep j target (fs.set p []) (.copying p 0) ((fs.set p []).set p (overlay [] 0 (((x :: c).drop 0).take (x :: c).length)))
        (.copying p (0 + (((x :: c).drop 0).take (x :: c).length).length)) := .copy ht set_eq (Nat.succ_pos _) (Nat.succ_pos _)
    rw [List.drop_zero, List.take_length, overlay_whole, set_set] at h2
    exact h1.trans ((Steps.one h2).trans (.one (.copied ht' (by omega))))

/-- The first name that is free. -/
def FirstFree (j : Job) (target : Path) (fs : Files Text) (p : Path) : Prop :=
  ∃ pre post, candidates target j.timestamps = some (pre ++ p :: post) ∧ (∀ q ∈ pre, fs q ≠ none) ∧ fs p = none

theorem steps_choose {j : Job} {fs : Files Text} {p : Path} (hb : j.backup = true) (h : FirstFree j target fs p) :
    Steps j target fs (j.start target) fs (.chosen p) := by
  obtain ⟨pre, post, hc, hpre, hp⟩ := h
  rw [Job.start, if_pos hb, hc]
  simp only
  clear hc
  induction pre with
  | nil => exact .one (.free hp)
  | cons q pre ih =>
    exact (Steps.one (.taken (hpre q (List.mem_cons_self ..)))).trans (ih fun r hr => hpre r (List.mem_cons_of_mem _ hr))

/-- Two runs and the others. -/
def st (ph : Nat → Phase) (fs : Files Text) (a b : Phase) : Runs := ⟨fs, fun k => if k = 0 then a else if k = 1 then b else ph k⟩

theorem first {ph : Nat → Phase} {fs fs' : Files Text} {a a' b : Phase} (h : Steps (jobs 0) target fs a fs' a') :
    Relation.ReflTransGen (Together jobs target) (st ph fs a b) (st ph fs' a' b) := by
  refine Relation.ReflTransGen.lift (fun x : Files Text × Phase => st ph x.1 x.2 b) (fun x y hxy => ?_) _ _ h
  exact ⟨0, hxy, fun k hk => by simp [st, hk]⟩

theorem second {ph : Nat → Phase} {fs fs' : Files Text} {a b b' : Phase} (h : Steps (jobs 1) target fs b fs' b') :
    Relation.ReflTransGen (Together jobs target) (st ph fs a b) (st ph fs' a b') := by
  refine Relation.ReflTransGen.lift (fun x : Files Text × Phase => st ph x.1 a x.2) (fun x y hxy => ?_) _ _ h
  exact ⟨1, hxy, fun k hk => by simp [st, hk]⟩

theorem begin_st : ∃ ph, begin jobs target fs₀ = st ph fs₀ ((jobs 0).start target) ((jobs 1).start target) := by
  refine ⟨fun i => (jobs i).start target, ?_⟩
  unfold begin st
  congr 1
  funext k
  simp only
  split
  · rename_i h; rw [h]
  · split
    · rename_i h; rw [h]
    · rfl

/-- C110, violated: two runs that choose the same name for their backups at the same time.  Both succeed, but the backup is empty, and the target is what the second run makes
of an empty file: the contents that the target had are lost. -/
theorem C110_violated_backup {c₀ : Text} {p : Path} (hc : fs₀ target = some c₀) (h0 : (jobs 0).backup = true) (h1 : (jobs 1).backup = true)
    (hp : FirstFree (jobs 0) target fs₀ p) (hp' : FirstFree (jobs 1) target fs₀ p) :
    ∃ s, Relation.ReflTransGen (Together jobs target) (begin jobs target fs₀) s ∧ s.phase 0 = .done ∧ s.phase 1 = .done ∧
      s.fs p = some [] ∧ s.fs target = some (writeCsv (jobs 1).ov (jobs 1).sheet (some [])) ∧ ∀ q, q ≠ p → q ≠ target → s.fs q = fs₀ q := by
  have hne : p ≠ target := by
    rintro rfl
    obtain ⟨_, _, _, _, hp⟩ := hp
    rw [hc] at hp
    cases hp
  obtain ⟨ph, hst⟩ := begin_st (jobs := jobs) (target := target) (fs₀ := fs₀)
  refine ⟨st ph ((fs₀.set p []).set target ((jobs 1).output (some []))) .done .done, ?_, rfl, rfl, ?_, set_eq, fun q h2 h3 => ?_⟩
  · rw [hst]
    -- both choose the name; the first run copies, reads, and opens the target
    refine (first (steps_choose h0 hp)).trans ((second (steps_choose h1 hp')).trans ((first (steps_copy hc hne)).trans ?_))
    refine (first (steps_read (c := c₀) (by rw [set_ne (Ne.symm hne), hc]))).trans ((first (.one .open)).trans ?_)
    -- the second run makes its copy of the empty file, and reads it
    refine (second (steps_copy (c := []) set_eq hne)).trans ((second (steps_read (c := []) (by rw [set_ne (Ne.symm hne), set_eq]))).trans ?_)
    -- the first run writes, and then the second
    refine (first (steps_write (c := []) (by rw [set_ne (Ne.symm hne), set_eq]))).trans ((second (.one .open)).trans ?_)
    have e := second (jobs := jobs) (ph := ph) (a := .done) (steps_write (j := jobs 1) (target := target)
      (fs := ((fs₀.set p []).set target [])) (w := (jobs 1).output (some [])) (c := []) set_eq)
    rw [overlay_whole, set_set] at e
    have e' : (((((fs₀.set p c₀).set target []).set p []).set target (overlay [] 0 ((jobs 0).output (some c₀)))).set target []) = (fs₀.set p []).set target [] := by
      funext q
      simp only [Files.set]
      split
      · rfl
      · split <;> rfl
    rw [e']
    exact e
  · show ((fs₀.set p []).set target _) p = _
    rw [set_ne hne, set_eq]
  · show ((fs₀.set p []).set target _) q = _
    rw [set_ne h3, set_ne h2]

/-- C110, violated: two runs without backups.  The second reads the target after the first has emptied it: both succeed, and the target is what the second run makes of an
empty file. -/
theorem C110_violated_empty {c₀ : Text} (hc : fs₀ target = some c₀) (h0 : (jobs 0).backup = false) (h1 : (jobs 1).backup = false) :
    ∃ s, Relation.ReflTransGen (Together jobs target) (begin jobs target fs₀) s ∧ s.phase 0 = .done ∧ s.phase 1 = .done ∧
      s.fs target = some (writeCsv (jobs 1).ov (jobs 1).sheet (some [])) := by
  obtain ⟨ph, hst⟩ := begin_st (jobs := jobs) (target := target) (fs₀ := fs₀)
  refine ⟨st ph (fs₀.set target ((jobs 1).output (some []))) .done .done, ?_, rfl, rfl, set_eq⟩
  rw [hst, Job.start, Job.start, h0, h1]
  refine (first (steps_read hc)).trans ((first (.one .open)).trans ((second (steps_read (c := []) set_eq)).trans
    ((first (steps_write (c := []) set_eq)).trans ((second (.one .open)).trans ?_))))
  have e := second (jobs := jobs) (ph := ph) (a := .done) (steps_write (j := jobs 1) (target := target)
    (fs := fs₀.set target []) (w := (jobs 1).output (some [])) (c := []) set_eq)
  rw [overlay_whole, set_set] at e
  rw [set_set, set_set]
  exact e

/-- C110, violated: with `--safe`, two runs of the same program can together replace a cell that each of them alone would have kept. -/
theorem C110_violated_safe {c₀ : Text} {sh : Sheet} (hc : fs₀ target = some c₀) (h0 : (jobs 0).backup = false) (h1 : (jobs 1).backup = false)
    (hj : ∀ i, (jobs i).ov = false ∧ (jobs i).sheet = sh) {i j : Nat} {c : Cell} (hcell : sheetCell sh i j = some c)
    (hold : cellAt (csvRead c₀) i j ≠ c.display) (hb : NoBom false sh (some [])) :
    ∃ s out, Relation.ReflTransGen (Together jobs target) (begin jobs target fs₀) s ∧ s.phase 0 = .done ∧ s.phase 1 = .done ∧
      s.fs target = some out ∧ cellAt (csvRead out) i j = c.display ∧ cellAt (csvRead out) i j ≠ cellAt (csvRead c₀) i j := by
  obtain ⟨s, hr, hd, hd', ht⟩ := C110_violated_empty (fs₀ := fs₀) hc h0 h1
  rw [(hj 1).1, (hj 1).2] at ht
  have hempty : cellAt (rowsOf (some [])) i j = [] := by cases i <;> rfl
  have he := C40_csv_fills hb hcell hempty
  exact ⟨s, _, hr, hd, hd', ht, he, by rw [he]; exact Ne.symm hold⟩

/-- C110, violated: two runs that open the target at the same time can leave in it what none of them has written: the text of one and the end of the text of the other. -/
theorem C110_violated_mixed {c₀ : Text} (hc : fs₀ target = some c₀) (h0 : (jobs 0).backup = false) (h1 : (jobs 1).backup = false) :
    ∃ s, Relation.ReflTransGen (Together jobs target) (begin jobs target fs₀) s ∧ s.phase 0 = .done ∧ s.phase 1 = .done ∧
      s.fs target = some (writeCsv (jobs 1).ov (jobs 1).sheet (some c₀) ++
        (writeCsv (jobs 0).ov (jobs 0).sheet (some c₀)).drop (writeCsv (jobs 1).ov (jobs 1).sheet (some c₀)).length) := by
  obtain ⟨ph, hst⟩ := begin_st (jobs := jobs) (target := target) (fs₀ := fs₀)
  refine ⟨st ph (fs₀.set target (overlay ((jobs 0).output (some c₀)) 0 ((jobs 1).output (some c₀)))) .done .done, ?_, rfl, rfl, ?_⟩
  · rw [hst, Job.start, Job.start, h0, h1]
    refine (first (steps_read hc)).trans ((second (steps_read hc)).trans ((first (.one .open)).trans ((second (.one .open)).trans
      ((first (steps_write (c := []) set_eq)).trans ?_))))
    have e := second (jobs := jobs) (ph := ph) (a := .done) (steps_write (j := jobs 1) (target := target)
      (fs := fs₀.set target ((jobs 0).output (some c₀))) (w := (jobs 1).output (some c₀)) (c := (jobs 0).output (some c₀)) set_eq)
    rw [set_set] at e
    rw [set_set, set_set, overlay_whole]
    exact e
  · show (fs₀.set target _) target = _
    rw [set_eq, overlay]
    simp [Job.output]

/-! ### Cases that meet the hypotheses -/

/-- Runs at the same second of the same day. -/
def exJob (backup ov : Bool) (sheet : Sheet) : Job := ⟨backup, ov, ["2026_01_02".toList, "2026_01_02-03_04PM".toList], sheet⟩

def exTarget : Path := ⟨false, ["a.csv".toList]⟩

/-- There is a target, and a backup of the same day. -/
def exFiles : Files Text := fun p =>
  if p = exTarget then some "p,q,r\ns,,\n".toList else if p = ⟨false, ["a-2026_01_02.csv".toList]⟩ then some [] else none

/-- `C110_violated_backup`: there is already a backup of that day; both runs choose the name with the minute. -/
example : exFiles exTarget = some "p,q,r\ns,,\n".toList ∧
    FirstFree (exJob true true exSheet) exTarget exFiles ⟨false, ["a-2026_01_02-03_04PM.csv".toList]⟩ := by
  refine ⟨by decide, [⟨false, ["a-2026_01_02.csv".toList]⟩], [], by decide, ?_, by decide⟩
  intro q hq
  rw [List.mem_singleton] at hq
  subst hq
  decide

/-- `C110_violated_safe`: `p` is replaced by `a`. -/
example : (∃ c, sheetCell exSheet 0 0 = some c ∧ cellAt (csvRead "p,q,r\ns,,\n".toList) 0 0 ≠ c.display) ∧ NoBom false exSheet (some []) := by
  refine ⟨⟨_, rfl, by decide⟩, by unfold NoBom; decide⟩

/-- A sheet of one cell. -/
def exSmall : Sheet := ⟨[⟨{}, none, [⟨none, ⟨⟨0, 0⟩, [], []⟩, ['x', 'y'], {}⟩]⟩], true⟩

/-- `C110_violated_mixed`: the first run writes two rows, and the second one. -/
example : writeCsv true exSmall (some "p,q,r\ns,,\n".toList) ++
    (writeCsv true exSheet (some "p,q,r\ns,,\n".toList)).drop (writeCsv true exSmall (some "p,q,r\ns,,\n".toList)).length = "xy\n\n,\n".toList := by
  decide

/-- `C110_same_program`. -/
example : ∀ r ∈ exSmall.rows, ∀ r' ∈ exSmall.rows, r.cells.length = r'.cells.length := by decide

/-- `C110_alone`: a run alone can come to its end. -/
example : ∃ s, Relation.ReflTransGen (StepOf (fun _ => exJob false true exSmall) exTarget 0) (begin (fun _ => exJob false true exSmall) exTarget (fun _ => none)) s ∧
    s.phase 0 = .done := by
  have h : Steps (exJob false true exSmall) exTarget (fun _ => none) .toRead ((Files.set (fun _ => none) exTarget []).set exTarget
      (overlay [] 0 ((exJob false true exSmall).output none))) .done :=
    (Steps.one (.no_file rfl)).trans ((Steps.one .open).trans (steps_write set_eq))
  refine ⟨⟨(Files.set (fun _ => none) exTarget []).set exTarget (overlay [] 0 ((exJob false true exSmall).output none)), fun k => if k = 0 then .done else .toRead⟩, ?_, rfl⟩
  have := Relation.ReflTransGen.lift (p := StepOf (fun _ => exJob false true exSmall) exTarget 0)
    (fun x : Files Text × Phase => (⟨x.1, fun k => if k = 0 then x.2 else .toRead⟩ : Runs)) (fun x y hxy => ⟨hxy, fun k hk => by simp [hk]⟩) _ _ h
  have e : begin (fun _ => exJob false true exSmall) exTarget (fun _ => none) = ⟨fun _ => none, fun k => if k = 0 then .toRead else .toRead⟩ := by
    unfold begin
    congr 1
    funext k
    split <;> rfl
  rw [e]
  exact this

end

end Verif.Target
