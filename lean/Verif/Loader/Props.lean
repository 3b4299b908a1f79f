import Verif.Loader.Spec
import Mathlib.Tactic.Common
import Mathlib.Data.List.Nodup
import Mathlib.Data.List.Perm.Subperm
/-
C32, C33: loading modules with threads.
-/
namespace Verif.Loader

variable {fetch : MPath → Except LoadError Mod} {main : Mod}

theorem reserve_spec (a ps : List MPath) :
    (∀ p, p ∈ (reserve a ps).1 ↔ p ∈ a ∨ p ∈ ps) ∧ (∀ p, p ∈ (reserve a ps).2 ↔ p ∉ a ∧ p ∈ ps) ∧ (reserve a ps).2.Nodup := by
  induction ps generalizing a with
  | nil => simp [reserve]
  | cons q ps ih =>
    rw [reserve]
    split
    · rename_i h
      obtain ⟨h1, h2, h3⟩ := ih a
      refine ⟨fun p => ?_, fun p => ?_, h3⟩
      · rw [h1, List.mem_cons]
        constructor
        · rintro (h | h) <;> simp [h]
        · rintro (h' | rfl | h') <;> simp [*]
      · rw [h2, List.mem_cons]
        constructor
        · rintro ⟨h, h'⟩; exact ⟨h, .inr h'⟩
        · rintro ⟨h', rfl | h''⟩
          · exact absurd h h'
          · exact ⟨h', h''⟩
    · rename_i h
      obtain ⟨h1, h2, h3⟩ := ih (q :: a)
      refine ⟨fun p => ?_, fun p => ?_, ?_⟩
      · rw [h1]; simp only [List.mem_cons]; tauto
      · simp only [List.mem_cons, h2]
        constructor
        · rintro (rfl | ⟨h', h''⟩)
          · exact ⟨h, .inl rfl⟩
          · exact ⟨fun h => h' (.inr h), .inr h''⟩
        · rintro ⟨h', rfl | h''⟩
          · exact .inl rfl
          · by_cases hp : p = q
            · exact .inl hp
            · exact .inr ⟨by simp [hp, h'], h''⟩
      · rw [List.nodup_cons]
        exact ⟨fun h' => ((h2 q).mp h').1 (by simp), h3⟩

/-- What a thread's phase says about the shared state. -/
def PhaseOk (fetch : MPath → Except LoadError Mod) (s : St) (i : Nat) (p : MPath) : Phase → Prop
  | .start => p ∉ s.reads
  | .fetched r => r = fetch p ∧ p ∈ s.reads
  | .joining m first count => fetch p = .ok m ∧ p ∈ s.reads ∧ i < first ∧ first + count ≤ s.threads.length ∧
      ∀ q ∈ m.required, q ∈ s.attempted
  | .done => p ∈ s.reads ∧ ((∃ m, fetch p = .ok m ∧ (p, m) ∈ s.loaded ∧ ∀ q ∈ m.required, q ∈ s.attempted) ∨
      ∃ e, fetch p = .error e ∧ (p, e) ∈ s.failed)

structure Inv (fetch : MPath → Except LoadError Mod) (main : Mod) (s : St) : Prop where
  nodup : (s.threads.map (·.1)).Nodup
  attempted : ∀ p, p ∈ s.attempted ↔ p ∈ s.threads.map (·.1)
  reach : ∀ p ∈ s.attempted, Reach fetch main p
  direct : ∀ p ∈ main.required, p ∈ s.attempted
  readsNodup : s.reads.Nodup
  reads : ∀ p ∈ s.reads, p ∈ s.attempted
  phases : ∀ i p ph, s.threads[i]? = some (p, ph) → PhaseOk fetch s i p ph
  loaded : ∀ p m, (p, m) ∈ s.loaded → fetch p = .ok m ∧ (p, Phase.done) ∈ s.threads
  failed : ∀ p e, (p, e) ∈ s.failed → fetch p = .error e ∧ (p, Phase.done) ∈ s.threads
  loadedNodup : (s.loaded.map (·.1)).Nodup
  failedNodup : (s.failed.map (·.1)).Nodup

theorem inv_init : Inv fetch main (init main) := by
  obtain ⟨h1, h2, h3⟩ := reserve_spec [] main.required
  have e : (init main).threads.map (·.1) = (reserve [] main.required).2 := by
    simp only [init, List.map_map]; exact List.map_id _
  refine ⟨by rw [e]; exact h3, fun p => ?_, fun p hp => ?_, fun p hp => ?_, List.nodup_nil, by simp [init], ?_, by simp [init],
    by simp [init], List.nodup_nil, List.nodup_nil⟩
  · rw [e, h2]; show p ∈ (reserve [] main.required).1 ↔ _
    rw [h1]; simp
  · have := (h1 p).mp hp
    simp at this; exact .direct this
  · exact (h1 p).mpr (.inr hp)
  · intro i p ph h
    have := List.mem_of_getElem? h
    simp only [init, List.mem_map] at this
    obtain ⟨q, -, hq⟩ := this
    cases hq
    simp [PhaseOk, init]

theorem get_unique {l : List (MPath × Phase)} (hn : (l.map (·.1)).Nodup) {i j : Nat} {p : MPath} {a b : Phase}
    (hi : l[i]? = some (p, a)) (hj : l[j]? = some (p, b)) : i = j := by
  obtain ⟨h1, h2⟩ := List.getElem?_eq_some_iff.mp hi
  obtain ⟨h3, h4⟩ := List.getElem?_eq_some_iff.mp hj
  refine (List.Nodup.getElem_inj_iff hn (hi := by simpa using h1) (hj := by simpa using h3)).mp ?_
  simp [h2, h4]

/-- Updating the phase of one thread. -/
theorem map_set {l : List (MPath × Phase)} {i : Nat} {p : MPath} {a b : Phase} (hi : l[i]? = some (p, a)) :
    (l.set i (p, b)).map (·.1) = l.map (·.1) := by
  apply List.ext_getElem?
  intro j
  rw [List.getElem?_map, List.getElem?_map, List.getElem?_set]
  split
  · rename_i h; subst h
    obtain ⟨h1, h2⟩ := List.getElem?_eq_some_iff.mp hi
    rw [if_pos h1, hi]; rfl
  · rfl

theorem done_set {l : List (MPath × Phase)} {i : Nat} {p q : MPath} {a b : Phase} (hi : l[i]? = some (p, a))
    (hna : a ≠ .done) (hq : (q, Phase.done) ∈ l) : (q, Phase.done) ∈ l.set i (p, b) := by
  obtain ⟨j, hj⟩ := List.mem_iff_getElem?.mp hq
  refine List.mem_iff_getElem?.mpr ⟨j, ?_⟩
  rw [List.getElem?_set, if_neg]
  · exact hj
  · rintro rfl
    rw [hi] at hj; cases hj; exact hna rfl

theorem mem_set_done {l : List (MPath × Phase)} {i : Nat} {p : MPath} {a b : Phase} (hi : l[i]? = some (p, a)) :
    (p, b) ∈ l.set i (p, b) := by
  obtain ⟨h1, h2⟩ := List.getElem?_eq_some_iff.mp hi
  exact List.mem_iff_getElem?.mpr ⟨i, by rw [List.getElem?_set_self h1]⟩

theorem inv_step {s t : St} (hI : Inv fetch main s) (h : Step fetch s t) : Inv fetch main t := by
  cases h with
  | @read i p hi =>
    have hp : p ∉ s.reads := hI.phases i p _ hi
    have hm : p ∈ s.threads.map (·.1) := List.mem_map.mpr ⟨_, List.mem_of_getElem? hi, rfl⟩
    refine ⟨by rw [map_set hi]; exact hI.nodup, fun q => by rw [map_set hi]; exact hI.attempted q, hI.reach, hI.direct,
      List.nodup_cons.mpr ⟨hp, hI.readsNodup⟩, ?_, ?_, ?_, ?_, hI.loadedNodup, hI.failedNodup⟩
    · intro q hq
      rcases List.mem_cons.mp hq with rfl | hq
      · exact (hI.attempted q).mpr hm
      · exact hI.reads q hq
    · intro j q ph hj
      rw [List.getElem?_set] at hj
      split at hj
      · rename_i hij; subst hij
        split at hj
        · cases hj; exact ⟨rfl, by simp⟩
        · cases hj
      · rename_i hij
        have := hI.phases j q ph hj
        cases ph with
        | start =>
          simp only [PhaseOk, List.mem_cons, not_or]
          refine ⟨fun hqp => hij ?_, this⟩
          subst hqp
          exact get_unique hI.nodup hi hj
        | fetched r => exact ⟨this.1, List.mem_cons_of_mem _ this.2⟩
        | joining m f c =>
          exact ⟨this.1, List.mem_cons_of_mem _ this.2.1, this.2.2.1, by simpa using this.2.2.2.1, this.2.2.2.2⟩
        | done => exact ⟨List.mem_cons_of_mem _ this.1, this.2⟩
    · intro q m hq
      exact ⟨(hI.loaded q m hq).1, done_set hi (by simp) (hI.loaded q m hq).2⟩
    · intro q m hq
      exact ⟨(hI.failed q m hq).1, done_set hi (by simp) (hI.failed q m hq).2⟩
  | @fail i p e hi =>
    obtain ⟨he, hr⟩ := hI.phases i p _ hi
    have hnew : p ∉ s.failed.map (·.1) := by
      intro hm
      obtain ⟨⟨q, e'⟩, hq, rfl⟩ := List.mem_map.mp hm
      obtain ⟨j, hj⟩ := List.mem_iff_getElem?.mp (hI.failed q e' hq).2
      have := get_unique hI.nodup hi hj
      subst this; rw [hi] at hj; cases hj
    refine ⟨by rw [map_set hi]; exact hI.nodup, fun q => by rw [map_set hi]; exact hI.attempted q, hI.reach, hI.direct,
      hI.readsNodup, hI.reads, ?_, ?_, ?_, hI.loadedNodup, List.nodup_cons.mpr ⟨hnew, hI.failedNodup⟩⟩
    · intro j q ph hj
      rw [List.getElem?_set] at hj
      split at hj
      · rename_i hij; subst hij
        split at hj
        · cases hj; exact ⟨hr, .inr ⟨e, he.symm, by simp⟩⟩
        · cases hj
      · have := hI.phases j q ph hj
        cases ph with
        | start => exact this
        | fetched r => exact this
        | joining m f c =>
          exact ⟨this.1, this.2.1, this.2.2.1, by simpa using this.2.2.2.1, this.2.2.2.2⟩
        | done =>
          refine ⟨this.1, this.2.imp id ?_⟩
          rintro ⟨e', h1, h2⟩; exact ⟨e', h1, List.mem_cons_of_mem _ h2⟩
    · intro q m hq
      exact ⟨(hI.loaded q m hq).1, done_set hi (by simp) (hI.loaded q m hq).2⟩
    · intro q m hq
      rcases List.mem_cons.mp hq with hq | hq
      · cases hq; exact ⟨he.symm, mem_set_done hi⟩
      · exact ⟨(hI.failed q m hq).1, done_set hi (by simp) (hI.failed q m hq).2⟩
  | @spawn i p m hi =>
    obtain ⟨he, hr⟩ := hI.phases i p _ hi
    obtain ⟨r1, r2, r3⟩ := reserve_spec s.attempted m.required
    obtain ⟨hlt, -⟩ := List.getElem?_eq_some_iff.mp hi
    have hmap : ((s.threads.set i (p, .joining m s.threads.length (reserve s.attempted m.required).2.length) ++
        (reserve s.attempted m.required).2.map fun q => (q, Phase.start)).map (·.1)) =
        s.threads.map (·.1) ++ (reserve s.attempted m.required).2 := by
      rw [List.map_append, map_set hi, List.map_map]
      congr 1
      exact List.map_id _
    have hsub : ∀ q ∈ s.attempted, q ∈ (reserve s.attempted m.required).1 := fun q hq => (r1 q).mpr (.inl hq)
    refine ⟨?_, ?_, ?_, fun q hq => hsub q (hI.direct q hq), hI.readsNodup, fun q hq => hsub q (hI.reads q hq), ?_, ?_, ?_,
      hI.loadedNodup, hI.failedNodup⟩
    · show (List.map _ (_ ++ _)).Nodup
      rw [hmap]
      refine List.Nodup.append hI.nodup r3 fun q h1 h2 => ?_
      exact ((r2 q).mp h2).1 ((hI.attempted q).mpr h1)
    · intro q
      show q ∈ (reserve s.attempted m.required).1 ↔ q ∈ List.map _ (_ ++ _)
      rw [hmap, List.mem_append, ← hI.attempted, r1, r2]
      tauto
    · intro q hq
      rcases (r1 q).mp hq with hq | hq
      · exact hI.reach q hq
      · refine .indirect (hI.reach p ((hI.attempted p).mpr (List.mem_map.mpr ⟨_, List.mem_of_getElem? hi, rfl⟩))) he.symm hq
    · intro j q ph hj
      dsimp only at hj
      by_cases hjl : j < s.threads.length
      · rw [List.getElem?_append_left (by simpa using hjl), List.getElem?_set] at hj
        split at hj
        · rename_i hij; subst hij
          cases hj
          refine ⟨he.symm, hr, hlt, by simp, fun q hq => (r1 q).mpr (.inr hq)⟩
        · have := hI.phases j q ph hj
          cases ph with
          | start => exact this
          | fetched r => exact this
          | joining m' f c =>
            refine ⟨this.1, this.2.1, this.2.2.1, ?_, fun q hq => hsub q (this.2.2.2.2 q hq)⟩
            have := this.2.2.2.1
            simp; omega
          | done =>
            refine ⟨this.1, this.2.imp ?_ id⟩
            rintro ⟨m', h1, h2, h3⟩; exact ⟨m', h1, h2, fun q hq => hsub q (h3 q hq)⟩
      · rw [List.getElem?_append_right (by simpa using hjl)] at hj
        have hm := List.mem_of_getElem? hj
        obtain ⟨q', hq', hqe⟩ := List.mem_map.mp hm
        rw [Prod.mk.injEq] at hqe
        obtain ⟨rfl, rfl⟩ := hqe
        intro hrd
        exact ((r2 q').mp hq').1 (hI.reads q' hrd)
    · intro q m' hq
      exact ⟨(hI.loaded q m' hq).1, List.mem_append_left _ (done_set hi (by simp) (hI.loaded q m' hq).2)⟩
    · intro q m' hq
      exact ⟨(hI.failed q m' hq).1, List.mem_append_left _ (done_set hi (by simp) (hI.failed q m' hq).2)⟩
  | @insert i p m f c hi hd =>
    obtain ⟨he, hr, -, -, hreq⟩ := hI.phases i p _ hi
    have hnew : p ∉ s.loaded.map (·.1) := by
      intro hm
      obtain ⟨⟨q, e'⟩, hq, rfl⟩ := List.mem_map.mp hm
      obtain ⟨j, hj⟩ := List.mem_iff_getElem?.mp (hI.loaded q e' hq).2
      have := get_unique hI.nodup hi hj
      subst this; rw [hi] at hj; cases hj
    refine ⟨by rw [map_set hi]; exact hI.nodup, fun q => by rw [map_set hi]; exact hI.attempted q, hI.reach, hI.direct,
      hI.readsNodup, hI.reads, ?_, ?_, ?_, List.nodup_cons.mpr ⟨hnew, hI.loadedNodup⟩, hI.failedNodup⟩
    · intro j q ph hj
      rw [List.getElem?_set] at hj
      split at hj
      · rename_i hij; subst hij
        split at hj
        · cases hj; exact ⟨hr, .inl ⟨m, he, by simp, hreq⟩⟩
        · cases hj
      · have := hI.phases j q ph hj
        cases ph with
        | start => exact this
        | fetched r => exact this
        | joining m f c =>
          exact ⟨this.1, this.2.1, this.2.2.1, by simpa using this.2.2.2.1, this.2.2.2.2⟩
        | done =>
          refine ⟨this.1, this.2.imp ?_ id⟩
          rintro ⟨e', h1, h2, h3⟩; exact ⟨e', h1, List.mem_cons_of_mem _ h2, h3⟩
    · intro q m' hq
      rcases List.mem_cons.mp hq with hq | hq
      · cases hq; exact ⟨he, mem_set_done hi⟩
      · exact ⟨(hI.loaded q m' hq).1, done_set hi (by simp) (hI.loaded q m' hq).2⟩
    · intro q m hq
      exact ⟨(hI.failed q m hq).1, done_set hi (by simp) (hI.failed q m hq).2⟩

theorem inv_steps {n : Nat} {s t : St} (hI : Inv fetch main s) (h : Steps fetch s n t) : Inv fetch main t := by
  induction h with
  | refl => exact hI
  | tail _ h ih => exact inv_step ih h

/-- C32: whatever the schedule, at any time no module has been read twice, and no two threads load the same
module. -/
theorem C32_once (fetch : MPath → Except LoadError Mod) (main : Mod) (n : Nat) (s : St) (h : Steps fetch (init main) n s) :
    s.reads.Nodup ∧ (∀ (i j : Nat) p a b, s.threads[i]? = some (p, a) → s.threads[j]? = some (p, b) → i = j) ∧
    (s.loaded.map (·.1)).Nodup ∧ (s.failed.map (·.1)).Nodup := by
  have hI := inv_steps inv_init h
  exact ⟨hI.readsNodup, fun i j p a b hi hj => get_unique hI.nodup hi hj, hI.loadedNodup, hI.failedNodup⟩

/-- C32: only reachable modules are read. -/
theorem C32_only_reachable (fetch : MPath → Except LoadError Mod) (main : Mod) (n : Nat) (s : St)
    (h : Steps fetch (init main) n s) : ∀ p ∈ s.reads, Reach fetch main p :=
  fun p hp => (inv_steps inv_init h).reach p ((inv_steps inv_init h).reads p hp)

/-- C33: at the end the loaded modules are exactly the reachable ones that can be loaded, with what was
read, and the failures are exactly the reachable ones that cannot. -/
theorem C33_result (fetch : MPath → Except LoadError Mod) (main : Mod) (n : Nat) (s : St)
    (h : Steps fetch (init main) n s) (hf : Finished s) :
    (∀ p m, (p, m) ∈ s.loaded ↔ Reach fetch main p ∧ fetch p = .ok m) ∧
    ∀ p e, (p, e) ∈ s.failed ↔ Reach fetch main p ∧ fetch p = .error e := by
  have hI := inv_steps inv_init h
  have hdone : ∀ p ∈ s.attempted, (∃ m, fetch p = .ok m ∧ (p, m) ∈ s.loaded ∧ ∀ q ∈ m.required, q ∈ s.attempted) ∨
      ∃ e, fetch p = .error e ∧ (p, e) ∈ s.failed := by
    intro p hp
    obtain ⟨⟨q, ph⟩, hq, rfl⟩ := List.mem_map.mp ((hI.attempted p).mp hp)
    have := hf _ hq
    dsimp only at this; subst this
    obtain ⟨i, hi⟩ := List.mem_iff_getElem?.mp hq
    exact (hI.phases i q _ hi).2
  have hall : ∀ p, Reach fetch main p → p ∈ s.attempted := by
    intro p hp
    induction hp with
    | direct hp => exact hI.direct _ hp
    | @indirect p q m _ hq hp ih =>
      rcases hdone q ih with ⟨m', h1, -, h3⟩ | ⟨e, h1, -⟩
      · rw [hq] at h1; cases h1; exact h3 p hp
      · rw [hq] at h1; cases h1
  have hatt : ∀ p, (p, Phase.done) ∈ s.threads → Reach fetch main p := fun p hp =>
    hI.reach p ((hI.attempted p).mpr (List.mem_map.mpr ⟨_, hp, rfl⟩))
  refine ⟨fun p m => ⟨fun hp => ?_, fun ⟨hr, hp⟩ => ?_⟩, fun p e => ⟨fun hp => ?_, fun ⟨hr, hp⟩ => ?_⟩⟩
  · exact ⟨hatt p (hI.loaded p m hp).2, (hI.loaded p m hp).1⟩
  · rcases hdone p (hall p hr) with ⟨m', h1, h2, -⟩ | ⟨e, h1, -⟩
    · rw [hp] at h1; cases h1; exact h2
    · rw [hp] at h1; cases h1
  · exact ⟨hatt p (hI.failed p e hp).2, (hI.failed p e hp).1⟩
  · rcases hdone p (hall p hr) with ⟨m', h1, h2, -⟩ | ⟨e', h1, h2⟩
    · rw [hp] at h1; cases h1
    · rw [hp] at h1; cases h1; exact h2

/-- C33: there is no deadlock: as long as a thread has not ended, some thread can continue. -/
theorem C33_no_deadlock (fetch : MPath → Except LoadError Mod) (main : Mod) (n : Nat) (s : St)
    (h : Steps fetch (init main) n s) (hf : ¬ Finished s) : ∃ t, Step fetch s t := by
  have hI := inv_steps inv_init h
  have hex : ∃ (i : Nat) (p : MPath) (ph : Phase), s.threads[i]? = some (p, ph) ∧ ph ≠ .done := by
    unfold Finished at hf
    push Not at hf
    obtain ⟨⟨p, ph⟩, h1, h2⟩ := hf
    obtain ⟨i, hi⟩ := List.mem_iff_getElem?.mp h1
    exact ⟨i, p, ph, hi, h2⟩
  obtain ⟨i, p, ph, hi, hne⟩ := hex
  have key : ∀ k : Nat, ∀ (i : Nat) (p : MPath) (ph : Phase), s.threads[i]? = some (p, ph) → ph ≠ .done → s.threads.length - i ≤ k → ∃ t, Step fetch s t := by
    intro k
    induction k with
    | zero =>
      intro i p ph hi _ hk
      obtain ⟨h1, -⟩ := List.getElem?_eq_some_iff.mp hi
      omega
    | succ k ih =>
      intro i p ph hi hne hk
      cases ph with
      | start => exact ⟨_, .read hi⟩
      | fetched r =>
        cases r with
        | error e => exact ⟨_, .fail hi⟩
        | ok m => exact ⟨_, .spawn hi⟩
      | done => exact absurd rfl hne
      | joining m f c =>
        obtain ⟨-, -, h1, h2, -⟩ := hI.phases i p _ hi
        by_cases hd : ∀ j, f ≤ j → j < f + c → ∃ q, s.threads[j]? = some (q, .done)
        · exact ⟨_, .insert hi hd⟩
        · push Not at hd
          obtain ⟨j, h3, h4, h5⟩ := hd
          have hj : s.threads[j]? = some (s.threads[j]'(by omega)) := List.getElem?_eq_getElem _
          refine ih j (s.threads[j]'(by omega)).1 (s.threads[j]'(by omega)).2 hj (fun hd => h5 (s.threads[j]'(by omega)).1 ?_) (by omega)
          rw [hj, ← hd]
  exact key _ i p ph hi hne (Nat.le_refl _)

/-- What is left to do for a thread. -/
def Phase.left : Phase → Nat
  | .start => 3
  | .fetched _ => 2
  | .joining .. => 1
  | .done => 0

def left (s : St) : Nat := (s.threads.map (·.2.left)).sum

theorem sum_set {l : List (MPath × Phase)} {i : Nat} {a b : MPath × Phase} (hi : l[i]? = some a) :
    ((l.set i b).map (·.2.left)).sum + a.2.left = (l.map (·.2.left)).sum + b.2.left := by
  induction l generalizing i with
  | nil => simp at hi
  | cons x l ih =>
    cases i with
    | zero => simp at hi; subst hi; simp; omega
    | succ i =>
      have := ih (i := i) (by simpa using hi)
      simp only [List.set_cons_succ, List.map_cons, List.sum_cons]; omega

theorem sum_start (l : List MPath) : (l.map fun _ => Phase.start.left).sum = 3 * l.length := by
  induction l with
  | nil => rfl
  | cons a l ih => rw [List.map_cons, List.sum_cons, ih, List.length_cons]; show 3 + _ = _; omega

theorem step_left {s t : St} (h : Step fetch s t) :
    left t + 1 + 3 * s.threads.length ≤ left s + 3 * t.threads.length := by
  cases h with
  | @read i p hi =>
    have : _ + 3 = _ + 2 := sum_set (b := (p, .fetched (fetch p))) hi
    simp only [left, List.length_set]
    omega
  | @fail i p e hi =>
    have : _ + 2 = _ + 0 := sum_set (b := (p, .done)) hi
    simp only [left, List.length_set]
    omega
  | @spawn i p m hi =>
    have : _ + 2 = _ + 1 := sum_set (b := (p, .joining m s.threads.length (reserve s.attempted m.required).2.length)) hi
    have h3 := sum_start (reserve s.attempted m.required).2
    simp only [left, List.length_set, List.map_append, List.sum_append, List.length_append, List.length_map,
      List.map_map, Function.comp_def]
    omega
  | @insert i p m f c hi _ =>
    have : _ + 1 = _ + 0 := sum_set (b := (p, .done)) hi
    simp only [left, List.length_set]
    omega

/-- C33: loading terminates: if the reachable modules are among `modules`, no execution has more than three
steps per module. -/
theorem C33_terminates (fetch : MPath → Except LoadError Mod) (main : Mod) (modules : List MPath)
    (hfin : ∀ p, Reach fetch main p → p ∈ modules) (n : Nat) (s : St) (h : Steps fetch (init main) n s) :
    n ≤ 3 * modules.length := by
  have hI := inv_steps inv_init h
  have hlen : s.threads.length ≤ modules.length := by
    have : (s.threads.map (·.1)).Subperm modules := hI.nodup.subperm fun p hp => hfin p (hI.reach p ((hI.attempted p).mpr hp))
    simpa using this.length_le
  have key : ∀ n s, Steps fetch (init main) n s → left s + n ≤ 3 * s.threads.length := by
    intro n s h
    induction h with
    | refl =>
      simp only [left, init, List.map_map, Function.comp_def, List.length_map]
      have := sum_start (reserve [] main.required).2
      omega
    | tail _ hs ih => have := step_left hs; omega
  have := key n s h
  omega

/-- C33: so loading always ends, with a result that the schedule does not influence. -/
theorem C33_ends (fetch : MPath → Except LoadError Mod) (main : Mod) (modules : List MPath)
    (hfin : ∀ p, Reach fetch main p → p ∈ modules) (n : Nat) (s : St) (h : Steps fetch (init main) n s) :
    ∃ k t, Steps fetch (init main) (n + k) t ∧ Finished t := by
  have key : ∀ d n s, Steps fetch (init main) n s → 3 * modules.length - n ≤ d →
      ∃ k t, Steps fetch (init main) (n + k) t ∧ Finished t := by
    intro d
    induction d with
    | zero =>
      intro n s h hd
      by_cases hf : Finished s
      · exact ⟨0, s, h, hf⟩
      · obtain ⟨t, ht⟩ := C33_no_deadlock fetch main n s h hf
        have := C33_terminates fetch main modules hfin _ _ (.tail h ht)
        omega
    | succ d ih =>
      intro n s h hd
      by_cases hf : Finished s
      · exact ⟨0, s, h, hf⟩
      · obtain ⟨t, ht⟩ := C33_no_deadlock fetch main n s h hf
        obtain ⟨k, u, h1, h2⟩ := ih (n + 1) t (.tail h ht) (by omega)
        exact ⟨k + 1, u, by rwa [show n + (k + 1) = n + 1 + k by omega], h2⟩
  exact key _ n s h (Nat.le_refl _)

/-- C33: two executions end with the same modules and failures. -/
theorem C33_schedule_independent (fetch : MPath → Except LoadError Mod) (main : Mod) (n n' : Nat) (s s' : St)
    (h : Steps fetch (init main) n s) (hf : Finished s) (h' : Steps fetch (init main) n' s') (hf' : Finished s') :
    s.loaded.Perm s'.loaded ∧ s.failed.Perm s'.failed := by
  obtain ⟨h1, h2⟩ := C33_result fetch main n s h hf
  obtain ⟨h3, h4⟩ := C33_result fetch main n' s' h' hf'
  have hI := inv_steps inv_init h
  have hI' := inv_steps inv_init h'
  constructor
  · refine (List.perm_ext_iff_of_nodup hI.loadedNodup.of_map hI'.loadedNodup.of_map).mpr fun ⟨p, m⟩ => ?_
    rw [h1, h3]
  · refine (List.perm_ext_iff_of_nodup hI.failedNodup.of_map hI'.failedNodup.of_map).mpr fun ⟨p, m⟩ => ?_
    rw [h2, h4]

end Verif.Loader
