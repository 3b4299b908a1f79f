import Verif.Cache.WorkingDir
/-
C91: the result does not depend on the working directory.
-/
namespace Verif.Cache
open Verif.Ast Verif.Loader Verif.Sheet
open Verif.Target (Path FileName HasExt sourceFile)

/-! ## Names and places -/

theorem locate_snoc {cwd : List Text} {root : Bool} {dirs : List Text} {f : Text} (h : FileName f) :
    locate cwd ⟨root, dirs ++ [f]⟩ = locate cwd ⟨root, dirs⟩ ++ [f] := by
  simp only [locate, List.foldl_append, List.foldl_cons, List.foldl_nil]
  conv_lhs => rw [goto]
  rw [if_neg h.2.2.2, if_neg h.2.2.1]

theorem Plain.src {n : Text} (h : Plain n) : HasExt (n ++ ".csvpp".toList) n "csvpp".toList := ⟨rfl, h.1, h.2.1, by decide, by decide, by decide⟩
theorem Plain.obj {n : Text} (h : Plain n) : HasExt (n ++ ".csvpo".toList) n "csvpo".toList := ⟨rfl, h.1, h.2.1, by decide, by decide, by decide⟩
theorem Plain.fileName {n : Text} (h : Plain n) : FileName n := ⟨h.1, h.2.1, (by rintro rfl; exact h.2.2 (by decide)), (by rintro rfl; exact h.2.2 (by decide))⟩

theorem plainName_some {p : MPath} {n : Text} : plainName p = some n ↔ p = [n] ∧ Plain n := by
  constructor
  · intro h
    unfold plainName at h
    split at h
    · split at h
      · cases h; exact ⟨rfl, by assumption⟩
      · cases h
    · cases h
  · rintro ⟨rfl, h⟩
    exact if_pos h

theorem objectName_eq {root : Bool} {dirs : List Text} {n : Text} (h : Plain n) :
    objectName ⟨root, dirs ++ [n ++ ".csvpp".toList]⟩ = ⟨root, dirs ++ [n ++ ".csvpo".toList]⟩ :=
  Target.setExtension_dot (stem := n) (e := "csvpp".toList) rfl h.src.fileName h.1 (by decide) (by decide)

section
variable {cwd d : List Text} {input : Path} {n : Text}

theorem IsFile.place (h : IsFile cwd input d n) (hn : Plain n) : locate cwd input = srcAt d n := by
  obtain ⟨root, dirs, rfl, rfl⟩ := h
  rw [locate_snoc hn.src.fileName, srcAt]

theorem IsFile.objPlace (h : IsFile cwd input d n) (hn : Plain n) : locate cwd (objectName input) = objAt d n := by
  obtain ⟨root, dirs, rfl, rfl⟩ := h
  rw [objectName_eq hn, locate_snoc hn.obj.fileName, objAt]

theorem IsFile.dep (h : IsFile cwd input d n) (hn : Plain n) {m : Text} (hm : Plain m) : IsFile cwd (sourceFile input [m] [n]) d m := by
  obtain ⟨root, dirs, rfl, rfl⟩ := h
  refine ⟨root, dirs, ?_, rfl⟩
  have h1 := Target.modulePath_parent (ds := []) (by simp) hn.fileName
  have h2 := Target.modulePath_plain (ds := []) (by simp) hm.fileName hm.2.2
  rw [List.nil_append] at h1 h2
  have hx : m ++ ".csvpp".toList ≠ ['.'] := hm.src.fileName.2.2.1
  rw [sourceFile, Target.filenameRelativeTo, h1, h2, List.nil_append, Target.join_file _ hx, Target.loaderRoot, Path.parent, if_neg (by simp)]
  simp only [List.nil_append, List.dropLast_concat, Option.getD_some]
  rw [Target.join_file _ hx]

theorem IsFile.absolute (h : IsFile cwd input d n) (hr : input.root = true) (cwd' : List Text) : IsFile cwd' input d n := by
  obtain ⟨root, dirs, rfl, rfl⟩ := h
  simp only at hr
  subst hr
  exact ⟨true, dirs, rfl, rfl⟩

theorem objAt_inj {d' : List Text} {m : Text} (h : objAt d n = objAt d' m) : d = d' ∧ n = m := by
  simp only [objAt] at h
  have h1 := List.append_inj' h rfl
  refine ⟨h1.1, ?_⟩
  have h2 := h1.2
  simp only [List.cons.injEq, and_true] at h2
  exact List.append_cancel_right h2

end

/-! ## Loading -/

section
variable {C : Type} {parse : C → Except LoadError Parsed} {version : Nat} {disk : Disk C} {cwd d : List Text} {input : Path} {n : Text}

theorem view_src (hn : Plain n) : (view disk d).src [n] = disk.src (srcAt d n) := by
  simp only [view, plainName_some.mpr ⟨rfl, hn⟩]

theorem view_obj (hn : Plain n) : (view disk d).obj [n] = (disk.obj (objAt d n)).map fun s => (s.1.module, s.2) := by
  simp only [view, plainName_some.mpr ⟨rfl, hn⟩]

theorem readSource_view (h : IsFile cwd input d n) (hn : Plain n) :
    (readSource parse version disk cwd input).map Stored.module = loadSource parse version (view disk d) [n] ∧
    ∀ s, readSource parse version disk cwd input = .ok s → s.filename = input := by
  rw [readSource, loadSource, view_src hn, h.place hn]
  cases disk.src (srcAt d n) with
  | none => exact ⟨rfl, by simp⟩
  | some e =>
    obtain ⟨c, t⟩ := e
    simp only
    cases parse c with
    | error e => exact ⟨rfl, by simp⟩
    | ok m => exact ⟨rfl, by rintro s hs; cases hs; rfl⟩

theorem checkStored_view {s : Stored C} {t : Nat} (ho : disk.obj (objAt d n) = some (s, t)) (h : IsFile cwd s.filename d n) (hn : Plain n) :
    (checkStored version disk cwd s).map Stored.module = checkDirty version (view disk d) [n] s.module t ∧
    ∀ s', checkStored version disk cwd s = .ok s' → s'.filename = s.filename := by
  rw [checkStored, checkDirty, view_src hn, h.place hn, h.objPlace hn, ho]
  simp only
  cases disk.src (srcAt d n) with
  | none => exact ⟨rfl, by simp⟩
  | some e =>
    obtain ⟨c, t'⟩ := e
    simp only
    split
    · exact ⟨rfl, by rintro s' hs; cases hs; rfl⟩
    · exact ⟨rfl, by rintro s' hs; cases hs; rfl⟩

/-- The main module. -/
theorem readMain_view (hN : NamesRight disk cwd d) (h : IsFile cwd input d n) (hn : Plain n) :
    (readMain parse version disk cwd input).map Stored.module = loadMainModule parse version (view disk d) [n] ∧
    ∀ s, readMain parse version disk cwd input = .ok s → IsFile cwd s.filename d n := by
  obtain ⟨s1, s2⟩ := readSource_view (parse := parse) (version := version) (disk := disk) h hn
  have hsrc : ∀ s, readSource parse version disk cwd input = .ok s → IsFile cwd s.filename d n := by
    intro s hs
    rw [s2 s hs]; exact h
  rw [readMain, loadMainModule, view_obj hn, h.objPlace hn]
  cases ho : disk.obj (objAt d n) with
  | none => exact ⟨s1, hsrc⟩
  | some e =>
    obtain ⟨s, t⟩ := e
    have hs := hN n s t hn ho
    obtain ⟨c1, c2⟩ := checkStored_view (version := version) ho hs hn
    simp only [Option.map_some]
    rw [← c1]
    cases hc : checkStored version disk cwd s with
    | error e => exact ⟨rfl, by simp⟩
    | ok s' =>
      simp only [Except.map]
      by_cases hd : s'.module.dirty = true
      · rw [if_pos hd, if_pos hd]
        exact ⟨s1, hsrc⟩
      · rw [if_neg hd, if_neg hd]
        refine ⟨rfl, ?_⟩
        rintro s'' hs''
        cases hs''
        rw [c2 _ hc]; exact hs

/-- A dependency. -/
theorem readDep_view (hN : NamesRight disk cwd d) (h : IsFile cwd input d n) (hn : Plain n) (useCache : Bool) (p : MPath) :
    (readDep parse version disk cwd useCache input [n] p).map Stored.module = loadDep parse version useCache (view disk d) p ∧
    ∀ s, readDep parse version disk cwd useCache input [n] p = .ok s → ∃ m, p = [m] ∧ Plain m ∧ IsFile cwd s.filename d m := by
  cases hp : plainName p with
  | none =>
    have e1 : (view disk d).src p = none := by simp only [view, hp]
    have e2 : (view disk d).obj p = none := by simp only [view, hp]
    simp only [readDep, hp]
    refine ⟨?_, by simp⟩
    cases useCache with
    | false => simp only [loadDep, loadSource, e1]; rfl
    | true => simp only [loadDep, loadCached, e2, loadSource, e1]; rfl
  | some m =>
    obtain ⟨rfl, hm⟩ := plainName_some.mp hp
    have hf := h.dep hn hm
    obtain ⟨s1, s2⟩ := readSource_view (parse := parse) (version := version) (disk := disk) hf hm
    have hsrc : ∀ s, readSource parse version disk cwd (sourceFile input [m] [n]) = .ok s → ∃ m', [m] = [m'] ∧ Plain m' ∧ IsFile cwd s.filename d m' := by
      intro s hs
      refine ⟨m, rfl, hm, ?_⟩
      rw [s2 s hs]; exact hf
    simp only [readDep, hp]
    cases useCache with
    | false => exact ⟨s1, hsrc⟩
    | true =>
      simp only [loadDep, if_true, loadCached]
      rw [view_obj hm, hf.objPlace hm]
      cases ho : disk.obj (objAt d m) with
      | none => exact ⟨s1, hsrc⟩
      | some e =>
        obtain ⟨s, t⟩ := e
        have hs := hN m s t hm ho
        obtain ⟨c1, c2⟩ := checkStored_view (version := version) ho hs hm
        refine ⟨c1, ?_⟩
        intro s' hs'
        refine ⟨m, rfl, hm, ?_⟩
        rw [c2 s' hs']; exact hs

/-! ## Compiling -/

/-- `CompileWith` is `Compile`. -/
theorem compile_iff {useCache : Bool} {kv : Text → Option Ast} {fs : FS C} {mp : MPath} {o : COut} {ws : List (MPath × Module C)} :
    Compile parse version useCache kv fs mp o ws ↔ ∃ w m, CompileWith (loadMainModule parse version fs mp) (fetchOf parse version useCache fs) kv mp o w m ∧
      ws = w.flatMap (written parse version useCache fs) ++ if useCache then m.toList.map fun m => (mp, m) else [] := by
  constructor
  · intro h
    cases h with
    | main h => exact ⟨[], none, .main h, by simp⟩
    | deps h1 h2 h3 => exact ⟨_, none, .deps h1 h2 h3, by simp⟩
    | cached h1 h2 h3 => exact ⟨_, none, .cached h1 h2 h3, by simp⟩
    | fills h1 h2 h3 h4 => exact ⟨_, none, .fills h1 h2 h3 h4, by simp⟩
    | cell h1 h2 h3 h4 => exact ⟨_, none, .cell h1 h2 h3 h4, by simp⟩
    | eval h1 h2 h3 h4 h5 h6 h7 h8 h9 => exact ⟨_, _, .eval h1 h2 h3 h4 h5 h6 h7 h8 h9, rfl⟩
  · rintro ⟨w, m, h, rfl⟩
    cases h with
    | main h => simpa using Compile.main h
    | deps h1 h2 h3 => simpa using Compile.deps h1 h2 h3
    | cached h1 h2 h3 => simpa using Compile.cached h1 h2 h3
    | fills h1 h2 h3 h4 => simpa using Compile.fills h1 h2 h3 h4
    | cell h1 h2 h3 h4 => simpa using Compile.cell h1 h2 h3 h4
    | eval h1 h2 h3 h4 h5 h6 h7 h8 h9 => exact .eval h1 h2 h3 h4 h5 h6 h7 h8 h9

/-- What is written, and what Verif.Cache.Model says is written. -/
def SameWrite (cwd d : List Text) (x : List Text × Stored C) (e : MPath × Module C) : Prop :=
  ∃ m, Plain m ∧ e.1 = [m] ∧ x.1 = objAt d m ∧ x.2.module = e.2 ∧ IsFile cwd x.2.filename d m

theorem writtenDep_view (hN : NamesRight disk cwd d) (h : IsFile cwd input d n) (hn : Plain n) (useCache : Bool) (e : MPath × Scope) :
    List.Forall₂ (SameWrite cwd d) (writtenDep parse version disk cwd useCache input [n] e) (written parse version useCache (view disk d) e) := by
  obtain ⟨h1, h2⟩ := readDep_view (parse := parse) (version := version) hN h hn useCache e.1
  rw [writtenDep, written]
  cases useCache with
  | false => exact .nil
  | true =>
    simp only [if_true]
    rw [← h1]
    cases hr : readDep parse version disk cwd true input [n] e.1 with
    | error => exact .nil
    | ok s =>
      obtain ⟨m, e1, e2, e3⟩ := h2 s hr
      exact .cons ⟨m, e2, e1, e3.objPlace e2, rfl, e3⟩ .nil

theorem writtenMain_view (hN : NamesRight disk cwd d) (h : IsFile cwd input d n) (hn : Plain n) (useCache : Bool) {m : Option (Module C)}
    (hm : m ≠ none → ∃ s, readMain parse version disk cwd input = .ok s) :
    List.Forall₂ (SameWrite cwd d) (writtenMain parse version disk cwd useCache input m) (if useCache then m.toList.map fun m => ([n], m) else []) := by
  cases useCache with
  | false => exact .nil
  | true =>
    cases m with
    | none => exact .nil
    | some m =>
      obtain ⟨s, hs⟩ := hm (by simp)
      have hf := (readMain_view (parse := parse) (version := version) hN h hn).2 s hs
      simp only [writtenMain, if_true, hs]
      exact .cons ⟨n, hn, rfl, hf.objPlace hn, rfl, hf⟩ .nil

theorem forall₂_append {β γ : Type} {R : β → γ → Prop} {l₁ l₂ : List β} {k₁ k₂ : List γ} (h1 : List.Forall₂ R l₁ k₁) (h2 : List.Forall₂ R l₂ k₂) :
    List.Forall₂ R (l₁ ++ l₂) (k₁ ++ k₂) := by
  induction h1 with
  | nil => exact h2
  | cons h _ ih => exact .cons h ih

theorem forall₂_flatMap {α β γ : Type} {R : β → γ → Prop} {f : α → List β} {g : α → List γ} (h : ∀ a, List.Forall₂ R (f a) (g a)) (l : List α) :
    List.Forall₂ R (l.flatMap f) (l.flatMap g) := by
  induction l with
  | nil => exact .nil
  | cons a l ih =>
    rw [List.flatMap_cons, List.flatMap_cons]
    exact forall₂_append (h a) ih

theorem fetch_view (hN : NamesRight disk cwd d) (h : IsFile cwd input d n) (hn : Plain n) (useCache : Bool) :
    (fun p => (readDep parse version disk cwd useCache input [n] p).map fun s => s.module.toMod) = fetchOf parse version useCache (view disk d) := by
  funext p
  rw [fetchOf, ← (readDep_view hN h hn useCache p).1]
  cases readDep parse version disk cwd useCache input [n] p <;> rfl

theorem CompileWith.loaded {load : Except LoadError (Module C)} {fetch : MPath → Except LoadError Mod} {kv : Text → Option Ast} {mp : MPath} {o : COut}
    {w : List (MPath × Scope)} {m : Option (Module C)} (h : CompileWith load fetch kv mp o w m) (hm : m ≠ none) : ∃ main, load = .ok main := by
  cases h with
  | eval h1 => exact ⟨_, h1⟩
  | _ => exact absurd rfl hm

theorem writes_view (hN : NamesRight disk cwd d) (h : IsFile cwd input d n) (hn : Plain n) {useCache : Bool} {kv : Text → Option Ast} {o : COut}
    {w : List (MPath × Scope)} {m : Option (Module C)}
    (hc : CompileWith ((readMain parse version disk cwd input).map Stored.module) (fetchOf parse version useCache (view disk d)) kv [n] o w m) :
    List.Forall₂ (SameWrite cwd d) (w.flatMap (writtenDep parse version disk cwd useCache input [n]) ++ writtenMain parse version disk cwd useCache input m)
      (w.flatMap (written parse version useCache (view disk d)) ++ if useCache then m.toList.map fun m => ([n], m) else []) := by
  refine forall₂_append (forall₂_flatMap (writtenDep_view hN h hn useCache) w) (writtenMain_view hN h hn useCache fun hm => ?_)
  obtain ⟨main, hl⟩ := hc.loaded hm
  cases hr : readMain parse version disk cwd input with
  | error e => rw [hr] at hl; cases hl
  | ok s => exact ⟨s, rfl⟩

/-- When the names are right, a run is one of Verif.Cache.Model with the modules of the directory of the main file. -/
theorem compileAt_view (hN : NamesRight disk cwd d) (h : IsFile cwd input d n) (hn : Plain n) {useCache : Bool} {kv : Text → Option Ast} {o : COut}
    {writes : List (List Text × Stored C)} (hc : CompileAt parse version disk cwd useCache kv input [n] o writes) :
    ∃ ws, Compile parse version useCache kv (view disk d) [n] o ws ∧ List.Forall₂ (SameWrite cwd d) writes ws := by
  obtain ⟨w, m, hw, rfl⟩ := hc
  rw [fetch_view hN h hn] at hw
  have hW := writes_view hN h hn hw
  rw [(readMain_view hN h hn).1] at hw
  exact ⟨_, compile_iff.mpr ⟨w, m, hw, rfl⟩, hW⟩

theorem compileAt_of_view (hN : NamesRight disk cwd d) (h : IsFile cwd input d n) (hn : Plain n) {useCache : Bool} {kv : Text → Option Ast} {o : COut}
    {ws : List (MPath × Module C)} (hc : Compile parse version useCache kv (view disk d) [n] o ws) :
    ∃ writes, CompileAt parse version disk cwd useCache kv input [n] o writes ∧ List.Forall₂ (SameWrite cwd d) writes ws := by
  obtain ⟨w, m, hw, rfl⟩ := compile_iff.mp hc
  rw [← (readMain_view hN h hn).1] at hw
  refine ⟨_, ⟨w, m, ?_, rfl⟩, writes_view hN h hn hw⟩
  rw [fetch_view hN h hn]
  exact hw

/-- C91.  When the object files of the directory have names that are right in both working directories, a file is compiled to the same outcome, however it is named
and wherever the compiler is run. -/
theorem C91_same_partial {cwd' : List Text} {input' : Path} (hN : NamesRight disk cwd d) (hN' : NamesRight disk cwd' d) (h : IsFile cwd input d n)
    (h' : IsFile cwd' input' d n) (hn : Plain n) (useCache : Bool) (kv : Text → Option Ast) (o : COut) :
    (∃ w, CompileAt parse version disk cwd useCache kv input [n] o w) ↔ ∃ w, CompileAt parse version disk cwd' useCache kv input' [n] o w := by
  constructor
  · rintro ⟨w, hc⟩
    obtain ⟨ws, h1, -⟩ := compileAt_view hN h hn hc
    obtain ⟨w', h2, -⟩ := compileAt_of_view hN' h' hn h1
    exact ⟨w', h2⟩
  · rintro ⟨w, hc⟩
    obtain ⟨ws, h1, -⟩ := compileAt_view hN' h' hn hc
    obtain ⟨w', h2, -⟩ := compileAt_of_view hN h hn h1
    exact ⟨w', h2⟩

/-! ## Histories -/

theorem disk_writeAll_cases {t : Nat} {w : List (List Text × Stored C)} {q : List Text} {s : Stored C} {t' : Nat} (h : (disk.writeAll t w).obj q = some (s, t')) :
    ((q, s) ∈ w ∧ t' = t) ∨ disk.obj q = some (s, t') := by
  induction w generalizing disk with
  | nil => exact .inr h
  | cons e w ih =>
    rcases ih (disk := ⟨disk.src, fun q => if q = e.1 then some (e.2, t) else disk.obj q⟩) h with ⟨h1, h2⟩ | h
    · exact .inl ⟨List.mem_cons_of_mem _ h1, h2⟩
    · simp only at h
      split at h
      · rename_i hp
        cases h
        subst hp
        exact .inl ⟨List.mem_cons_self .., rfl⟩
      · exact .inr h

end

/-- The histories of a disk: at the start there are no object files; then source files are saved and deleted, object files deleted, and files compiled, by runs in any
directory that satisfy `ok` (with the working directory and the path of the file). -/
inductive Runs {C : Type} (parse : C → Except LoadError Parsed) (version : Nat) (ok : List Text → Path → Prop) : Disk C → Prop
  | start {disk} : (∀ q, disk.obj q = none) → Runs parse version ok disk
  | edit {disk src} : Runs parse version ok disk → Runs parse version ok ⟨src, disk.obj⟩
  | delete {disk} (q : List Text) : Runs parse version ok disk → Runs parse version ok ⟨disk.src, fun q' => if q' = q then none else disk.obj q'⟩
  | run {disk cwd input d n useCache kv o w t} : Runs parse version ok disk → ok cwd input → IsFile cwd input d n → Plain n →
      CompileAt parse version disk cwd useCache kv input [n] o w → Runs parse version ok (disk.writeAll t w)

section
variable {C : Type} {parse : C → Except LoadError Parsed} {version : Nat} {disk : Disk C} {ok : List Text → Path → Prop}

/-- The names of object files are right in the working directories that satisfy `P`. -/
def RightIn (P : List Text → Prop) (disk : Disk C) : Prop := ∀ d n s t, Plain n → disk.obj (objAt d n) = some (s, t) → ∀ cwd, P cwd → IsFile cwd s.filename d n

theorem RightIn.names {P : List Text → Prop} (h : RightIn P disk) {cwd : List Text} (hc : P cwd) (d : List Text) : NamesRight disk cwd d :=
  fun n s t hn ho => h d n s t hn ho cwd hc

theorem checkStored_name {cwd : List Text} {s s' : Stored C} (h : checkStored version disk cwd s = .ok s') : s'.filename = s.filename := by
  rw [checkStored] at h
  split at h
  · cases h
  · split at h
    · cases h
    · split at h
      · cases h; rfl
      · cases h; rfl

theorem readSource_name {cwd : List Text} {p : Path} {s : Stored C} (h : readSource parse version disk cwd p = .ok s) : s.filename = p := by
  rw [readSource] at h
  split at h
  · cases h
  · split at h
    · cases h
    · cases h; rfl

theorem readMain_name {cwd : List Text} {input : Path} {s : Stored C} {Q : Path → Prop} (h : readMain parse version disk cwd input = .ok s) (h1 : Q input)
    (h2 : ∀ s t, disk.obj (locate cwd (objectName input)) = some (s, t) → Q s.filename) : Q s.filename := by
  rw [readMain] at h
  split at h
  · rw [readSource_name h]; exact h1
  · rename_i s₀ t ho
    split at h
    · cases h
    · rename_i s' hs'
      split at h
      · rw [readSource_name h]; exact h1
      · cases h
        rw [checkStored_name hs']
        exact h2 s₀ t ho

theorem readDep_name {cwd : List Text} {input : Path} {mp p : MPath} {useCache : Bool} {s : Stored C} {Q : Path → Prop}
    (h : readDep parse version disk cwd useCache input mp p = .ok s) (h1 : Q (sourceFile input p mp))
    (h2 : ∀ s t, disk.obj (locate cwd (objectName (sourceFile input p mp))) = some (s, t) → Q s.filename) : Q s.filename := by
  rw [readDep] at h
  split at h
  · cases h
  · split at h
    · split at h
      · rw [readSource_name h]; exact h1
      · rename_i s₀ t ho
        rw [checkStored_name h]
        exact h2 s₀ t ho
    · rw [readSource_name h]; exact h1

/-- What a run writes has right names again. -/
theorem writes_right {P : List Text → Prop} (hR : RightIn P disk) {cwd : List Text} (hP : P cwd) {input : Path} {d : List Text} {n : Text} (hn : Plain n)
    (h : ∀ cwd', P cwd' → IsFile cwd' input d n) {useCache : Bool} {kv : Text → Option Ast} {o : COut} {w : List (List Text × Stored C)}
    (hc : CompileAt parse version disk cwd useCache kv input [n] o w) : ∀ x ∈ w, ∃ m, Plain m ∧ x.1 = objAt d m ∧ ∀ cwd', P cwd' → IsFile cwd' x.2.filename d m := by
  obtain ⟨w, mm, -, rfl⟩ := hc
  have hf := h cwd hP
  intro x hx
  rcases List.mem_append.mp hx with hx | hx
  · obtain ⟨e, -, hx⟩ := List.mem_flatMap.mp hx
    rw [writtenDep] at hx
    split at hx
    · split at hx
      · rename_i s hs
        obtain ⟨m, e1, hm, e3⟩ := (readDep_view (hR.names hP d) hf hn useCache e.1).2 s hs
        rw [e1] at hs
        obtain rfl := List.mem_singleton.mp hx
        refine ⟨m, hm, e3.objPlace hm, ?_⟩
        show ∀ cwd', P cwd' → IsFile cwd' s.filename d m
        refine readDep_name (Q := fun f => ∀ cwd', P cwd' → IsFile cwd' f d m) hs (fun cwd' hc' => (h cwd' hc').dep hn hm) fun s₀ t ho => ?_
        rw [(hf.dep hn hm).objPlace hm] at ho
        exact hR d m s₀ t hm ho
      · cases hx
    · cases hx
  · unfold writtenMain at hx
    split at hx
    · split at hx
      · rename_i mm' s hs' _
        obtain rfl := List.mem_singleton.mp hx
        refine ⟨n, hn, ((readMain_view (hR.names hP d) hf hn).2 s hs').objPlace hn, ?_⟩
        show ∀ cwd', P cwd' → IsFile cwd' s.filename d n
        refine readMain_name (Q := fun f => ∀ cwd', P cwd' → IsFile cwd' f d n) hs' h fun s₀ t ho => ?_
        rw [hf.objPlace hn] at ho
        exact hR d n s₀ t hn ho
      · cases hx
    · cases hx

/-- The names stay right. -/
theorem runs_right {P : List Text → Prop} (h : Runs parse version ok disk)
    (hok : ∀ cwd input d n, ok cwd input → IsFile cwd input d n → P cwd ∧ ∀ cwd', P cwd' → IsFile cwd' input d n) : RightIn P disk := by
  induction h with
  | start h => intro d n s t _ ho; rw [h] at ho; cases ho
  | edit _ ih => exact ih
  | @delete disk q _ ih =>
    intro d n s t hn ho
    simp only at ho
    split at ho
    · cases ho
    · exact ih d n s t hn ho
  | @run disk cwd input d n useCache kv o w t _ h1 h2 hn h4 ih =>
    obtain ⟨hP, hI⟩ := hok cwd input d n h1 h2
    intro d' n' s t' hn' ho
    rcases disk_writeAll_cases ho with ⟨h, -⟩ | h
    · obtain ⟨m, e1, e2, e3⟩ := writes_right ih hP hn hI h4 _ h
      obtain ⟨rfl, rfl⟩ := objAt_inj e2
      exact e3
    · exact ih d' n' s t' hn' h

/-- C91, absolute paths.  When the compiler has always been given absolute paths, in whatever directories, a file is compiled to the same outcome however it is named
now and wherever the compiler is run. -/
theorem C91_absolute_partial (h : Runs parse version (fun _ input => input.root = true) disk) {cwd cwd' d : List Text} {input input' : Path} {n : Text}
    (hf : IsFile cwd input d n) (hf' : IsFile cwd' input' d n) (hn : Plain n) (useCache : Bool) (kv : Text → Option Ast) (o : COut) :
    (∃ w, CompileAt parse version disk cwd useCache kv input [n] o w) ↔ ∃ w, CompileAt parse version disk cwd' useCache kv input' [n] o w := by
  have hR : RightIn (fun _ => True) disk := runs_right h fun cwd input d n h1 h2 => ⟨trivial, fun cwd' _ => h2.absolute h1 cwd'⟩
  exact C91_same_partial (hR.names trivial d) (hR.names trivial d) hf hf' hn useCache kv o

/-- C91, one directory.  When the compiler has always been run in the same directory, a file is compiled to the same outcome however it is named, and the outcome is
that of the modules in the directory of the file (Verif.Cache.Model). -/
theorem C91_one_directory_partial {cwd : List Text} (h : Runs parse version (fun c _ => c = cwd) disk) {d : List Text} {input : Path} {n : Text}
    (hf : IsFile cwd input d n) (hn : Plain n) (useCache : Bool) (kv : Text → Option Ast) (o : COut) :
    (∃ w, CompileAt parse version disk cwd useCache kv input [n] o w) ↔ ∃ w, Compile parse version useCache kv (view disk d) [n] o w := by
  have hR : RightIn (fun c => c = cwd) disk := runs_right h fun c input d n h1 h2 => ⟨h1, fun cwd' hc => by rw [hc, ← h1]; exact h2⟩
  constructor
  · rintro ⟨w, hc⟩
    obtain ⟨ws, h1, -⟩ := compileAt_view (hR.names rfl d) hf hn hc
    exact ⟨ws, h1⟩
  · rintro ⟨w, hc⟩
    obtain ⟨ws, h1, -⟩ := compileAt_of_view (hR.names rfl d) hf hn hc
    exact ⟨ws, h1⟩

/-! ## Violations -/

theorem disk_writeAll_last (t : Nat) (w : List (List Text × Stored C)) (q : List Text) (s : Stored C) :
    (disk.writeAll t (w ++ [(q, s)])).obj q = some (s, t) := by
  simp [Disk.writeAll]

theorem disk_writeAll_src (t : Nat) (w : List (List Text × Stored C)) : (disk.writeAll t w).src = disk.src := by
  induction w generalizing disk with
  | nil => rfl
  | cons e w ih => exact ih (disk := ⟨disk.src, fun q => if q = e.1 then some (e.2, t) else disk.obj q⟩)

/-- C91 is false in general.  Compile a file for the first time in its own directory, with the name `n.csvpp`, so that an object file is written.  From then on, in a
directory without a file of this name, compiling that file always fails: whatever it and the files it uses say. -/
theorem C91_violated {d : List Text} {n : Text} (hn : Plain n) {kv : Text → Option Ast} {s : Sheet} {w : List (List Text × Stored C)} {t : Nat}
    (hnew : disk.obj (objAt d n) = none) (hc : CompileAt parse version disk d true kv ⟨false, [n ++ ".csvpp".toList]⟩ [n] (.ok s) w)
    {cwd : List Text} {input : Path} (hf : IsFile cwd input d n) (hno : disk.src (srcAt cwd n) = none) (useCache : Bool) (kv' : Text → Option Ast) (o : COut)
    (w' : List (List Text × Stored C)) : CompileAt parse version (disk.writeAll t w) cwd useCache kv' input [n] o w' → o = .error ∧ w' = [] := by
  have hd : IsFile d ⟨false, [n ++ ".csvpp".toList]⟩ d n := ⟨false, [], rfl, rfl⟩
  have hobj : ∃ s, s.filename = ⟨false, [n ++ ".csvpp".toList]⟩ ∧ (disk.writeAll t w).obj (objAt d n) = some (s, t) := by
    obtain ⟨wd, m, h, rfl⟩ := hc
    have hr : readMain parse version disk d ⟨false, [n ++ ".csvpp".toList]⟩ = readSource parse version disk d ⟨false, [n ++ ".csvpp".toList]⟩ := by
      rw [readMain, hd.objPlace hn, hnew]
    cases hs : readSource parse version disk d ⟨false, [n ++ ".csvpp".toList]⟩ with
    | error e =>
      rw [hr, hs] at h
      cases h with
      | deps h1 => cases h1
      | cached h1 => cases h1
      | eval h1 => cases h1
    | ok s₀ =>
      have hname := readSource_name hs
      have hne : s₀.module.needsEval = true := by
        rw [readSource] at hs
        split at hs
        · cases hs
        · split at hs
          · cases hs
          · cases hs; rfl
      rw [hr, hs] at h
      cases h with
      | @deps main w lo _ h1 h2 h3 => cases lo <;> simp [LOut.failure] at h3
      | cached h1 _ h3 => cases h1; rw [hne] at h3; cases h3
      | eval h1 =>
        simp only [writtenMain, if_true, hr, hs, writtenAt]
        have hplace : locate d (objectName s₀.filename) = objAt d n := by rw [hname]; exact hd.objPlace hn
        rw [← hplace]
        refine ⟨_, ?_, disk_writeAll_last t _ _ _⟩
        exact hname
  obtain ⟨s₁, hname, hobj⟩ := hobj
  have hcheck : checkStored version (disk.writeAll t w) cwd s₁ = .error [] := by
    have hcf : IsFile cwd s₁.filename cwd n := by rw [hname]; exact ⟨false, [], rfl, rfl⟩
    rw [checkStored, hcf.place hn, disk_writeAll_src, hno]
    cases (disk.writeAll t w).obj (locate cwd (objectName s₁.filename)) <;> rfl
  have hmain : readMain parse version (disk.writeAll t w) cwd input = .error [] := by
    rw [readMain, hf.objPlace hn, hobj]
    simp only [hcheck]
  rintro ⟨wd, m, h, rfl⟩
  rw [hmain] at h
  cases h with
  | main => exact ⟨rfl, by simp [writtenMain]⟩
  | deps h1 => cases h1
  | cached h1 => cases h1
  | fills h1 => cases h1
  | cell h1 => cases h1
  | eval h1 => cases h1

end
end Verif.Cache
