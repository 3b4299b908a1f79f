import Verif.Target.FileProps
/-
Runs and crashes (C59), and the files of modules (C46).
-/
namespace Verif.Target
open Verif.Cell Verif.Sheet

/-! ### C59: runs -/

variable {C : Type} {ts : List Text} {partials : C → List C} {backup : Bool} {target : Path} {compiled : Option Sheet}
  {write : Sheet → Option C → WriteOut C} {fs s : Files C}

theorem set_ne {q p : Path} {c : C} (h : q ≠ p) : (fs.set p c) q = fs q := by simp [Files.set, h]

theorem set_eq {p : Path} {c : C} : (fs.set p c) p = some c := by simp [Files.set]

/-- The states after the backup. -/
theorem run_cases (h : s ∈ (run ts partials backup target compiled write fs).2) :
    s = fs ∨
    (backup = true ∧ ∃ fs' new c, backupFile ts fs target = some (fs', new) ∧ s = fs.set new c) ∨
    (backup = true ∧ ∃ fs' new, backupFile ts fs target = some (fs', new) ∧ (s = fs' ∨ ∃ c, s = fs'.set target c)) ∨
    (backup = false ∧ ∃ c, s = fs.set target c) := by
  have hw : ∀ (sheet : Sheet) (fs' : Files C), s ∈ (match write sheet (fs' target) with
      | .panic => (Exit.panic, [])
      | .failed cs => (.failure, cs.map (fs'.set target))
      | .ok cs c => (.success, cs.map (fs'.set target) ++ [fs'.set target c])).2 → ∃ c, s = fs'.set target c := by
    intro sheet fs' h
    split at h
    · cases h
    · obtain ⟨c, _, rfl⟩ := List.mem_map.mp h; exact ⟨c, rfl⟩
    · rcases List.mem_append.mp h with h | h
      · obtain ⟨c, _, rfl⟩ := List.mem_map.mp h; exact ⟨c, rfl⟩
      · rw [List.mem_singleton] at h; exact ⟨_, h⟩
  unfold run at h
  simp only at h
  split at h
  · rw [List.mem_singleton] at h; exact .inl h
  · rename_i sheet
    split at h
    · rename_i hb
      split at h
      · rw [List.mem_singleton] at h; exact .inl h
      · rename_i fs' new hbk
        rcases List.mem_append.mp h with h | h
        · rcases List.mem_cons.mp h with h | h
          · exact .inl h
          · obtain ⟨c, _, rfl⟩ := List.mem_map.mp h
            exact .inr (.inl ⟨hb, fs', new, c, hbk, rfl⟩)
        · rcases List.mem_cons.mp h with h | h
          · exact .inr (.inr (.inl ⟨hb, fs', new, hbk, .inl h⟩))
          · exact .inr (.inr (.inl ⟨hb, fs', new, hbk, .inr (hw sheet fs' h)⟩))
    · rename_i hb
      rcases List.mem_cons.mp h with h | h
      · exact .inl h
      · exact .inr (.inr (.inr ⟨by simpa using hb, hw sheet fs h⟩))

/-- C59: a run that fails to compile never touches a file. -/
theorem C59_compile_error : run ts partials backup target none write fs = (.failure, [fs]) := rfl

/-- C59: at whatever point a run stops, every file but the target is as it was, or was not there. -/
theorem C59_other_files (h : s ∈ (run ts partials backup target compiled write fs).2) {q : Path} {c : C} (hq : fs q = some c) (hne : q ≠ target) :
    s q = some c := by
  rcases run_cases h with rfl | ⟨_, fs', new, c', hb, rfl⟩ | ⟨_, fs', new, hb, rfl | ⟨c', rfl⟩⟩ | ⟨_, c', rfl⟩
  · exact hq
  · rw [set_ne (by rintro rfl; rw [(C43_backup hb).1] at hq; cases hq), hq]
  · exact C43_nothing_lost hb q c hq
  · rw [set_ne hne]; exact C43_nothing_lost hb q c hq
  · rw [set_ne hne, hq]

/-- C59: with `--backup`, at whatever point a run stops, crashes and partly written files included, the old contents of the target
are still there: in the target, or in a file that was not there before. -/
theorem C59_crash_safe (h : s ∈ (run ts partials true target compiled write fs).2) {c : C} (hc : fs target = some c) :
    s target = some c ∨ ∃ new, new ≠ target ∧ fs new = none ∧ s new = some c := by
  rcases run_cases h with rfl | ⟨_, fs', new, c', hb, rfl⟩ | ⟨_, fs', new, hb, rfl | ⟨c', rfl⟩⟩ | ⟨hb, _⟩
  · exact .inl hc
  · exact .inl (by rw [set_ne (by rintro rfl; rw [(C43_backup hb).1] at hc; cases hc), hc])
  · exact .inl (C43_nothing_lost hb _ _ hc)
  · obtain ⟨hn, ⟨c0, h1, h2⟩, _⟩ := C43_backup hb
    have hne : new ≠ target := by rintro rfl; rw [hn] at hc; cases hc
    rw [hc] at h1; cases h1
    exact .inr ⟨new, hne, hn, by rw [set_ne hne, h2]⟩
  · cases hb

/-- C59: with `--backup`, a successful run leaves the old contents in a file that was not there before. -/
theorem C59_backup_made (h : (run ts partials true target compiled write fs).1 = .success) :
    ∃ c new, fs target = some c ∧ fs new = none ∧ new ≠ target ∧
      (run ts partials true target compiled write fs).2.getLast?.bind (· new) = some c := by
  cases compiled with
  | none => cases h
  | some sheet =>
    cases hb : backupFile ts fs target with
    | none => simp [run, hb] at h
    | some x =>
      obtain ⟨fs', new⟩ := x
      obtain ⟨hn, ⟨c, h1, h2⟩, h3⟩ := C43_backup hb
      have hne : new ≠ target := by rintro rfl; rw [hn] at h1; cases h1
      refine ⟨c, new, h1, hn, hne, ?_⟩
      cases hw : write sheet (fs' target) with
      | panic => simp [run, hb, hw] at h
      | failed cs => simp [run, hb, hw] at h
      | ok cs c' =>
        simp only [run, hb, hw, if_true]
        rw [List.getLast?_append, List.getLast?_cons, List.getLast?_append]
        simp [set_ne hne, h2]

/-- C59 needs `--backup`: without it a crash can leave an empty file, whatever was in it. -/
theorem C59_no_backup_violated {file : Text} {fs : Files Text} {partials : Text → List Text} {sheet : Sheet} {ov : Bool} {cuts : List Nat}
    (_ : fs target = some file) :
    ∃ s ∈ (run ts partials false target (some sheet) (csvTarget ov cuts) fs).2, s target = some [] := by
  refine ⟨fs.set target [], ?_, set_eq⟩
  unfold run
  simp [csvTarget]

/-- C59 (CSV): at every point the target has its old contents or the beginning of its new ones. -/
theorem C59_csv_prefix {fs s : Files Text} {partials : Text → List Text} {sheet : Sheet} {ov : Bool} {cuts : List Nat}
    (h : s ∈ (run ts partials backup target (some sheet) (csvTarget ov cuts) fs).2) :
    s target = fs target ∨ ∃ t, s target = some t ∧ t <+: writeCsv ov sheet (fs target) := by
  have hw : ∀ (fs' : Files Text), fs' target = fs target → ∀ s ∈ (match csvTarget ov cuts sheet (fs' target) with
      | .panic => (Exit.panic, [])
      | .failed cs => (.failure, cs.map (fs'.set target))
      | .ok cs c => (.success, cs.map (fs'.set target) ++ [fs'.set target c])).2,
      ∃ t, s target = some t ∧ t <+: writeCsv ov sheet (fs target) := by
    intro fs' he s h
    rw [he] at h
    simp only [csvTarget, List.mem_append, List.mem_map, List.mem_cons, List.not_mem_nil, or_false] at h
    rcases h with ⟨t, ht, rfl⟩ | rfl
    · refine ⟨t, set_eq, ?_⟩
      rcases ht with rfl | ⟨k, _, rfl⟩
      · exact List.nil_prefix
      · exact List.take_prefix _ _
    · exact ⟨_, set_eq, List.prefix_refl _⟩
  unfold run at h
  simp only at h
  split at h
  · split at h
    · rw [List.mem_singleton] at h; exact .inl (h ▸ rfl)
    · rename_i fs' new hbk
      have ht : fs' target = fs target := by
        obtain ⟨hn, ⟨c, h1, h2⟩, h3⟩ := C43_backup hbk
        exact h3 _ (by rintro rfl; rw [hn] at h1; cases h1)
      rcases List.mem_append.mp h with h | h
      · rcases List.mem_cons.mp h with h | h
        · exact .inl (h ▸ rfl)
        · obtain ⟨c, _, rfl⟩ := List.mem_map.mp h
          obtain ⟨hn, ⟨c0, h1, h2⟩, h3⟩ := C43_backup hbk
          exact .inl (set_ne (by rintro rfl; rw [hn] at h1; cases h1))
      · rcases List.mem_cons.mp h with h | h
        · exact .inl (h ▸ ht)
        · exact .inr (hw fs' ht _ h)
  · rcases List.mem_cons.mp h with h | h
    · exact .inl (h ▸ rfl)
    · exact .inr (hw fs rfl _ h)

/-- C68 is false: a run with an `.ods` target never succeeds, and panics if the sheet compiles and no backup is asked for. -/
theorem C68_violated : (run ts partials backup target compiled (odsTarget (C := C)) fs).1 ≠ .success ∧
    (compiled ≠ none → backup = false → (run ts partials backup target compiled (odsTarget (C := C)) fs).1 = .panic) := by
  cases compiled with
  | none => exact ⟨by simp [run], fun h => absurd rfl h⟩
  | some sheet =>
    constructor
    · cases backup
      · simp [run, odsTarget]
      · cases hb : backupFile ts fs target <;> simp [run, odsTarget, hb]
    · rintro _ rfl; rfl

/-- A run with a backup: the target `t.csv` with the contents `x`. -/
example : ∃ (fs : Files Text) (s : Files Text), fs (Path.ofText "t.csv".toList) = some ['x'] ∧
    s ∈ (run [['1']] (fun _ => []) true (Path.ofText "t.csv".toList) (some exSheet) (csvTarget true []) fs).2 ∧
    s (Path.ofText "t.csv".toList) ≠ some ['x'] ∧ s (Path.ofText "t-1.csv".toList) = some ['x'] := by
  have e1 : Path.ofText "t.csv".toList = ⟨false, ["t.csv".toList]⟩ := ofText_name (by unfold FileName; decide)
  have e2 : Path.ofText "t-1.csv".toList = ⟨false, ["t-1.csv".toList]⟩ := ofText_name (by unfold FileName; decide)
  have hx : HasExt "t.csv".toList "t".toList "csv".toList := by unfold HasExt; decide
  let fs : Files Text := fun q => if q = ⟨false, ["t.csv".toList]⟩ then some ['x'] else none
  have hb : backupFile [['1']] fs (Path.ofText "t.csv".toList) = some (fs.set ⟨false, ["t-1.csv".toList]⟩ ['x'], ⟨false, ["t-1.csv".toList]⟩) := by
    have := backupFile_eq (ts := [['1']]) (fs := fs) (dir := none) hx
    rw [inDir] at this
    rw [this, e1]
    have hn : backupName (dirPath none) "t".toList "csv".toList ['1'] = ⟨false, ["t-1.csv".toList]⟩ :=
      backupName_plain (by decide) (by decide) (by decide) (by decide) (by decide)
    rw [backupLoop, hn]
    rfl
  refine ⟨fs, (fs.set ⟨false, ["t-1.csv".toList]⟩ ['x']).set ⟨false, ["t.csv".toList]⟩ [], by rw [e1]; rfl, ?_, ?_, ?_⟩
  · unfold run
    simp only [hb]
    rw [e1]
    simp [csvTarget]
  · rw [e1]; decide
  · rw [e2]; decide

/-! ### C46: the files of modules -/

/-- A module path: its components. -/
abbrev MPath := List Text

/-- src/module_path/try_from.rs:6-12: the path of a module, `PathBuf::from_iter` and the extension. -/
def modulePath (m : MPath) : Path := (m.foldl (fun (p : Path) c => p.join (Path.ofText c)) (⟨false, []⟩ : Path)).setExtension "csvpp".toList

/-- src/module_path/mod.rs:14-23 `filename_relative_to`. -/
def filenameRelativeTo (m relativeTo : MPath) : Path :=
  (((modulePath relativeTo).parent).getD ⟨false, []⟩).join (modulePath m)

/-- src/compiler/mod.rs:31-35: the directory of the main file. -/
def loaderRoot (input : Path) : Path := (input.parent).getD ⟨false, []⟩

/-- src/module/mod.rs:105-117 `load_from_source_relative`: the file in which the module `m` that `relativeTo` uses is looked for. -/
def sourceFile (input : Path) (m relativeTo : MPath) : Path := (loaderRoot input).join (filenameRelativeTo m relativeTo)

/-- src/module/mod.rs:69-81: the object file of that module. -/
def objectFile (input : Path) (m relativeTo : MPath) : Path := (sourceFile input m relativeTo).setExtension "csvpo".toList

/-- src/module_path/try_from.rs:14-27 for the name of the main file (src/compiler/mod.rs:37-45). -/
def mainModulePath (input : Path) : Option MPath :=
  match input.fileName with
  | none => none
  | some f => some (((Path.ofText f).setExtension []).comps)

theorem join_dirs (p : Path) (cs : List Text) (h : ∀ c ∈ cs, FileName c) : cs.foldl (fun p c => p.join (Path.ofText c)) p = ⟨p.root, p.comps ++ cs⟩ := by
  induction cs generalizing p with
  | nil => obtain ⟨r, c⟩ := p; simp
  | cons c cs ih =>
    have hc := h c List.mem_cons_self
    rw [List.foldl_cons, ofText_name hc, join_file _ hc.2.2.1, ih _ (fun c h' => h c (List.mem_cons_of_mem _ h'))]
    simp

theorem modulePath_plain {ds : List Text} {n : Text} (hd : ∀ c ∈ ds, FileName c) (hn : FileName n) (hdot : '.' ∉ n) :
    modulePath (ds ++ [n]) = ⟨false, ds ++ [n ++ ".csvpp".toList]⟩ := by
  rw [modulePath, join_dirs _ _ (by intro c hc; rcases List.mem_append.mp hc with hc | hc; exact hd c hc; rw [List.mem_singleton] at hc; exact hc ▸ hn)]
  rw [setExtension_plain (cs := ds) (by simp) hn hdot (by decide)]
  rfl

theorem modulePath_dot {ds : List Text} {a b : Text} (hd : ∀ c ∈ ds, FileName c) (hn : FileName (a ++ '.' :: b)) (ha : a ≠ []) (hb : '.' ∉ b) :
    modulePath (ds ++ [a ++ '.' :: b]) = ⟨false, ds ++ [a ++ ".csvpp".toList]⟩ := by
  rw [modulePath, join_dirs _ _ (by intro c hc; rcases List.mem_append.mp hc with hc | hc; exact hd c hc; rw [List.mem_singleton] at hc; exact hc ▸ hn)]
  rw [setExtension_dot (cs := ds) (by simp) hn ha hb (by decide)]
  rfl

theorem join_rel (p : Path) (cs : List Text) (h : ['.'] ∉ cs) : p.join ⟨false, cs⟩ = ⟨p.root, p.comps ++ cs⟩ := by
  rw [Path.join, if_neg (by simp)]
  split
  · rename_i h'
    obtain ⟨r, c⟩ := p
    simp only at h'
    rw [h'.1, h'.2]; rfl
  · have : cs.filter (fun x => decide (x ≠ ['.'])) = cs := by
      rw [List.filter_eq_self]
      intro c hc
      have : c ≠ ['.'] := fun e => h (e ▸ hc)
      simpa using this
    rw [this]

/-- The parent of the file of a module is the directory in its path, whatever its name. -/
theorem modulePath_parent {ds : List Text} {r : Text} (hd : ∀ c ∈ ds, FileName c) (hr : FileName r) :
    ((modulePath (ds ++ [r])).parent).getD ⟨false, []⟩ = ⟨false, ds⟩ := by
  have : ∃ x, modulePath (ds ++ [r]) = ⟨false, ds ++ [x]⟩ := by
    rw [modulePath, join_dirs _ _ (by intro c hc; rcases List.mem_append.mp hc with hc | hc; exact hd c hc; rw [List.mem_singleton] at hc; exact hc ▸ hr)]
    rw [Path.setExtension]
    split
    · exact ⟨r, rfl⟩
    · exact ⟨_, by simp; rfl⟩
  obtain ⟨x, hx⟩ := this
  rw [hx, Path.parent, if_neg (by simp)]
  simp

/-- C46: for a module whose name has no dot, the file is looked for in the directory of the main file, in the subdirectories of the
path of the using module, in those of the module's own path. -/
theorem C46_file {dir : Option Text} {f r n : Text} {es ds : List Text} (hf : FileName f) (he : ∀ c ∈ es, FileName c) (hr : FileName r)
    (hd : ∀ c ∈ ds, FileName c) (hn : FileName n) (hdot : '.' ∉ n) :
    sourceFile (Path.ofText (inDir dir f)) (ds ++ [n]) (es ++ [r]) = ⟨(dirPath dir).root, (dirPath dir).comps ++ es ++ ds ++ [n ++ ".csvpp".toList]⟩ := by
  have hx : n ++ ".csvpp".toList ≠ ['.'] := by
    cases n with
    | nil => exact absurd rfl hn.1
    | cons c n => simp
  have h1 : filenameRelativeTo (ds ++ [n]) (es ++ [r]) = ⟨false, es ++ ds ++ [n ++ ".csvpp".toList]⟩ := by
    rw [filenameRelativeTo, modulePath_parent he hr, modulePath_plain hd hn hdot, join_rel _ _ ?_]
    · simp
    · intro h
      rcases List.mem_append.mp h with h | h
      · exact (hd _ h).2.2.1 rfl
      · rw [List.mem_singleton] at h; exact hx h.symm
  rw [sourceFile, h1, loaderRoot, parent_inDir hf, Option.getD_some, join_rel _ _ ?_]
  · simp
  · intro h
    rcases List.mem_append.mp h with h | h
    · rcases List.mem_append.mp h with h | h
      · exact (he _ h).2.2.1 rfl
      · exact (hd _ h).2.2.1 rfl
    · rw [List.mem_singleton] at h; exact hx h.symm

/-- C46: `use n` in a file next to the main file denotes the file `n.csvpp` next to the main file, and its object file is
`n.csvpo`. -/
theorem C46_next_to_main {dir : Option Text} {f r n : Text} (hf : FileName f) (hr : FileName r) (hn : FileName n) (hdot : '.' ∉ n) :
    sourceFile (Path.ofText (inDir dir f)) [n] [r] = Path.ofText (inDir dir (n ++ ".csvpp".toList)) ∧
    objectFile (Path.ofText (inDir dir f)) [n] [r] = Path.ofText (inDir dir (n ++ ".csvpo".toList)) := by
  have h1 : sourceFile (Path.ofText (inDir dir f)) [n] [r] = ⟨(dirPath dir).root, (dirPath dir).comps ++ [n ++ ".csvpp".toList]⟩ := by
    have := C46_file (dir := dir) (es := []) (ds := []) hf (by simp) hr (by simp) hn hdot
    simpa using this
  have x1 : HasExt (n ++ ".csvpp".toList) n "csvpp".toList := ⟨rfl, hn.1, hn.2.1, by decide, by decide, by decide⟩
  have x2 : HasExt (n ++ ".csvpo".toList) n "csvpo".toList := ⟨rfl, hn.1, hn.2.1, by decide, by decide, by decide⟩
  constructor
  · rw [h1, ofText_inDir x1.fileName]
  · rw [objectFile, h1, ofText_inDir x2.fileName]
    rw [setExtension_dot (stem := n) (e := "csvpp".toList) (cs := (dirPath dir).comps) rfl x1.fileName hn.1 (by decide) (by decide)]
    rfl

/-- C46: the modules that a file next to the main file uses are next to it as well (so the file of a module does not depend on which
module uses it). -/
theorem C46_main_path {dir : Option Text} {f : Text} (hf : FileName f) :
    ∃ r, mainModulePath (Path.ofText (inDir dir f)) = some [r] := by
  have hc : (Path.ofText (inDir dir f)).comps = (dirPath dir).comps ++ [f] := by rw [ofText_inDir hf]
  rw [mainModulePath, fileName_last hc hf]
  simp only [ofText_name hf, Path.setExtension]
  split
  · exact ⟨f, rfl⟩
  · exact ⟨_, rfl⟩

/-- C46 is false for names with dots: what is after the last dot is dropped. -/
theorem C46_violated {dir : Option Text} {f r a b : Text} (hf : FileName f) (hr : FileName r) (hn : FileName (a ++ '.' :: b)) (ha : a ≠ []) (hb : '.' ∉ b) :
    sourceFile (Path.ofText (inDir dir f)) [a ++ '.' :: b] [r] = Path.ofText (inDir dir (a ++ ".csvpp".toList)) := by
  have hsl : '/' ∉ a := by
    have := hn.2.1
    simp only [List.mem_append, not_or] at this
    exact this.1
  have x1 : HasExt (a ++ ".csvpp".toList) a "csvpp".toList := ⟨rfl, ha, hsl, by decide, by decide, by decide⟩
  have h1 : filenameRelativeTo [a ++ '.' :: b] [r] = ⟨false, [a ++ ".csvpp".toList]⟩ := by
    have e1 := modulePath_parent (ds := []) (by simp) hr
    have e2 := modulePath_dot (ds := []) (by simp) hn ha hb
    rw [List.nil_append] at e1 e2
    rw [filenameRelativeTo, e1, e2]
    exact join_file _ x1.fileName.2.2.1
  rw [sourceFile, h1, loaderRoot, parent_inDir hf, Option.getD_some, join_file _ x1.fileName.2.2.1, ofText_inDir x1.fileName]

example : FileName "main.csvpp".toList ∧ FileName "a".toList ∧ '.' ∉ "a".toList ∧ FileName "1.5".toList := by
  unfold FileName; decide

end Verif.Target
