import Verif.Target.CsvProps
/-
Backups, the selection of the target, module files, and crashes (C43, C45, C46, C59, C60).
-/
namespace Verif.Target
open Verif.Cell Verif.Sheet

/-! ### Lemmas about paths -/

theorem join_file (p : Path) {f : Text} (h : f ≠ ['.']) : p.join ⟨false, [f]⟩ = ⟨p.root, p.comps ++ [f]⟩ := by
  rw [Path.join, if_neg (by simp)]
  split
  · rename_i h'
    obtain ⟨r, cs⟩ := p
    simp only at h'
    rw [h'.1, h'.2]; rfl
  · simp [h]

theorem stem_last {p : Path} {f : Text} {cs : List Text} (hc : p.comps = cs ++ [f]) (h : FileName f) :
    p.fileStem = (rsplitDot f).1.or (rsplitDot f).2 := by
  rw [Path.fileStem, fileName_last hc h]; rfl

theorem extension_last {p : Path} {f : Text} {cs : List Text} (hc : p.comps = cs ++ [f]) (h : FileName f) :
    p.extension = if (rsplitDot f).1.isSome then (rsplitDot f).2 else none := by
  rw [Path.extension, fileName_last hc h]; rfl

theorem setExtension_dot {p : Path} {stem e ext : Text} {cs : List Text} (hc : p.comps = cs ++ [stem ++ '.' :: e]) (h : FileName (stem ++ '.' :: e))
    (hs : stem ≠ []) (he : '.' ∉ e) (hx : ext ≠ []) : p.setExtension ext = ⟨p.root, cs ++ [stem ++ '.' :: ext]⟩ := by
  rw [Path.setExtension, stem_last hc h, rsplitDot_dot hs he h.2.2.2, hc]
  simp [hx]

theorem setExtension_plain {p : Path} {f ext : Text} {cs : List Text} (hc : p.comps = cs ++ [f]) (h : FileName f) (hd : '.' ∉ f) (hx : ext ≠ []) :
    p.setExtension ext = ⟨p.root, cs ++ [f ++ '.' :: ext]⟩ := by
  rw [Path.setExtension, stem_last hc h, rsplitDot_none hd, hc]
  simp [hx]

/-! ### C43, C60: backups -/

theorem backupLoop_spec {C : Type} {fs fs' : Files C} {p parent new : Path} {stem ext : Text} {ts : List Text}
    (h : backupLoop fs p parent stem ext ts = some (fs', new)) :
    (∃ t ∈ ts, new = backupName parent stem ext t) ∧ fs new = none ∧ ∃ c, fs p = some c ∧ fs' = fs.set new c := by
  induction ts with
  | nil => cases h
  | cons t ts ih =>
    rw [backupLoop] at h
    split at h
    · obtain ⟨⟨t', ht', e⟩, h2⟩ := ih h
      exact ⟨⟨t', List.mem_cons_of_mem _ ht', e⟩, h2⟩
    · rename_i hn
      split at h
      · cases h
      · rename_i c hc
        cases h
        exact ⟨⟨t, List.mem_cons_self, rfl⟩, by simpa using hn, c, hc, rfl⟩

/-- C43: when a backup succeeds, there was a target; the copy has a name that was free, it has the contents of the target, and
no other file is changed. -/
theorem C43_backup {C : Type} {ts : List Text} {fs fs' : Files C} {p new : Path} (h : backupFile ts fs p = some (fs', new)) :
    fs new = none ∧ (∃ c, fs p = some c ∧ fs' new = some c) ∧ ∀ q, q ≠ new → fs' q = fs q := by
  rw [backupFile] at h
  split at h
  · obtain ⟨_, hn, c, hc, rfl⟩ := backupLoop_spec h
    exact ⟨hn, ⟨c, hc, by simp [Files.set]⟩, fun q hq => by simp [Files.set, hq]⟩
  · cases h

/-- C43: in particular the target and every file there was are as before. -/
theorem C43_nothing_lost {C : Type} {ts : List Text} {fs fs' : Files C} {p new : Path} (h : backupFile ts fs p = some (fs', new)) :
    ∀ q c, fs q = some c → fs' q = some c := by
  intro q c hq
  obtain ⟨hn, _, h3⟩ := C43_backup h
  rw [h3 q (by rintro rfl; rw [hn] at hq; cases hq), hq]

/-- C43: a backup of a target that is not there always fails (so `--backup` cannot be used for the first run). -/
theorem C43_no_target {C : Type} {ts : List Text} {fs : Files C} {p : Path} (h : fs p = none) : backupFile ts fs p = none := by
  cases hb : backupFile ts fs p with
  | none => rfl
  | some x =>
    obtain ⟨c, hc, _⟩ := (C43_backup (fs' := x.1) (new := x.2) hb).2.1
    rw [h] at hc; cases hc

theorem dash_name {stem t : Text} (hs : '/' ∉ stem) (ht : '/' ∉ t) : FileName (stem ++ '-' :: t) := by
  have hm : '-' ∈ stem ++ '-' :: t := by simp
  refine ⟨by simp, by simp [hs, ht], ?_, ?_⟩ <;> (intro e; rw [e] at hm; revert hm; decide)

theorem backupName_plain {parent : Path} {stem ext t : Text} (hs : '/' ∉ stem) (hd : '.' ∉ stem) (ht : '/' ∉ t) (htd : '.' ∉ t) (hx : ext ≠ []) :
    backupName parent stem ext t = ⟨parent.root, parent.comps ++ [stem ++ '-' :: t ++ '.' :: ext]⟩ := by
  have hf := dash_name hs ht
  rw [backupName, join_file _ hf.2.2.1, setExtension_plain (cs := parent.comps) rfl hf (by simp [hd, htd]) hx]

theorem backupName_dot {parent : Path} {a b ext t : Text} (ha : '/' ∉ a) (hb : '/' ∉ b) (hne : a ≠ []) (hbd : '.' ∉ b) (ht : '/' ∉ t) (htd : '.' ∉ t)
    (hx : ext ≠ []) : backupName parent (a ++ '.' :: b) ext t = ⟨parent.root, parent.comps ++ [a ++ '.' :: ext]⟩ := by
  have hf : FileName ((a ++ '.' :: b) ++ '-' :: t) := dash_name (by simp [ha, hb]) ht
  have e : (a ++ '.' :: b) ++ '-' :: t = a ++ '.' :: (b ++ '-' :: t) := by simp
  rw [backupName, join_file _ hf.2.2.1]
  rw [e] at hf ⊢
  rw [setExtension_dot (cs := parent.comps) rfl hf hne (by simp [hbd, htd]) hx]

theorem loop_first {C : Type} {fs : Files C} {p parent : Path} {stem ext : Text} {ts : List Text} {c : C} (hc : fs p = some c) :
    (∃ pre t post, ts = pre ++ t :: post ∧ (∀ t' ∈ pre, fs (backupName parent stem ext t') ≠ none) ∧ fs (backupName parent stem ext t) = none ∧
      backupLoop fs p parent stem ext ts = some (fs.set (backupName parent stem ext t) c, backupName parent stem ext t)) ∨
    (∀ t ∈ ts, fs (backupName parent stem ext t) ≠ none) ∧ backupLoop fs p parent stem ext ts = none := by
  induction ts with
  | nil => exact .inr ⟨by simp, rfl⟩
  | cons t ts ih =>
    rw [backupLoop]
    by_cases h : fs (backupName parent stem ext t) = none
    · left
      refine ⟨[], t, ts, rfl, by simp, h, ?_⟩
      simp [h, hc]
    · have h' : (fs (backupName parent stem ext t)).isSome = true := Option.isSome_iff_ne_none.mpr h
      simp only [h', if_true]
      rcases ih with ⟨pre, t', post, rfl, h1, h2, h3⟩ | ⟨h1, h2⟩
      · left
        refine ⟨t :: pre, t', post, rfl, ?_, h2, h3⟩
        intro t'' ht''
        rcases List.mem_cons.mp ht'' with rfl | ht''
        · exact h
        · exact h1 _ ht''
      · right
        refine ⟨?_, h2⟩
        intro t'' ht''
        rcases List.mem_cons.mp ht'' with rfl | ht''
        · exact h
        · exact h1 _ ht''

/-- A file `stem.ext` in the directory `dir` (or, with `none`, in the current one). -/
def inDir (dir : Option Text) (f : Text) : Text :=
  match dir with
  | some d => d ++ '/' :: f
  | none => f

/-- The directory of a file. -/
def dirPath (dir : Option Text) : Path :=
  match dir with
  | some d => Path.ofText (d ++ ['/'])
  | none => ⟨false, []⟩

theorem ofText_inDir {f : Text} (h : FileName f) (dir : Option Text) : Path.ofText (inDir dir f) = ⟨(dirPath dir).root, (dirPath dir).comps ++ [f]⟩ := by
  cases dir with
  | none => exact ofText_name h
  | some d => exact ofText_slash h d

theorem parent_inDir {f : Text} (h : FileName f) (dir : Option Text) : (Path.ofText (inDir dir f)).parent = some (dirPath dir) := by
  rw [ofText_inDir h, Path.parent, if_neg (by simp)]
  simp

/-- The name of a file with an extension. -/
def HasExt (f stem ext : Text) : Prop := f = stem ++ '.' :: ext ∧ stem ≠ [] ∧ '/' ∉ stem ∧ '/' ∉ ext ∧ '.' ∉ ext ∧ ext ≠ []

theorem HasExt.fileName {f stem ext : Text} (h : HasExt f stem ext) : FileName f := by
  obtain ⟨rfl, h1, h2, h3, h4, h5⟩ := h
  refine ⟨by simp, by simp [h2, h3], ?_, ?_⟩
  · intro e
    cases stem with
    | nil => exact h1 rfl
    | cons c s => simp at e
  · intro e
    cases stem with
    | nil => exact h1 rfl
    | cons c s =>
      cases s with
      | nil =>
        simp only [List.cons_append, List.nil_append, List.cons.injEq] at e
        exact h5 e.2.2
      | cons d s => simp at e

theorem HasExt.split {f stem ext : Text} (h : HasExt f stem ext) : rsplitDot f = (some stem, some ext) := by
  have hf := h.fileName
  obtain ⟨rfl, h1, h2, h3, h4, h5⟩ := h
  exact rsplitDot_dot h1 h4 hf.2.2.2

theorem backupFile_eq {C : Type} {ts : List Text} {fs : Files C} {dir : Option Text} {f stem ext : Text} (h : HasExt f stem ext) :
    backupFile ts fs (Path.ofText (inDir dir f)) = backupLoop fs (Path.ofText (inDir dir f)) (dirPath dir) stem ext ts := by
  have hc : (Path.ofText (inDir dir f)).comps = (dirPath dir).comps ++ [f] := by rw [ofText_inDir h.fileName]
  rw [backupFile, stem_last hc h.fileName, extension_last hc h.fileName, parent_inDir h.fileName, h.split]
  rfl

/-- C60: the backup of `stem.ext`, where the stem has no dot, is `stem-time.ext` in the same directory, for the first of the
timestamps for which there is no such file; if there is none the backup fails. -/
theorem C60_backup_name_partial {C : Type} {ts : List Text} {fs : Files C} {dir : Option Text} {f stem ext : Text} {c : C} (h : HasExt f stem ext) (hd : '.' ∉ stem)
    (hts : ∀ t ∈ ts, '/' ∉ t ∧ '.' ∉ t) (hc : fs (Path.ofText (inDir dir f)) = some c) :
    (∃ pre t post, ts = pre ++ t :: post ∧ (∀ t' ∈ pre, fs (Path.ofText (inDir dir (stem ++ '-' :: t' ++ '.' :: ext))) ≠ none) ∧
      fs (Path.ofText (inDir dir (stem ++ '-' :: t ++ '.' :: ext))) = none ∧
      (backupFile ts fs (Path.ofText (inDir dir f))).map Prod.snd = some (Path.ofText (inDir dir (stem ++ '-' :: t ++ '.' :: ext)))) ∨
    (∀ t ∈ ts, fs (Path.ofText (inDir dir (stem ++ '-' :: t ++ '.' :: ext))) ≠ none) ∧ backupFile ts fs (Path.ofText (inDir dir f)) = none := by
  have hn : ∀ t ∈ ts, backupName (dirPath dir) stem ext t = Path.ofText (inDir dir (stem ++ '-' :: t ++ '.' :: ext)) := by
    intro t ht
    have hx : HasExt (stem ++ '-' :: t ++ '.' :: ext) (stem ++ '-' :: t) ext :=
      ⟨rfl, by simp, by simp [h.2.2.1, (hts t ht).1], h.2.2.2.1, h.2.2.2.2.1, h.2.2.2.2.2⟩
    rw [backupName_plain h.2.2.1 hd (hts t ht).1 (hts t ht).2 h.2.2.2.2.2, ofText_inDir hx.fileName]
  rw [backupFile_eq h]
  rcases loop_first (parent := dirPath dir) (stem := stem) (ext := ext) (ts := ts) hc with ⟨pre, t, post, rfl, h1, h2, h3⟩ | ⟨h1, h2⟩
  · left
    refine ⟨pre, t, post, rfl, ?_, ?_, ?_⟩
    · intro t' ht'
      rw [← hn t' (by simp [ht'])]
      exact h1 t' ht'
    · rw [← hn t (by simp)]; exact h2
    · rw [h3, ← hn t (by simp)]; rfl
  · right
    refine ⟨fun t ht => ?_, h2⟩
    rw [← hn t ht]; exact h1 t ht

/-- C60 is false: the backup of `a.b.ext` is `a.ext`, whatever the time, and if there is such a file the backup fails. -/
theorem C60_violated {C : Type} {ts : List Text} {fs : Files C} {dir : Option Text} {f a b ext : Text} {c : C} (h : HasExt f (a ++ '.' :: b) ext)
    (ha : a ≠ []) (hb : '.' ∉ b) (hne : ts ≠ []) (hts : ∀ t ∈ ts, '/' ∉ t ∧ '.' ∉ t) (hc : fs (Path.ofText (inDir dir f)) = some c) :
    (backupFile ts fs (Path.ofText (inDir dir f))).map Prod.snd =
      if fs (Path.ofText (inDir dir (a ++ '.' :: ext))) = none then some (Path.ofText (inDir dir (a ++ '.' :: ext))) else none := by
  obtain ⟨rfl, h1, h2, h3, h4, h5⟩ := h
  have hsl : '/' ∉ a ∧ '/' ∉ b := by simpa using h2
  have hx : HasExt (a ++ '.' :: ext) a ext := ⟨rfl, ha, hsl.1, h3, h4, h5⟩
  have hn : ∀ t ∈ ts, backupName (dirPath dir) (a ++ '.' :: b) ext t = Path.ofText (inDir dir (a ++ '.' :: ext)) := by
    intro t ht
    rw [backupName_dot hsl.1 hsl.2 ha hb (hts t ht).1 (hts t ht).2 h5, ofText_inDir hx.fileName]
  rw [backupFile_eq ⟨rfl, h1, h2, h3, h4, h5⟩]
  rcases loop_first (parent := dirPath dir) (stem := a ++ '.' :: b) (ext := ext) (ts := ts) hc with ⟨pre, t, post, rfl, _, h6, h7⟩ | ⟨h6, h7⟩
  · rw [hn t (by simp)] at h6 h7
    rw [h7, if_pos h6]; rfl
  · obtain ⟨t, ht⟩ := List.exists_mem_of_ne_nil ts hne
    have := h6 t ht
    rw [hn t ht] at this
    rw [h7, if_neg this]; rfl

/-! ### C45: the target -/

/-- The target that the documentation gives for an extension. -/
inductive Kind where | csv | excel | ods
deriving DecidableEq, Repr

/-- The documented extensions. -/
def documented : List (String × Kind) :=
  [("csv", .csv), ("xlsx", .excel), ("xlsm", .excel), ("xltx", .excel), ("xltm", .excel), ("ods", .ods)]

def Kind.output (k : Kind) (p : Path) : Output :=
  match k with
  | .csv => .csv p
  | .excel => .excel p
  | .ods => .openDocument p

/-- C45: a documented extension, in any mixture of cases, selects its target. -/
theorem C45_documented {alnum : Char → Bool} {dir : Option Text} {f stem ext : Text} (h : HasExt f stem ext) {name : String} {k : Kind}
    (hk : (name, k) ∈ documented) (he : ext.map Char.toLower = name.toList) :
    outputOf alnum none (some (Path.ofText (inDir dir f))) = some (k.output (Path.ofText (inDir dir f))) := by
  have hc : (Path.ofText (inDir dir f)).comps = (dirPath dir).comps ++ [f] := by rw [ofText_inDir h.fileName]
  rw [outputOf, fromFilename, extension_last hc h.fileName, h.split]
  simp only [documented, List.mem_cons, Prod.mk.injEq, List.not_mem_nil, or_false] at hk
  rcases hk with ⟨rfl, rfl⟩ | ⟨rfl, rfl⟩ | ⟨rfl, rfl⟩ | ⟨rfl, rfl⟩ | ⟨rfl, rfl⟩ | ⟨rfl, rfl⟩ <;>
    simp only [Option.isSome_some, if_true, csvExtension, excelExtension, odsExtension, eqIgnoreCase, he] <;> rfl

/-- C45: any other extension is an error. -/
theorem C45_other {alnum : Char → Bool} {dir : Option Text} {f stem ext : Text} (h : HasExt f stem ext)
    (hn : ∀ x ∈ documented, ext.map Char.toLower ≠ x.1.toList) : outputOf alnum none (some (Path.ofText (inDir dir f))) = none := by
  have hc : (Path.ofText (inDir dir f)).comps = (dirPath dir).comps ++ [f] := by rw [ofText_inDir h.fileName]
  rw [outputOf, fromFilename, extension_last hc h.fileName, h.split]
  simp only [documented, List.mem_cons, List.not_mem_nil, or_false, forall_eq_or_imp, forall_eq] at hn
  obtain ⟨h1, h2, h3, h4, h5, h6⟩ := hn
  have e : ∀ s : String, s.toList.map Char.toLower = s.toList → ext.map Char.toLower ≠ s.toList → eqIgnoreCase ext s.toList = false := by
    intro s hs hne
    rw [eqIgnoreCase, hs, beq_eq_false_iff_ne]; exact hne
  simp only [Option.isSome_some, if_true, csvExtension, excelExtension, odsExtension, e _ (by decide) h1, e _ (by decide) h2, e _ (by decide) h3,
    e _ (by decide) h4, e _ (by decide) h5, e _ (by decide) h6, Bool.or_self, Bool.false_eq_true, if_false]

/-- C45: a name without an extension is an error: one without a dot, or with only a leading one. -/
theorem C45_no_extension {alnum : Char → Bool} {dir : Option Text} {f : Text} (h : FileName f) (hd : '.' ∉ f ∨ ∃ g, f = '.' :: g ∧ '.' ∉ g) :
    outputOf alnum none (some (Path.ofText (inDir dir f))) = none := by
  have hc : (Path.ofText (inDir dir f)).comps = (dirPath dir).comps ++ [f] := by rw [ofText_inDir h]
  rw [outputOf, fromFilename, extension_last hc h]
  rcases hd with hd | ⟨g, rfl, hd⟩
  · rw [rsplitDot_none hd]; rfl
  · rw [rsplitDot_hidden hd]; rfl

/-- C45: a Google sheet id goes before a file name, and must be made of letters and digits. -/
theorem C45_google {alnum : Char → Bool} {id : Text} {p : Option Path} :
    outputOf alnum (some id) p = if ∀ c ∈ id, alnum c = true then some (.googleSheets id) else none := by
  rw [outputOf, fromGoogleSheetId]
  by_cases h : ∀ c ∈ id, alnum c = true
  · rw [if_pos h, if_pos (List.all_eq_true.mpr h)]
  · rw [if_neg h, if_neg (by rw [List.all_eq_true]; exact h)]

/-- C45: without either there is an error. -/
theorem C45_neither {alnum : Char → Bool} : outputOf alnum none none = none := rfl

example : HasExt "my.sheet.XLSX".toList "my.sheet".toList "XLSX".toList ∧ ("xlsx", Kind.excel) ∈ documented ∧
    "XLSX".toList.map Char.toLower = "xlsx".toList := by
  unfold HasExt; decide

end Verif.Target
