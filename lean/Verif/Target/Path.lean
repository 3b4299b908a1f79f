import Verif.Text
import Mathlib.Data.List.TakeDrop
import Mathlib.Tactic.Common
/-
The part of Rust's `std::path` (Unix) that the code uses, as documented.  A path is read once into its
components; two spellings of the same components are the same path.
-/
namespace Verif.Target

/-- A path: whether it begins with `/`, and its components (`..` and a leading `.` included). -/
structure Path where
  root : Bool
  comps : List Text
deriving DecidableEq, Repr

/-- `Path::components`: empty components and all `.` but a leading one are skipped. -/
def Path.ofText (s : Text) : Path :=
  let root := s.head? = some '/'
  match s.splitOn '/' with
  | [] => ⟨root, []⟩
  | c :: cs => ⟨root, (if c = [] then [] else [c]) ++ cs.filter fun c => c ≠ [] ∧ c ≠ ['.']⟩

/-- `Path::parent`. -/
def Path.parent (p : Path) : Option Path := if p.comps = [] then none else some ⟨p.root, p.comps.dropLast⟩

/-- `Path::file_name`: the last component unless it is `..` (or the whole path is `.`). -/
def Path.fileName (p : Path) : Option Text :=
  match p.comps.getLast? with
  | none => none
  | some c => if c = ['.', '.'] ∨ c = ['.'] then none else some c

/-- The private function `rsplit_file_at_dot` of `std::path`: what is before and after the last dot. -/
def rsplitDot (f : Text) : Option Text × Option Text :=
  if f = ['.', '.'] then (some f, none)
  else
    match f.reverse.span (· != '.') with
    | (after, '.' :: before) => if before = [] then (some f, none) else (some before.reverse, some after.reverse)
    | (_, _) => (none, some f)

/-- `Path::file_stem`. -/
def Path.fileStem (p : Path) : Option Text := p.fileName.bind fun f => (rsplitDot f).1.or (rsplitDot f).2

/-- `Path::extension`. -/
def Path.extension (p : Path) : Option Text := p.fileName.bind fun f => if (rsplitDot f).1.isSome then (rsplitDot f).2 else none

/-- `PathBuf::set_extension`. -/
def Path.setExtension (p : Path) (ext : Text) : Path :=
  match p.fileStem with
  | none => p
  | some stem => ⟨p.root, p.comps.dropLast ++ [if ext = [] then stem else stem ++ '.' :: ext]⟩

/-- `Path::join` and `PathBuf::push`. -/
def Path.join (p q : Path) : Path :=
  if q.root then q
  else if p.comps = [] ∧ p.root = false then q
  else ⟨p.root, p.comps ++ q.comps.filter (· ≠ ['.'])⟩

/-! ### File names -/

theorem span_no {f : Text} (h : '.' ∉ f) (r : Text) : (f ++ '.' :: r).span (· != '.') = (f, '.' :: r) := by
  induction f with
  | nil => rw [List.nil_append, List.span_eq_takeWhile_dropWhile]; simp
  | cons c f ih =>
    rw [List.mem_cons, not_or] at h
    have := ih h.2
    rw [List.span_eq_takeWhile_dropWhile] at this ⊢
    simp only [Prod.mk.injEq] at this
    have hc : (c != '.') = true := by simp [bne_iff_ne, Ne.symm h.1]
    rw [List.cons_append, List.takeWhile_cons, List.dropWhile_cons, if_pos hc, if_pos hc, this.1, this.2]

theorem span_all {f : Text} (h : '.' ∉ f) : f.span (· != '.') = (f, []) := by
  rw [List.span_eq_takeWhile_dropWhile]
  induction f with
  | nil => rfl
  | cons c f ih =>
    rw [List.mem_cons, not_or] at h
    have := ih h.2
    simp only [Prod.mk.injEq] at this
    have hc : (c != '.') = true := by simp [bne_iff_ne, Ne.symm h.1]
    rw [List.takeWhile_cons, List.dropWhile_cons, if_pos hc, if_pos hc, this.1, this.2]

/-- A name with a last dot that something is before. -/
theorem rsplitDot_dot {stem ext : Text} (hs : stem ≠ []) (he : '.' ∉ ext) (hdd : stem ++ '.' :: ext ≠ ['.', '.']) :
    rsplitDot (stem ++ '.' :: ext) = (some stem, some ext) := by
  rw [rsplitDot, if_neg hdd]
  have hr : (stem ++ '.' :: ext).reverse = ext.reverse ++ '.' :: stem.reverse := by simp
  rw [hr, span_no (by simpa using he)]
  simp [hs]

/-- A name without a dot, but a leading one. -/
theorem rsplitDot_none {name : Text} (h : '.' ∉ name) : rsplitDot name = (none, some name) := by
  rw [rsplitDot, if_neg (by rintro rfl; simp at h), span_all (by simpa using h)]

theorem rsplitDot_hidden {name : Text} (h : '.' ∉ name) : rsplitDot ('.' :: name) = (some ('.' :: name), none) := by
  rw [rsplitDot]
  split
  · rfl
  · have hr : ('.' :: name).reverse = name.reverse ++ '.' :: [] := by simp
    rw [hr, span_no (by simpa using h)]
    simp

/-- A plain file name: it can be the last component of a path. -/
def FileName (f : Text) : Prop := f ≠ [] ∧ '/' ∉ f ∧ f ≠ ['.'] ∧ f ≠ ['.', '.']

theorem split_name {f : Text} (h : '/' ∉ f) : f.splitOn '/' = [f] := by
  rw [List.splitOn_eq_splitOnP]
  apply List.splitOnP_eq_singleton
  intro c hc
  rw [beq_eq_false_iff_ne]; rintro rfl; exact h hc

theorem ofText_name {f : Text} (h : FileName f) : Path.ofText f = ⟨false, [f]⟩ := by
  simp only [Path.ofText, split_name h.2.1]
  rw [if_neg h.1]
  have : f.head? ≠ some '/' := by
    cases f with
    | nil => simp
    | cons c f => rintro h'; cases h'; exact h.2.1 List.mem_cons_self
  simp [this]

/-- The path of a file `f` in the directory `dir`. -/
theorem ofText_slash {f : Text} (h : FileName f) (dir : Text) :
    Path.ofText (dir ++ '/' :: f) = ⟨(Path.ofText (dir ++ ['/'])).root, (Path.ofText (dir ++ ['/'])).comps ++ [f]⟩ := by
  have hs : (dir ++ '/' :: f).splitOn '/' = dir.splitOn '/' ++ [f] := by
    rw [List.splitOn_eq_splitOnP, List.splitOnP_append_cons _ _ (by simp), ← List.splitOn_eq_splitOnP,
      ← List.splitOn_eq_splitOnP, split_name h.2.1]
  have hs' : (dir ++ ['/']).splitOn '/' = dir.splitOn '/' ++ [[]] := by
    rw [List.splitOn_eq_splitOnP, List.splitOnP_append_cons _ _ (by simp), ← List.splitOn_eq_splitOnP]
    rfl
  have hh : (dir ++ '/' :: f).head? = (dir ++ ['/']).head? := by cases dir <;> rfl
  simp only [Path.ofText, hs, hs', hh]
  cases hd : dir.splitOn '/' with
  | nil => exact absurd hd (List.splitOn_ne_nil _ _)
  | cons c cs => simp [h.1, h.2.2.1]

theorem fileName_last {p : Path} {f : Text} {cs : List Text} (hc : p.comps = cs ++ [f]) (h : FileName f) : p.fileName = some f := by
  rw [Path.fileName, hc, List.getLast?_append]
  simp [h.2.2.1, h.2.2.2]

end Verif.Target
