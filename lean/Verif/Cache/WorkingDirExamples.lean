import Verif.Cache.WorkingDirProps
import Verif.Cache.Examples
/-
C91, concrete cases.
-/
namespace Verif.Cache.Examples
open Verif.Ast Verif.Loader Verif.Sheet Verif.Cell Verif.Loader.Examples
open Verif.Target (Path sourceFile)

/-- Two directories with modules of the same names: in `/A` the module `b` says `x := 1`, in `/B` it says `x := 2`. -/
def dirA : List Text := [['A']]
def dirB : List Text := [['B']]
def two : Disk Parsed :=
  ⟨fun q => if q = srcAt dirA ['m'] ∨ q = srcAt dirB ['m'] then some (mFile, 0)
    else if q = srcAt dirA ['b'] then some (bFile 1, 0) else if q = srcAt dirB ['b'] then some (bFile 2, 0) else none, fun _ => none⟩

/-- `m.csvpp`, `b.csvpp`, `/B/m.csvpp`. -/
def mPath : Path := ⟨false, ["m.csvpp".toList]⟩
def bPath : Path := ⟨false, ["b.csvpp".toList]⟩
def mInB : Path := ⟨true, [['B'], "m.csvpp".toList]⟩

/-- The module `b` in an object file. -/
def bObj (n k : Int) : Module Parsed := ⟨1, [], bScope n, ⟨[], false⟩, bFile k, false, true⟩
/-- The module `m` from its source file. -/
def mSrc : Module Parsed := ⟨1, [pB], Scope.empty, sheet (.ref x), mFile, false, true⟩

/-- Compiling `m` from its source file. -/
theorem compileAt_m {disk : Disk Parsed} {cwd : List Text} {input f : Path} {s : Stored Parsed} {n : Int} {d : Bool}
    (hm : readMain parse 1 disk cwd input = .ok ⟨mSrc, f⟩) (hb : readDep parse 1 disk cwd true input pMain pB = .ok s)
    (hs : s.module.toMod = ⟨[], bScope n, d, true⟩) :
    CompileAt parse 1 disk cwd true noKv input pMain (.ok (done (.int false none n)))
      [writtenAt cwd ⟨{ s.module with scope := bScope n }, s.filename⟩, writtenAt cwd ⟨mObj n, f⟩] := by
  refine ⟨[(pB, bScope n)], some (mObj n), ?_, ?_⟩
  · have hen : IsEnum [(x, .int false none n)] (mScope n).variables := by rw [mScope_eq]; exact single_enum x _
    have hm' : (mergeVariables (mScope n) [] [(x, .int false none n)]).variables = single x (.int false none n) := by
      funext k
      simp [mergeVariables, collect, single]
    have hsv : sheetVars ⟨[⟨{}, none, [⟨some (.ref x), ⟨⟨0, 0⟩, [], []⟩, [], {}⟩]⟩], true⟩ = fun _ => none := by
      funext k
      simp [sheetVars, insertions, rowVar, cellVars, Verif.Sheet.cellVar, collect]
    refine .eval (main := mSrc) (s₁ := ⟨[⟨{}, none, [⟨some (.ref x), ⟨⟨0, 0⟩, [], []⟩, [], {}⟩]⟩], true⟩) (sheet := []) (own := [(x, .int false none n)]) (e := [])
      (own' := [(x, .int false none n)]) (by rw [hm]; rfl) (load_b (d := d) rfl (by rw [hb]; show Except.ok s.module.toMod = _; rw [hs])) rfl ?_ ?_ hen empty_enum ?_ ?_
    · rfl
    · rw [hsv]; exact empty_enum
    · have := single_enum x (.int false none n)
      rw [← hm'] at this; exact this
    · refine .ok (.cons ⟨_, .formula rfl (eval_x ?_) .nil, rfl⟩ .nil)
      simp [evalScope, mergeVariables, collect]
  · simp only [List.flatMap_cons, List.flatMap_nil, writtenDep, if_true, hb, writtenMain, hm, List.append_nil, List.cons_append, List.nil_append]

/-- What is on the disk after compiling `m.csvpp` in both directories. -/
def writesIn (d : List Text) (n k : Int) : List (List Text × Stored Parsed) := [(objAt d ['b'], ⟨bObj n k, bPath⟩), (objAt d ['m'], ⟨mObj n, mPath⟩)]
def disk1 : Disk Parsed := two.writeAll 1 (writesIn dirA 1 1)
def disk2 : Disk Parsed := disk1.writeAll 2 (writesIn dirB 2 2)
def disk3 : Disk Parsed := disk2.writeAll 3 [(objAt dirA ['b'], ⟨bObj 2 2, bPath⟩)]
def disk4 : Disk Parsed := ⟨fun q => if q = srcAt dirA ['m'] then some (mFile, 4) else disk3.src q, disk3.obj⟩

theorem run1 : CompileAt parse 1 two dirA true noKv mPath pMain (.ok (done (.int false none 1))) (writesIn dirA 1 1) :=
  compileAt_m (s := ⟨bObj 1 1, bPath⟩) (d := false) (f := mPath) rfl rfl rfl
theorem run2 : CompileAt parse 1 disk1 dirB true noKv mPath pMain (.ok (done (.int false none 2))) (writesIn dirB 2 2) :=
  compileAt_m (s := ⟨bObj 2 2, bPath⟩) (d := false) (f := mPath) rfl rfl rfl
theorem run3 : CompileAt parse 1 disk2 dirA true noKv mInB pMain (.ok (done (.int false none 2))) [(objAt dirA ['b'], ⟨bObj 2 2, bPath⟩)] := by
  have hb : readDep parse 1 disk2 dirA true mInB pMain pB = .ok ⟨bObj 2 2, bPath⟩ := rfl
  refine ⟨[(pB, bScope 2)], none, .cached (main := mObj 2) rfl (load_b (n := 2) (d := false) rfl ?_) rfl, ?_⟩
  · rw [hb]; rfl
  · simp only [List.flatMap_cons, List.flatMap_nil, writtenDep, if_true, hb, writtenMain]
    rfl
theorem run4 : CompileAt parse 1 disk4 dirA true noKv mPath pMain (.ok (done (.int false none 2))) (writesIn dirA 2 2) :=
  compileAt_m (s := ⟨bObj 2 2, bPath⟩) (d := false) (f := mPath) rfl rfl rfl
theorem run4' : CompileAt parse 1 ⟨disk4.src, fun _ => none⟩ dirA true noKv mPath pMain (.ok (done (.int false none 1))) (writesIn dirA 1 1) :=
  compileAt_m (s := ⟨bObj 1 1, bPath⟩) (d := false) (f := mPath) rfl rfl rfl

/-- C91, a wrong result.  `m.csvpp` is compiled in `/A` and in `/B`; then `/B/m.csvpp` is compiled in `/A`; then `/A/m.csvpp` is saved again, as it was, and compiled in
`/A`: it gets the value that `/B/b.csvpp` says.  Without object files it gets the value that `/A/b.csvpp` says. -/
theorem C91_wrong_result : ∃ (w₁ w₂ w₃ w₄ w₅ : List (List Text × Stored Parsed)) (a b : Sheet) (disk : Disk Parsed),
    CompileAt parse 1 two dirA true noKv mPath pMain (.ok a) w₁ ∧
    CompileAt parse 1 (two.writeAll 1 w₁) dirB true noKv mPath pMain (.ok b) w₂ ∧
    CompileAt parse 1 ((two.writeAll 1 w₁).writeAll 2 w₂) dirA true noKv mInB pMain (.ok b) w₃ ∧
    disk = ((two.writeAll 1 w₁).writeAll 2 w₂).writeAll 3 w₃ ∧
    CompileAt parse 1 ⟨fun q => if q = srcAt dirA ['m'] then some (mFile, 4) else disk.src q, disk.obj⟩ dirA true noKv mPath pMain (.ok b) w₄ ∧
    CompileAt parse 1 ⟨fun q => if q = srcAt dirA ['m'] then some (mFile, 4) else disk.src q, fun _ => none⟩ dirA true noKv mPath pMain (.ok a) w₅ ∧ a ≠ b :=
  ⟨_, _, _, _, _, _, _, _, run1, run2, run3, rfl, run4, run4', fun h => by have := done_inj 1 2 h; omega⟩

/-- The same commands with absolute paths satisfy `C91_absolute_partial`: here the state after the first. -/
def aPath : Path := ⟨true, [['A'], "m.csvpp".toList]⟩
def abPath : Path := ⟨true, [['A'], "b.csvpp".toList]⟩
example : ∃ disk : Disk Parsed, Runs parse 1 (fun _ input => input.root = true) disk ∧ disk.obj (objAt dirA ['m']) ≠ none ∧
    IsFile dirB aPath dirA ['m'] ∧ IsFile dirA mPath dirA ['m'] ∧ Plain ['m'] ∧
    ∃ s w, CompileAt parse 1 disk dirB true noKv aPath [['m']] (.ok s) w := by
  have h1 : CompileAt parse 1 two dirB true noKv aPath pMain (.ok (done (.int false none 1))) [(objAt dirA ['b'], ⟨bObj 1 1, abPath⟩), (objAt dirA ['m'], ⟨mObj 1, aPath⟩)] :=
    compileAt_m (s := ⟨bObj 1 1, abPath⟩) (d := false) (f := aPath) rfl rfl rfl
  have hp : Plain ['m'] := by unfold Plain; decide
  have hf : IsFile dirB aPath dirA ['m'] := ⟨true, [['A']], rfl, rfl⟩
  have hb : readDep parse 1 (two.writeAll 1 [(objAt dirA ['b'], ⟨bObj 1 1, abPath⟩), (objAt dirA ['m'], ⟨mObj 1, aPath⟩)]) dirB true aPath [['m']] pB =
      .ok ⟨bObj 1 1, abPath⟩ := rfl
  refine ⟨_, .run (t := 1) (d := dirA) (n := ['m']) (cwd := dirB) (input := aPath) (.start (disk := two) fun _ => rfl) rfl hf hp h1, ?_, hf, ⟨false, [], rfl, rfl⟩, hp,
    done (.int false none 1), _, [(pB, bScope 1)], none, .cached (main := mObj 1) rfl (load_b (n := 1) (d := false) rfl ?_) rfl, rfl⟩
  · intro h; cases h
  · rw [hb]; rfl

end Verif.Cache.Examples
