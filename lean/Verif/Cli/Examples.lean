import Verif.Cli.Props
/-
Concrete cases of C79 and C80.
-/
namespace Verif.Cli
open Verif.Ast Verif.Loader Verif.Sheet Verif.Cache Verif.Csvp.Spec
open Verif.Cell hiding Target
open Verif.Target hiding MPath
open Verif.Parser (Stmt Line codeText stmts)

/-- `csv++ --safe -o out.csv -k … sheet.csvpp`. -/
def exampleArgs (safe : Bool) (kvs : List Text) : Args :=
  ⟨⟨false, none, false, some (Path.ofText "out.csv".toList), safe, none, 0, 0, 0, Path.ofText (inDir none "sheet.csvpp".toList)⟩, kvs⟩

theorem exampleSetup (E : Env) (safe : Bool) (kvs : List Text) (l : List (Text × Ast)) (h : Parser.parseKeyValues E.uni E.f64 kvs = some l) :
    Setup E (exampleArgs safe kvs) ["sheet".toList] (Path.ofText "out.csv".toList) (collect l) := by
  refine ⟨⟨none, "sheet.csvpp".toList, "sheet".toList, rfl, by unfold FileName; decide, .inl ⟨"csvpp".toList, by unfold HasExt; decide⟩⟩, ?_, ?_, ⟨l, h, rfl⟩, by show (0 : Nat) ≤ 4; decide⟩
  · show mainModulePath (Path.ofText (inDir none "sheet.csvpp".toList)) = _
    decide
  · show outputOf E.alnum none (some _) = _
    simp only [outputOf]
    decide

/-- A target that is there already, with one row. -/
def exampleFiles : Files Text := fun q => if q = Path.ofText "out.csv".toList then some "old,\n".toList else none

def exampleFs (src : Text) : FS Text := ⟨fun m => if m = ["sheet".toList] then some (src, 7) else none, fun _ => none⟩

theorem exampleFresh (src : Text) : Fresh (exampleFs src) ["sheet".toList] src := ⟨7, rfl, by intro o t h; cases h⟩

def plainText : Text := " a b ,,c\n# comment\n\nd\n".toList

theorem plainText_plain : PlainCsv plainText := by
  refine ⟨by decide, by decide, by decide, ?_⟩
  have h : naive ',' plainText = [["a b".toList, [], "c".toList], [[]], ["d".toList]] := by decide
  rw [h]
  unfold NoList NoMark
  decide

/-- C79 on the example: with `--safe`, the first cell is kept and the others are new. -/
example (E : Env) (version : Nat) (e : Option Exit) (states : List (Files Text)) (w : List (MPath × Module Text))
    (h : Main E version [] (fun _ => []) [] (exampleArgs true []) (exampleFs plainText) exampleFiles e states w) :
    e = some .success ∧ ∃ final out, states.getLast? = some final ∧ Wrote exampleFiles final (Path.ofText "out.csv".toList) out ∧
      cellAt (csvRead out) 0 0 = "old".toList ∧ cellAt (csvRead out) 0 2 = "c".toList ∧ cellAt (csvRead out) 2 0 = "d".toList := by
  have h0 : cellAt (rowsOf (exampleFiles (Path.ofText "out.csv".toList))) 0 0 = "old".toList := by decide
  obtain ⟨-, h1⟩ := C79_plain version [] (fun _ => []) [] (exampleSetup E true [] [] rfl) (by intro h; cases h) (exampleFresh plainText) plainText_plain
    (files := exampleFiles) (by rw [h0]; unfold NoMark; decide)
  obtain ⟨h2, -, final, out, h3, h4, -, h5, -⟩ := h1 e states w h
  refine ⟨h2, final, out, h3, h4, ?_, ?_, ?_⟩
  · rw [h5 0 0 _ _ (by rfl) (by rfl), if_pos ⟨rfl, by rw [h0]; decide⟩, h0]
  · rw [h5 0 2 _ _ (by rfl) (by rfl), if_neg (by decide)]; decide
  · rw [h5 2 0 _ _ (by rfl) (by rfl), if_neg (by decide)]; decide

def codeLines : List Line :=
  [⟨[], some (.var "x".toList (.int false none 1)), none⟩,
   ⟨[], some (.var "y".toList (.infix (.ref "x".toList) "+".toList (.ref "k".toList))), some " uses x".toList⟩]

def programText : Text := "x := 1\ny := (x + k) # uses x\n---\n=(y * z),ok\n".toList

theorem program_file (E : Env) : SourceFile E codeLines "=(y * z),ok".toList programText := by
  have nm : ∀ n ∈ ["x".toList, "y".toList, "k".toList], Parser.Name E.uni n := by
    intro n hn
    simp only [List.mem_cons, List.not_mem_nil, or_false] at hn
    rcases hn with rfl | rfl | rfl <;> exact Parser.name_ascii E.uni (by decide)
  have rf : ∀ n, Parser.Name E.uni n → Parser.Printable E.uni E.f64 (.ref n) := fun n h => .ref h.1 h.2
  refine ⟨?_, ?_, by decide +kernel, by decide +kernel, by decide, "=(y * z),ok\n".toList, .inl (by decide), by decide +kernel⟩
  · intro l hl
    simp only [codeLines, List.mem_cons, List.not_mem_nil, or_false] at hl
    rcases hl with rfl | rfl
    · exact ⟨by simp, by intro s hs; cases hs; exact ⟨nm _ (by decide), .int (v := 1) (by decide)⟩, by simp⟩
    · exact ⟨by simp, by
        intro s hs; cases hs
        exact ⟨nm _ (by decide), .infix (by decide) (rf _ (nm _ (by decide))) (rf _ (nm _ (by decide)))⟩, by intro t ht; cases ht; decide⟩
  · intro m hm
    simp [codeLines, stmts] at hm


theorem example_values (E : Env) : Parser.parseKeyValues E.uni E.f64 ["k=2".toList] = some [("k".toList, .int false none 2)] := by rfl

theorem example_cells : Csvp.Spec.values (Csvp.parse ⟨',', 0⟩ "=(y * z),ok".toList) = some [["=(y * z)".toList, "ok".toList]] := by decide

theorem example_formula (E : Env) : Parser.parse E.uni E.f64 "=(y * z)".toList = .ok (.infix (.ref "y".toList) "*".toList (.ref "z".toList)) :=
  Parser.C12_display_parses E.uni E.f64 (.infix (.ref "y".toList) "*".toList (.ref "z".toList))
    (.infix (by decide) (.ref (Parser.name_ascii E.uni (by decide)).1 (by decide)) (.ref (Parser.name_ascii E.uni (by decide)).1 (by decide)))

theorem example_assignments (E : Env) : Assignments E (exampleArgs false ["k=2".toList]) codeLines [["=(y * z)".toList, "ok".toList]]
    [("k".toList, .int false none 2)] [("x".toList, .int false none 1), ("y".toList, .infix (.ref "x".toList) "+".toList (.ref "k".toList))] := by
  refine ⟨example_values E, rfl, ?_, ?_⟩
  · refine ⟨by decide, (by intro x hx; cases hx), by decide, (by intro x hx; cases hx), by decide, ?_, trivial⟩
    intro x hx
    exact ⟨by rintro rfl; revert hx; decide, by simp⟩
  · intro r hr v hv
    obtain rfl := List.mem_singleton.mp hr
    rcases List.mem_cons.mp hv with rfl | hv
    · exact ⟨by unfold NoList; decide, by unfold NoMark; decide, fun _ => ⟨_, example_formula E⟩⟩
    · obtain rfl := List.mem_singleton.mp hv
      exact ⟨by unfold NoList; decide, by unfold NoMark; decide, fun h => absurd h (by decide)⟩

/-- C80 on the example with `-k k=2`: `=(y * z)` is shown as `=((1 + 2) * z)`. -/
theorem example_run (E : Env) (version : Nat) (e : Option Exit) (states : List (Files Text)) (w : List (MPath × Module Text))
    (h : Main E version [] (fun _ => []) [] (exampleArgs false ["k=2".toList]) (exampleFs programText) exampleFiles e states w) :
    e = some .success ∧ ∃ final out, states.getLast? = some final ∧ Wrote exampleFiles final (Path.ofText "out.csv".toList) out ∧
      cellAt (csvRead out) 0 0 = "=((1 + 2) * z)".toList ∧ cellAt (csvRead out) 0 1 = "ok".toList := by
  have h0 : NoMark (cellAt (rowsOf (exampleFiles (Path.ofText "out.csv".toList))) 0 0) := by unfold NoMark; decide
  obtain ⟨h2, -, final, out, h3, h4, -, h5⟩ := (C80_assignments version [] (fun _ => []) [] (exampleSetup E false _ _ (example_values E)) (by intro h; cases h)
    (program_file E) (exampleFresh programText) example_cells (example_assignments E) (files := exampleFiles) h0).2 e states w h
  have hsafe : (exampleArgs false ["k=2".toList]).safe = false := rfl
  refine ⟨h2, final, out, h3, h4, ?_, ?_⟩
  · obtain ⟨t, ⟨-, ht⟩, h6⟩ := h5 0 0 _ _ rfl rfl
    rw [h6, hsafe, if_neg (by simp), ht _ rfl (example_formula E)]
    decide +kernel
  · obtain ⟨t, ⟨ht, -⟩, h6⟩ := h5 0 1 _ _ rfl rfl
    rw [h6, hsafe, if_neg (by simp), ht (by decide)]

end Verif.Cli
