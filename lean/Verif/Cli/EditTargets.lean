import Verif.Cli.EditModules
import Verif.Cli.Workbook
import Verif.Target.GoogleProps
/-
Editing the cells of a main file, whatever the target (C103, C105, C106, C112).
-/
namespace Verif.Cli
open Verif.Ast Verif.Loader Verif.Sheet Verif.Cache Verif.Csvp.Spec
open Verif.Cell hiding Target
open Verif.Target hiding MPath

/-! ## Specification -/

/-- Row `i` and column `j` of `s` and row `i'` and column `j'` of `t` are cells with the same formula, text and options. -/
def SameAt (s : Sheet) (i j : Nat) (t : Sheet) (i' j' : Nat) : Prop :=
  ∃ c c', sheetCell s i j = some c ∧ sheetCell t i' j' = some c' ∧ c'.ast = c.ast ∧ c'.value = c.value ∧ c'.opts = c.opts

/-- `s` and `t` are written in the same way to every kind of target: the same CSV file, the same workbook, the same requests to Google Sheets. -/
def WrittenAlike (s t : Sheet) : Prop :=
  (∀ overwrite file, writeCsv overwrite t file = writeCsv overwrite s file) ∧
  (∀ den overwrite name file, writeExcel den overwrite name t file = writeExcel den overwrite name s file) ∧
  ∀ overwrite offset rows, requests overwrite offset t rows = requests overwrite offset s rows

/-! ## Proofs -/

section
variable {E : Env} {version : Nat} {noCache : Bool} {fs : FS Text} {mp : MPath} {src : Text} {kv : Text → Option Ast} {m : Parsed}

theorem eval_of_compile (hf : Fresh fs mp src) (hp : parseModule E src = .ok m) {s : Sheet} {w : List (MPath × Module Text)}
    (h : Compile (parseModule E) version (!noCache) kv fs mp (.ok s) w) : ∃ sc, InForce E version noCache fs mp src sc ∧ EvalSheet sc kv m.sheet (.ok s) := by
  obtain ⟨w', lo, k1, k2 | ⟨sc, rfl, ⟨k2, -⟩ | ⟨s', k2, k3⟩⟩⟩ := (compile_fresh hf hp _).mp ⟨w, h⟩
  · cases lo <;> cases k2
  · cases k2
  · cases k2
    exact ⟨sc, ⟨w', m, hp, k1⟩, k3⟩

theorem compile_of_eval (hf : Fresh fs mp src) (hp : parseModule E src = .ok m) {sc : Scope} (hi : InForce E version noCache fs mp src sc) {s : Sheet}
    (h : EvalSheet sc kv m.sheet (.ok s)) : ∃ w, Compile (parseModule E) version (!noCache) kv fs mp (.ok s) w := by
  obtain ⟨w', m', k1, k2⟩ := hi
  rw [hp] at k1; cases k1
  exact (compile_fresh (version := version) (useCache := !noCache) (kv := kv) hf hp (.ok s)).mpr ⟨w', _, k2, .inr ⟨sc, rfl, .inr ⟨s, rfl, h⟩⟩⟩
end

theorem newCell_same {c c' : Cell} (h1 : c'.ast = c.ast) (h2 : c'.value = c.value) (h3 : c'.opts = c.opts) (ov : Bool) (o : Option XCell) : newCell ov o c' = newCell ov o c := by
  simp only [newCell, setValue, h1, h2, styleOf_opts h3]

theorem gNew_same {c c' : Cell} (h1 : c'.ast = c.ast) (h2 : c'.value = c.value) (h3 : c'.opts = c.opts) : gNew c' = gNew c := by
  simp only [gNew, gValue, h1, h2, h3]

/-- C103, one cell of a workbook: if two compiled sheets have the same cell in some place, then written to the same file the worksheets have the same cell there: the same value,
formula and format. -/
theorem C103_excel {s t : Sheet} {i j : Nat} (h : SameAt s i j t i j) {den : Text → DateVal} {ov : Bool} {name : Text} {file : Option Workbook} {b b' : Workbook}
    (hs : writeExcel den ov name s file = some b) (ht : writeExcel den ov name t file = some b') :
    ∃ ws ws', sheetNamed b name = some ws ∧ sheetNamed b' name = some ws' ∧ ws'.at i j = ws.at i j := by
  obtain ⟨c, c', h1, h2, h3, h4, h5⟩ := h
  obtain ⟨w₀, ws, k1, k2, k3⟩ := changeSheet_same hs
  obtain ⟨w₁, ws', l1, l2, l3⟩ := changeSheet_same ht
  rw [k1] at l1; cases l1
  refine ⟨ws, ws', k3, l3, ?_⟩
  rw [build_at k2, build_at l2, h1, h2]
  exact newCell_same h3 h4 h5 ..

/-- C103, one cell of a Google spreadsheet (with at most 1000 rows; C44 says what happens to more): likewise, with the note and the validation. -/
theorem C103_google_partial {s t : Sheet} {i j : Nat} (h : SameAt s i j t i j) {ov : Bool} {x y : Nat} {rows : List (List GData)} {g g' : GSheet}
    (hs : writeGoogle ov (x, y) s rows = some g) (ht : writeGoogle ov (x, y) t rows = some g') (hl : s.rows.length ≤ 1000) (hl' : t.rows.length ≤ 1000) :
    g' (x + i) (y + j) = g (x + i) (y + j) := by
  obtain ⟨c, c', h1, h2, h3, h4, h5⟩ := h
  rw [at_small hs hl, at_small ht hl', sent, sent, h1, h2]
  cases given rows i j with
  | none => exact gNew_same h3 h4 h5
  | some d => cases ov <;> first | rfl | exact gNew_same h3 h4 h5

/-! ## The theorems -/

section
variable {E : Env} {fs fs' : FS Text} {mp : MPath} {kv : Text → Option Ast} {noCache : Bool}
  {ls : List Parser.Line} {csv csv' src src' : Text} {rs rs' tops mids bottoms : List RowSrc} {k n : Nat}

/-- C103, whatever the target, with modules.  Edit the texts of some cells of a source file.  For every compiled sheet of the file, if the edited formulas have results, there
is one of the edited file with the same number of rows and, but for the edited cells, the same formulas, texts and options. -/
theorem C103_compile (P : Nat → Nat → Prop) (version : Nat) (hed : MainEdited fs fs' mp src src') (hsrc : ModuleFile E ls csv src) (hc : CellsSection E csv rs)
    (hsrc' : ModuleFile E ls csv' src') (hc' : CellsSection E csv' rs') (hsame : EditedSrc P rs rs') :
    ∃ rows rows', AreRows E rs rows ∧ AreRows E rs' rows' ∧ ∀ s w, Compile (parseModule E) version (!noCache) kv fs mp (.ok s) w →
      ∃ sc s₁, InForce E version noCache fs mp src sc ∧ evalFills ⟨rows, false⟩ = some s₁ ∧
        ((∀ before r after x c f, rows' = before ++ r :: after → P before.length x → r.cells[x]? = some c → c.ast = some f →
            ∀ i, i < copies rows' r → ∃ b, Eval (effective sc kv s₁) (some ⟨x, total rows' before + i⟩) f (.ok b)) →
          ∃ t w', Compile (parseModule E) version (!noCache) kv fs' mp (.ok t) w' ∧ t.rows.length = s.rows.length ∧
            ∀ before r after, rows = before ++ r :: after → ∀ i, i < copies rows r → ∀ x, x < r.cells.length → ¬ P before.length x →
              SameAt s (total rows before + i) x t (total rows before + i) x) := by
  obtain ⟨sc₀, rows, rows', hpm, hpm', r1, r1'⟩ := parse_both hsrc hc hsrc' hc'
  refine ⟨rows, rows', r1, r1', fun s w h => ?_⟩
  obtain ⟨sc, hin, hev⟩ := eval_of_compile hed.before hpm h
  obtain ⟨s₁, _, _, _, _, _, hfill, -⟩ := id hev
  refine ⟨sc, s₁, hin, hfill, fun hnew => ?_⟩
  obtain ⟨t, ht1, ht2, ht3⟩ := C103_edit (hsame.rows r1 r1') hfill hev hnew
  obtain ⟨w', hw'⟩ := compile_of_eval (version := version) (noCache := noCache) hed.after hpm' ((inForce_edited hed hpm hpm' rfl rfl).mpr hin) ht1
  refine ⟨t, w', hw', ht2, fun before r after e1 i hi x hx hP => ?_⟩
  obtain ⟨c, c', n1, n2, n3, n4, n5⟩ := ht3 before r after e1 i hi x hx hP
  exact ⟨c, c', n1, n2, n4, n3, n5⟩

/-- C105, whatever the target, with modules.  Insert rows without a fill and without names into a source file in which every fill has an amount.  For every compiled sheet of
the file, if the formulas of the inserted rows have results, there is one of the other file with the same rows, lower by the number of inserted rows if they are below them,
in which options and texts are the same, and formulas too, except that references by name follow their cells. -/
theorem C105_compile (version : Nat) (hed : MainEdited fs fs' mp src src') (hsrc : ModuleFile E ls csv src) (hc : CellsSection E csv (tops ++ bottoms))
    (hsrc' : ModuleFile E ls csv' src') (hc' : CellsSection E csv' (tops ++ mids ++ bottoms))
    (hu : ∀ r ∈ tops ++ bottoms, fillGiven r ≠ some none) (hm : ∀ r ∈ mids, fillGiven r = none ∧ NoNames r)
    (hfit : ((tops ++ bottoms).map srcCopies).sum + mids.length ≤ 1000) :
    ∃ rows rows', AreRows E (tops ++ bottoms) rows ∧ AreRows E (tops ++ mids ++ bottoms) rows' ∧ ∀ s w, Compile (parseModule E) version (!noCache) kv fs mp (.ok s) w →
      ∃ sc t₁, InForce E version noCache fs mp src sc ∧ evalFills ⟨rows', false⟩ = some t₁ ∧
        (NotLikeCells sc kv rows → (∀ (i x : Nat) r c f, i < mids.length → rows'[tops.length + i]? = some r → r.cells[x]? = some c → c.ast = some f →
            ∃ b, Eval (effective sc kv t₁) (some ⟨x, (tops.map srcCopies).sum + i⟩) f (.ok b)) →
          ∃ t w', Compile (parseModule E) version (!noCache) kv fs' mp (.ok t) w' ∧
            SameSheet (FollowsRef sc kv rows (lowered (tops.map srcCopies).sum mids.length)) (tops.map srcCopies).sum mids.length s t) := by
  obtain ⟨sc₀, rows, rows', hpm, hpm', r1, r1'⟩ := parse_both hsrc hc hsrc' hc'
  obtain ⟨mid, m1, m2, hins⟩ := inserted_src r1 r1' hu hm hfit
  refine ⟨rows, rows', r1, r1', fun s w h => ?_⟩
  obtain ⟨sc, hin, hev⟩ := eval_of_compile hed.before hpm h
  obtain ⟨s₁, _, _, _, _, _, hfill, -⟩ := id hev
  obtain ⟨A, B, A', B', -, hfill', -⟩ := hins.expand
  refine ⟨sc, _, hin, hfill', fun hn hnew => ?_⟩
  obtain ⟨t, ht1, ht2⟩ := C105_insert hins hfill hfill' hn hev fun i x r c f e1 e2 e3 =>
    hnew i x r c f (by rw [← m1]; exact (List.getElem?_eq_some_iff.mp e1).1) (by rw [← m2 i (List.getElem?_eq_some_iff.mp e1).1]; exact e1) e2 e3
  obtain ⟨w', hw'⟩ := compile_of_eval (version := version) (noCache := noCache) hed.after hpm' ((inForce_edited hed hpm hpm' rfl rfl).mpr hin) ht1
  exact ⟨t, w', hw', by rw [← m1]; exact ht2⟩

/-- C112, whatever the target, with modules.  Insert columns without names into a source file.  For every compiled sheet of the file, if the formulas of the inserted cells have
results, there is one of the other file with the same cells, further right by the number of inserted columns if they are behind them, in which options and texts are the
same, and formulas too, except that references by name follow their cells. -/
theorem C112_compile (version : Nat) (hed : MainEdited fs fs' mp src src') (hsrc : ModuleFile E ls csv src) (hc : CellsSection E csv rs)
    (hsrc' : ModuleFile E ls csv' src') (hc' : CellsSection E csv' rs') (hw : List.Forall₂ (WidenedSrc k n) rs rs') :
    ∃ rows rows', AreRows E rs rows ∧ AreRows E rs' rows' ∧ ∀ s w, Compile (parseModule E) version (!noCache) kv fs mp (.ok s) w →
      ∃ sc t₁, InForce E version noCache fs mp src sc ∧ evalFills ⟨rows', false⟩ = some t₁ ∧
        (NotLikeCells sc kv rows → (∀ (y x : Nat) r c f, k ≤ x → x < k + n → t₁.rows[y]? = some r → r.cells[x]? = some c → c.ast = some f →
            ∃ b, Eval (effective sc kv t₁) (some ⟨x, y⟩) f (.ok b)) →
          ∃ t w', Compile (parseModule E) version (!noCache) kv fs' mp (.ok t) w' ∧ SameColumns (FollowsCol sc kv rows (lowered k n)) k n s t) := by
  obtain ⟨sc₀, rows, rows', hpm, hpm', r1, r1'⟩ := parse_both hsrc hc hsrc' hc'
  have hins := areRows_widened hw r1 r1'
  refine ⟨rows, rows', r1, r1', fun s w h => ?_⟩
  obtain ⟨sc, hin, hev⟩ := eval_of_compile hed.before hpm h
  obtain ⟨s₁, _, _, _, _, _, hfill, -⟩ := id hev
  obtain ⟨t₁, hfill', -⟩ := widened_fills hins hfill
  refine ⟨sc, t₁, hin, hfill', fun hn hnew => ?_⟩
  obtain ⟨t, ht1, ht2⟩ := C112_insert hins hfill hfill' hn hev hnew
  obtain ⟨w', hw'⟩ := compile_of_eval (version := version) (noCache := noCache) hed.after hpm' ((inForce_edited hed hpm hpm' rfl rfl).mpr hin) ht1
  exact ⟨t, w', hw', ht2⟩

/-- C106, whatever the target, with modules.  Write out some fills, of rows that have no names, in a source file.  For every compiled sheet of either file there is one of the
other that is written in the same way, to every target: the same CSV file, the same workbook, the same requests to Google Sheets. -/
theorem C106_compile (version : Nat) (hed : MainEdited fs fs' mp src src') (hsrc : ModuleFile E ls csv src) (hc : CellsSection E csv rs)
    (hsrc' : ModuleFile E ls csv' src') (hc' : CellsSection E csv' rs')
    (hw : WrittenOutSrc (1000 - (rs.map srcCopies).sum) rs rs') (h2 : ¬ 2 ≤ srcUnbounded rs) :
    (∀ s w, Compile (parseModule E) version (!noCache) kv fs mp (.ok s) w → ∃ t w', Compile (parseModule E) version (!noCache) kv fs' mp (.ok t) w' ∧ WrittenAlike s t) ∧
    ∀ t w, Compile (parseModule E) version (!noCache) kv fs' mp (.ok t) w → ∃ s w', Compile (parseModule E) version (!noCache) kv fs mp (.ok s) w' ∧ WrittenAlike s t := by
  obtain ⟨sc₀, rows, rows', hpm, hpm', r1, r1'⟩ := parse_both hsrc hc hsrc' hc'
  have get : ∀ {rs rows}, AreRows E rs rows → ∀ (i : Nat) r row, rs[i]? = some r → rows[i]? = some row → IsRow E (0 + i) r row := by
    intro rs rows h i r row h1 h2
    obtain ⟨r', k1, k2⟩ := areRows_row h h2
    rw [h1] at k1; cases k1; rw [Nat.zero_add]; exact k2
  have hW : WrittenOut (1000 - bounded rows) rows rows' := by
    rw [part_copies 0 r1.1 (get r1)]
    exact writtenOut_src hw 0 0 r1.1 r1'.1 (get r1) (get r1')
  have key := fun sc => C106_sheet sc kv hW (by rw [areRows_unboundeds 0 r1.1 (get r1)]; exact h2)
  constructor
  · intro s w h
    obtain ⟨sc, hin, hev⟩ := eval_of_compile hed.before hpm h
    obtain ⟨o', q1, q2⟩ := (key sc).1 _ hev
    cases q2 with
    | ok q2 =>
      obtain ⟨w', hw'⟩ := compile_of_eval (version := version) (noCache := noCache) hed.after hpm' ((inForce_edited hed hpm hpm' rfl rfl).mpr hin) q1
      exact ⟨_, w', hw', writeCsv_equal q2, writeExcel_equal q2, requests_equal q2⟩
  · intro t w h
    obtain ⟨sc, hin, hev⟩ := eval_of_compile hed.after hpm' h
    obtain ⟨o', q1, q2⟩ := (key sc).2 _ hev
    cases q2 with
    | ok q2 =>
      obtain ⟨w', hw'⟩ := compile_of_eval (version := version) (noCache := noCache) hed.before hpm ((inForce_edited hed hpm hpm' rfl rfl).mp hin) q1
      exact ⟨_, w', hw', writeCsv_equal q2, writeExcel_equal q2, requests_equal q2⟩
end

/-! ## An example -/

namespace Lib

/-- For the compiled sheets of the file there are some of the edited file, of the same size. -/
example (E : Env) (version : Nat) (kv : Text → Option Ast) (s : Sheet) (w : List (MPath × Module Text))
    (h : Compile (parseModule E) version (!false) kv files ["sheet".toList] (.ok s) w) :
    ∃ t w', Compile (parseModule E) version (!false) kv editedFiles ["sheet".toList] (.ok t) w' ∧ t.rows.length = s.rows.length := by
  have hed : EditedSrc (fun _ _ => True) [row] [⟨[], [([], "done".toList)]⟩] := by
    refine ⟨rfl, fun y r r' e1 e2 => ?_, fun y x r r' c c' e1 e2 e3 e4 => ?_⟩
    · match y with
      | 0 => cases e1; cases e2; exact ⟨rfl, rfl⟩
      | n + 1 => cases e1
    · match y with
      | 0 =>
        cases e1; cases e2
        match x with
        | 0 => cases e3; cases e4; exact ⟨rfl, fun h => absurd trivial h⟩
        | n + 1 => cases e3
      | n + 1 => cases e1
  obtain ⟨rows, rows', -, k3, k4⟩ := C103_compile (fun _ _ => True) (kv := kv) (noCache := false) version edited
    (main_file E) (main_cells E) (edited_main E) (edited_cells E) hed
  obtain ⟨sc, s₁, -, -, k5⟩ := k4 s w h
  obtain ⟨t, w', n1, n2, -⟩ := k5 fun before q after x c f e1 hx hc ha => by
    exfalso
    have hq : rows'[before.length]? = some q := by rw [e1]; simp
    obtain ⟨r, o1, o2⟩ := areRows_row k3 hq
    have ho : before.length < 1 := (List.getElem?_eq_some_iff.mp o1).1
    rw [show before.length = 0 by omega] at o1 o2
    cases o1
    obtain ⟨d, o3, -, -, o4⟩ := isRow_cell o2 hc
    match x with
    | 0 =>
      obtain rfl : ([], "done".toList) = d := Option.some.inj o3
      rw [ha, show formulaOf E "done".toList = none from if_neg (by decide)] at o4
      cases o4
    | n + 1 => cases o3
  exact ⟨t, w', n1, n2⟩

def plainCell (t : String) : Cell := ⟨none, ⟨⟨0, 0⟩, t.toList, []⟩, t.toList, {}⟩

def pairSheet (t : String) : Sheet := ⟨[⟨{}, none, [plainCell "a", plainCell t]⟩], true⟩

/-- Two sheets that differ only in their second cell give the same first cell of a workbook. -/
example : ∃ b b' ws ws', writeExcel (fun _ => .time) false "s".toList (pairSheet "x") none = some b ∧
    writeExcel (fun _ => .time) false "s".toList (pairSheet "y") none = some b' ∧
    sheetNamed b "s".toList = some ws ∧ sheetNamed b' "s".toList = some ws' ∧ ws'.at 0 0 = ws.at 0 0 ∧ ws'.at 0 1 ≠ ws.at 0 1 := by
  obtain ⟨ws, ws', h1, h2, h3⟩ := C103_excel (s := pairSheet "x") (t := pairSheet "y") (i := 0) (j := 0) (den := fun _ => .time) (ov := false) (name := "s".toList) (file := none)
    ⟨_, _, rfl, rfl, rfl, rfl, rfl⟩ rfl rfl
  refine ⟨_, _, ws, ws', rfl, rfl, h1, h2, h3, ?_⟩
  cases h1; cases h2
  decide

end Lib
end Verif.Cli
