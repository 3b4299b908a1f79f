import Verif.Cli.Compiled
import Verif.Target.ExcelProps
import Verif.Date.Options
/-
End to end: programs whose target is a workbook (C84).
-/
namespace Verif.Cli
open Verif.Ast Verif.Loader Verif.Sheet Verif.Cache Verif.Csvp.Spec
open Verif.Cell hiding Target
open Verif.Target hiding MPath
open Verif.Parser (Stmt Line codeText stmts display)

/-- src/target/excel/compilation_target.rs:12-31 with src/target/excel/mod.rs:153-162: a file holds a workbook, or something that cannot be read as
one, which is an error.  `between` are the contents of the file on the way, which are the library's affair.  Other errors of the file system are not
modelled. -/
def excelTarget (den : Text → DateVal) (between : List (Option Workbook)) (c : Config) (sheet : Sheet) (file : Option (Option Workbook)) :
    WriteOut (Option Workbook) :=
  match file with
  | some none => .failed []
  | _ =>
    match writeExcel den c.overwrite c.sheetName sheet (file.bind id) with
    | none => .panic
    | some wb => .ok between (some wb)

/-- The program with a workbook as the target (src/target/excel). -/
abbrev MainExcel (E : Env) (version : Nat) (timestamps : List Text) (partials : Option Workbook → List (Option Workbook)) (between : List (Option Workbook))
    (den : Text → DateVal) (a : Args) (fs : FS Text) (files : Files (Option Workbook)) :
    Option Exit → List (Files (Option Workbook)) → List (MPath × Module Text) → Prop :=
  MainFile E version timestamps partials .excel (excelTarget den between) a fs files

/-! ## Specification -/

/-- A cell of a workbook that holds a value: a plain value as such, anything else as a formula. -/
inductive Holds : Ast → XVal → Prop
  | bool (b) : Holds (.bool b) (.bool b)
  | text (t) : Holds (.text t) (.text t)
  | int (n) : Holds (.int false none n) (.int n)
  | float (t) : Holds (.float false none t) (.float t)
  | formula (a) : (∀ b, a ≠ .bool b) → (∀ t, a ≠ .text t) → (∀ n, a ≠ .int false none n) → (∀ t, a ≠ .float false none t) → Holds a (.formula (display a))

/-- What the cell of a worksheet that had `old` has after the cell `c` of the source was written there: its options as the format, and its value: that of
its formula with the definitions `sc`, its text, or the old value if it has neither. -/
structure CellWritten (sc : Scope) (pos : Addr) (c : Cell) (old new : Option XCell) : Prop where
  style : new.map (·.style) = some (styleOf c)
  formula : ∀ f, c.ast = some f → ∃ b v, Ast.Means sc (some pos) f b ∧ (∀ b', Ast.Means sc (some pos) f b' → b' = b) ∧ Holds b v ∧ new.bind (·.value) = some v
  text : c.ast = none → c.value ≠ [] → new.bind (·.value) = some (.text c.value)
  blank : c.ast = none → c.value = [] → new.bind (·.value) = old.bind (·.value)

/-- The worksheet `old` became `new` when the rows were written: each row as often as its fill says, from top to bottom.  With `--safe`, existing cells
stay; and cells where the rows have none always stay. -/
structure WorksheetMeans (sc : Scope) (safe : Bool) (rows : List Row) (old new : Worksheet) : Prop where
  kept : safe = true → ∀ i j e, old.at i j = some e → new.at i j = some e
  cells : ∀ before r after, rows = before ++ r :: after → ∀ i, i < copies rows r → ∀ x c, r.cells[x]? = some c →
    (safe = false ∨ old.at (total rows before + i) x = none) →
      CellWritten sc ⟨x, total rows before + i⟩ c (old.at (total rows before + i) x) (new.at (total rows before + i) x)
  others : ∀ i j, (∀ before r after k, rows = before ++ r :: after → k < copies rows r → i = total rows before + k → r.cells.length ≤ j) →
    new.at i j = old.at i j

/-- The worksheet of a name in a file, empty if there is none. -/
def worksheetOf (file : Option (Option Workbook)) (name : Text) : Worksheet := (sheetNamed ((file.bind id).getD []) name).getD blankSheet

/-! ## Proofs -/

theorem holds_setValue {old : Option XVal} {c : Cell} {b : Ast} (h : c.ast = some b) : ∃ v, setValue old c = some v ∧ Holds b v := by
  simp only [setValue, h]
  split
  · exact ⟨_, rfl, .bool _⟩
  · exact ⟨_, rfl, .text _⟩
  · exact ⟨_, rfl, .float _⟩
  · exact ⟨_, rfl, .int _⟩
  · rename_i h1 h2 h3 h4
    exact ⟨_, rfl, .formula _ h1 h2 h4 h3⟩

theorem styleOf_opts {c c' : Cell} (h : c'.opts = c.opts) : styleOf c' = styleOf c := by
  simp only [styleOf, borderOf, Cell.sideHasBorder, h]
  rfl

theorem worksheet_means {den : Text → DateVal} {sc : Scope} {safe : Bool} {rows : List Row} {s s₁ : Sheet} {ws ws' : Worksheet}
    (hs₁ : evalFills ⟨rows, false⟩ = some s₁) (hm : SheetMeans sc rows s) (h : buildWorksheet den (!safe) s ws = some ws') :
    WorksheetMeans sc safe rows ws ws' := by
  have hlen : s.rows.length = s₁.rows.length := by rw [hm.length, (C24_rows rows s₁ hs₁).1]
  refine ⟨fun hsafe i j e he => ?_, fun before r after he i hi x c hc ho => ?_, fun i j ho => ?_⟩
  · subst hsafe
    exact C40_excel_safe h he
  · obtain ⟨q, q1, q2, q3⟩ := hm.rows before r after he i hi
    obtain ⟨c', c1, c2⟩ := q3 x c hc
    have hsc : sheetCell s (total rows before + i) x = some c' := by simp only [sheetCell, q1, Option.bind_some, c1]
    have hnew : ws'.at (total rows before + i) x = some ⟨setValue ((ws.at (total rows before + i) x).bind (·.value)) c', styleOf c'⟩ := by
      rw [build_at h, hsc]
      simp only [newCell]
      rcases ho with rfl | ho
      · simp
      · simp [ho]
    rw [hnew]
    refine ⟨by rw [← styleOf_opts c2.opts]; rfl, fun f hf => ?_, fun ha hv => ?_, fun ha hv => ?_⟩
    · obtain ⟨b, b1, b2, b3⟩ := c2.formula f hf
      obtain ⟨v, v1, v2⟩ := holds_setValue (old := (ws.at (total rows before + i) x).bind (·.value)) b1
      exact ⟨b, v, b2, b3, v2, v1⟩
    · simp only [Option.bind_some, setValue, c2.text ha, c2.value, if_neg hv]
    · simp only [Option.bind_some, setValue, c2.text ha, c2.value, if_pos hv]
  · apply (C41_excel h).1
    cases hq : s.rows[i]? with
    | none => simp [sheetCell, hq]
    | some q =>
      have hi : i < s₁.rows.length := by rw [← hlen]; exact (List.getElem?_eq_some_iff.mp hq).1
      obtain ⟨before, r, after, k, e1, e2, e3, -⟩ := expanded_row hs₁ (List.getElem?_eq_getElem hi)
      obtain ⟨q', q1, q2, -⟩ := hm.rows before r after e1 k e2
      rw [← e3, hq] at q1; cases q1
      have := ho before r after k e1 e2 e3
      simp only [sheetCell, hq, Option.bind_some]
      rw [List.getElem?_eq_none]
      omega

theorem run_wrote_file {C : Type} {ts : List Text} {partials : C → List C} {backup : Bool} {p : Path} {s : Sheet} {files : Files C}
    {write : Sheet → Option C → WriteOut C} {between : List C} {new : C} (hw : write s (files p) = .ok between new)
    (hb : backup = true → (backupFile ts files p).isSome = true) :
    (run ts partials backup p (some s) write files).1 = .success ∧
    ∃ final, (run ts partials backup p (some s) write files).2.getLast? = some final ∧ Wrote files final p new := by
  cases backup with
  | false =>
    refine ⟨by simp [run, hw], files.set p new, ?_, set_eq, fun q c hq hc => by rw [set_ne hq, hc]⟩
    simp only [run, hw, Bool.false_eq_true, if_false]
    rw [← List.cons_append, List.getLast?_append]
    rfl
  | true =>
    obtain ⟨⟨fs', bk⟩, hbk⟩ := Option.isSome_iff_exists.mp (hb rfl)
    obtain ⟨hn, ⟨c, h1, h2⟩, h3⟩ := C43_backup hbk
    have hne : bk ≠ p := by rintro rfl; rw [hn] at h1; cases h1
    have ht : fs' p = files p := h3 p (fun h => hne h.symm)
    refine ⟨by simp [run, hbk, ht, hw], fs'.set p new, ?_, set_eq, fun q c hq hc => ?_⟩
    · simp only [run, hbk, hw, if_true, ht]
      rw [← List.cons_append, ← List.append_assoc, List.getLast?_append]
      rfl
    · rw [set_ne hq]; exact C43_nothing_lost hbk q c hc

/-- A program whose compilation always succeeds goes on to write its target. -/
theorem mainFile_ok {C : Type} {E : Env} {version : Nat} {ts : List Text} {partials : C → List C} {out : Path → Output} {write : Config → Sheet → Option C → WriteOut C}
    {a : Args} {fs : FS Text} {files : Files C} {mp : MPath} {p : Path} {kv : Text → Option Ast} {P : COut → List (MPath × Module Text) → Prop}
    (hout : ∀ p q, out p = out q → p = q) (hs : SetupFor E a mp (out p) kv)
    (hcomp : ∀ o w, Compile (parseModule E) version (!a.noCache) kv fs mp o w → P o w ∧ ∃ s, o = .ok s)
    {e : Option Exit} {states : List (Files C)} {w : List (MPath × Module Text)} (h : MainFile E version ts partials out write a fs files e states w) :
    ∃ c s, c.backup = a.backup ∧ c.overwrite = (!a.safe) ∧ SheetName a c.sheetName ∧ P (.ok s) w ∧
      e = some (run ts partials c.backup p (some s) (write c) files).1 ∧ states = (run ts partials c.backup p (some s) (write c) files).2 := by
  obtain ⟨c, hc, h1, h2, h3, h4⟩ := hs.config
  cases h with
  | badArgs h' => rw [hc] at h'; cases h'
  | noName h' h'' => rw [hs.main] at h''; cases h''
  | @failed _ _ p' _ _ _ h' hm hco he =>
    simp only [hc, Option.some.injEq, Prod.mk.injEq] at h'
    obtain ⟨rfl, rfl, e1⟩ := h'
    rw [hs.main] at hm; cases hm
    rw [h3] at hco
    obtain ⟨-, s, hs⟩ := hcomp _ _ hco
    cases hs
  | panics h' hm hco =>
    simp only [hc, Option.some.injEq, Prod.mk.injEq] at h'
    obtain ⟨rfl, rfl, e1⟩ := h'
    rw [hs.main] at hm; cases hm
    rw [h3] at hco
    obtain ⟨-, s, hs⟩ := hcomp _ _ hco
    cases hs
  | hangs h' hm hco =>
    simp only [hc, Option.some.injEq, Prod.mk.injEq] at h'
    obtain ⟨rfl, rfl, e1⟩ := h'
    rw [hs.main] at hm; cases hm
    rw [h3] at hco
    obtain ⟨-, s, hs⟩ := hcomp _ _ hco
    cases hs
  | @compiled _ _ p' _ _ s h' hm hco =>
    simp only [hc, Option.some.injEq, Prod.mk.injEq] at h'
    obtain ⟨rfl, rfl, e1⟩ := h'
    cases hout _ _ e1
    rw [hs.main] at hm; cases hm
    rw [h3] at hco
    exact ⟨c, s, h1, h2, h4, (hcomp _ _ hco).1, rfl, rfl⟩

section
variable {E : Env} {a : Args} {fs : FS Text} {files : Files (Option Workbook)} {mp : MPath} {p : Path} {kv : Text → Option Ast}
  {ls : List Line} {csv src : Text} {rs : List RowSrc} {lib : List (MPath × List Stmt)}

/-- C84.  If the files of a program are as described, its target is a workbook that is not there yet or can be read, and everything in it is used only
where it is seen, every run of the program succeeds, unless two rows have a fill without a number; the worksheet with the sheet name then shows each
formula as what it means with the definitions of all modules together, each text, and each cell's options as its format; other cells and other worksheets
stay as they were; and there is a run.  Object files are written for the modules of the program only. -/
theorem C84_workbook_partial (version : Nat) (ts : List Text) (partials : Option Workbook → List (Option Workbook)) (between : List (Option Workbook))
    (hE : Date.Calendar E) (hs : SetupFor E a mp (.excel p) kv) (hb : CanBackup ts a files p) (hr : files p ≠ some none)
    (hsrc : ModuleFile E ls csv src) (hf : Fresh fs mp src) (hc : CellsSection E csv rs) (hlib : Program E version fs a.noCache mp (stmts ls) lib) :
    ∃ fetch main rows, IsModule (stmts ls) main ∧ (∀ e ∈ lib, ∃ m, fetch e.1 = .ok m ∧ IsModule e.2 m) ∧ AreRows E rs rows ∧
      ∀ s₁ K order isParam, evalFills ⟨rows, false⟩ = some s₁ → IsUnion fetch main K → Tidy K none order isParam →
        AllClear (effective K kv s₁) rows → AllSeen fetch main K kv s₁ rows →
        (∃ e states w, MainExcel E version ts partials between Date.denotes a fs files e states w) ∧
        ∀ e states w, MainExcel E version ts partials between Date.denotes a fs files e states w →
          e = some .success ∧ (∀ x ∈ w, x.1 = mp ∨ ∃ ss, (x.1, ss) ∈ lib) ∧
          ∃ final wb name, states.getLast? = some final ∧ Wrote files final p (some wb) ∧ SheetName a name ∧
            WorksheetMeans (effective K kv s₁) a.safe rows (worksheetOf (files p) name) (worksheetOf (final p) name) ∧
            (sheetNamed wb name).isSome = true ∧ ∀ n, n ≠ name → sheetNamed wb n = sheetNamed (((files p).bind id).getD []) n := by
  obtain ⟨fetch, main, rows, h1, h2, h3, ⟨t, n, hparse⟩, h4⟩ := program_compiles version (by obtain ⟨l, e1, e2⟩ := hs.values; exact ⟨l, _, e1, e2⟩) hsrc hf hc hlib
  refine ⟨fetch, main, rows, h1, h2, h3, fun s₁ K order isParam hs₁ hu hT hclear hseen => ?_⟩
  obtain ⟨⟨s, w, hex⟩, hall⟩ := h4 s₁ K order isParam hs₁ hu hT hclear hseen
  constructor
  · obtain ⟨c, hc, e1, e2, e3⟩ := hs.configured
    rw [← e3] at hex
    exact ⟨_, _, w, .compiled hc hs.main hex⟩
  · intro e states w h
    obtain ⟨c, s, e1, e2, e3, ⟨e4, s', hs', e5⟩, e6, e7⟩ := mainFile_ok
      (P := fun o w => (∀ x ∈ w, x.1 = mp ∨ ∃ ss, (x.1, ss) ∈ lib) ∧ ∃ s, o = .ok s ∧ SheetMeans (effective K kv s₁) rows s)
      (fun p q h => by cases h; rfl) hs (fun o w ho => ⟨hall o w ho, let ⟨_, s, e, _⟩ := hall o w ho; ⟨s, e⟩⟩) h
    cases hs'
    have hdays : ∀ r ∈ s.rows, ∀ c ∈ r.cells, Date.OptsDays c.opts := by
      intro q hq c' hc'
      obtain ⟨i, hi⟩ := List.getElem?_of_mem hq
      obtain ⟨x, hx⟩ := List.getElem?_of_mem hc'
      have hlen : s.rows.length = s₁.rows.length := by rw [e5.length, (C24_rows rows s₁ hs₁).1]
      have hi' : i < s₁.rows.length := by rw [← hlen]; exact (List.getElem?_eq_some_iff.mp hi).1
      obtain ⟨before, r, after, k, f1, f2, f3, -⟩ := expanded_row hs₁ (List.getElem?_eq_getElem hi')
      obtain ⟨q', g1, g2, g3⟩ := e5.rows before r after f1 k f2
      rw [← f3, hi] at g1; cases g1
      have hx' : x < r.cells.length := by rw [← g2]; exact (List.getElem?_eq_some_iff.mp hx).1
      obtain ⟨c'', k1, k2⟩ := g3 x _ (List.getElem?_eq_getElem hx')
      rw [hx] at k1; cases k1
      rw [k2.opts]
      exact (Date.parse_days hE hparse r (by rw [f1]; simp)).2 _ (List.getElem_mem _)
    obtain ⟨wb, hwb⟩ := Date.writes_days hdays c.overwrite c.sheetName ((files p).bind id)
    have hwrite : excelTarget Date.denotes between c s (files p) = .ok between (some wb) := by
      cases hfp : files p with
      | none => rw [hfp] at hwb; simp only [excelTarget, hwb]
      | some o =>
        cases o with
        | none => exact absurd hfp hr
        | some o => rw [hfp] at hwb; simp only [excelTarget, hwb]
    obtain ⟨g1, final, g2, g3⟩ := run_wrote_file (ts := ts) (partials := partials) (backup := c.backup) hwrite (by rw [e1]; exact hb)
    obtain ⟨⟨ws', k1, k2⟩, k3⟩ := C69_worksheets hwb
    refine ⟨by rw [e6, g1], e4, final, wb, c.sheetName, by rw [e7]; exact g2, g3, e3, ?_, by rw [k1]; rfl, k3⟩
    have hnew : worksheetOf (final p) c.sheetName = ws' := by
      simp only [worksheetOf, g3.target, Option.bind_some, id_eq, Option.getD_some, k1]
    rw [hnew]
    rw [e2] at k2
    exact worksheet_means hs₁ e5 k2

end
end Verif.Cli
