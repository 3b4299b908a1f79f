import Verif.Cli.Meaning
import Verif.Cli.Examples
/-
A concrete case of C80 with a function, a named cell and a fill.
-/
namespace Verif.Cli
open Verif.Ast Verif.Loader Verif.Sheet Verif.Cache Verif.Csvp.Spec
open Verif.Cell hiding Target
open Verif.Target hiding MPath
open Verif.Parser (Stmt Line codeText stmts)

def fillLines : List Line := [⟨[], some (.fn "double".toList ["n".toList] (.infix (.ref "n".toList) "*".toList (.int false none 2))), none⟩]

def fillText : Text := "fn double(n) (n * 2)\n---\n![[fill=2]][[v=price]]3,=double(price)\n".toList

def fillCells : Text := "![[fill=2]][[v=price]]3,=double(price)".toList

theorem fill_file (E : Env) : SourceFile E fillLines fillCells fillText := by
  have nm : ∀ n ∈ ["double".toList, "n".toList], Parser.Name E.uni n := by
    intro n hn
    simp only [List.mem_cons, List.not_mem_nil, or_false] at hn
    rcases hn with rfl | rfl <;> exact Parser.name_ascii E.uni (by decide)
  have rf : ∀ n, Parser.Name E.uni n → Parser.Printable E.uni E.f64 (.ref n) := fun n h => .ref h.1 h.2
  refine ⟨?_, ?_, by decide +kernel, by decide +kernel, by decide, "![[fill=2]][[v=price]]3,=double(price)\n".toList, .inl (by decide), by decide +kernel⟩
  · intro l hl
    simp only [fillLines, List.mem_cons, List.not_mem_nil, or_false] at hl
    subst hl
    refine ⟨by simp, ?_, by simp⟩
    intro s hs; cases hs
    refine ⟨nm _ (by decide), ?_, .infix (by decide) (rf _ (nm _ (by decide))) (.int (v := 2) (by decide))⟩
    intro p hp
    exact nm p (List.mem_cons_of_mem _ hp)
  · intro m hm
    simp [fillLines, stmts] at hm

def fillGrid : List (List Text) := [["![[fill=2]][[v=price]]3".toList, "=double(price)".toList]]

theorem fill_cells : Csvp.Spec.values (Csvp.parse ⟨',', 0⟩ fillCells) = some fillGrid := by decide

def fillRow : RowSrc := ⟨[.inr (some 2)], [([.var "price".toList], "3".toList), ([], "=double(price)".toList)]⟩

theorem fill_rowText (E : Env) : RowText E ["![[fill=2]][[v=price]]3".toList, "=double(price)".toList] fillRow := by
  refine RowText.mk ?_ (.cons (cellText_plain (by decide) (by unfold NoList; decide)) .nil)
  refine FirstText.row (w := []) (l := "![[fill=2]]".toList) (es' := []) W_nil ⟨[], "fill=2".toList, [], W_nil, W_nil, .one ?_, rfl⟩
    (.cell ⟨[], ['3'], W_nil, Solid_cons rfl _, noList_one (by decide) (by decide) _, rfl, .inr ⟨[], "[[v=price]]".toList, W_nil, ⟨[], "v=price".toList, [], W_nil, W_nil, .one (.setting ?_), rfl⟩, rfl⟩⟩)
  · exact EntryText.fill (n := "fill".toList) (q := "=".toList) (v := "2".toList) ⟨"fill", by simp, rfl⟩ ⟨[], [], W_nil, W_nil, rfl⟩ (by decide) (by decide) (by decide)
  · refine OptText.var (n := "v".toList) (q := "=".toList) (v := "price".toList) ⟨"v", by simp, rfl⟩ ⟨[], [], W_nil, W_nil, rfl⟩ (by simp) ?_
    intro c hc
    have : c = 'p' ∨ c = 'r' ∨ c = 'i' ∨ c = 'c' ∨ c = 'e' := by simpa using hc
    rcases this with rfl | rfl | rfl | rfl | rfl <;> (rw [isIdent, E.alnum_ascii _ (by decide)]; rfl)

theorem fill_formula (E : Env) : Parser.parse E.uni E.f64 "=double(price)".toList = .ok (.call "double".toList [.ref "price".toList]) :=
  Parser.C12_display_parses E.uni E.f64 (.call "double".toList [.ref "price".toList])
    (.call (Parser.name_ascii E.uni (by decide)).1 (by decide) (by intro a ha; rw [List.mem_singleton.mp ha]; exact .ref (Parser.name_ascii E.uni (by decide)).1 (by decide)))

def doubleDef : Ast := .fn "double".toList ["n".toList] (.infix (.ref "n".toList) "*".toList (.int false none 2))

/-- What is defined: `double` in the code section, `price` in the cells section, nothing on the command line. -/
structure FillScope (sc : Scope) (pos : Addr) (cell : Text) : Prop where
  functions : ∀ g, sc.functions g = if g = "double".toList then some doubleDef else none
  others : ∀ x, x ≠ "price".toList → sc.variables x = none
  price : ∃ d, sc.variables "price".toList = some d ∧ resolve (some pos) d = some (.ref cell)

theorem FillScope.fn {sc : Scope} {pos : Addr} {cell : Text} (h : FillScope sc pos cell) {g : Text} {d : Ast} (hd : sc.functions g = some d) :
    g = "double".toList ∧ d = doubleDef := by
  rw [h.functions] at hd
  split at hd
  · cases hd; exact ⟨by assumption, rfl⟩
  · cases hd

theorem FillScope.var {sc : Scope} {pos : Addr} {cell : Text} (h : FillScope sc pos cell) {x : Text} {d v : Ast} (hd : sc.variables x = some d)
    (hv : resolve (some pos) d = some v) : x = "price".toList ∧ v = .ref cell := by
  by_cases hx : x = "price".toList
  · subst hx
    obtain ⟨d', h1, h2⟩ := h.price
    rw [hd] at h1; cases h1
    rw [hv] at h2; cases h2
    exact ⟨rfl, rfl⟩
  · rw [h.others x hx] at hd; cases hd

theorem FillScope.mentions {sc : Scope} {pos : Addr} {cell : Text} (h : FillScope sc pos cell) {n m : Name} (hm : Mentions sc (some pos) n m) :
    n = .v "price".toList ∧ m = .v cell := by
  cases n with
  | v x =>
    obtain ⟨d, a, hd, ha, hu⟩ := hm
    obtain ⟨rfl, rfl⟩ := h.var hd ha
    cases m <;> simp [Uses, refNames, callNames] at hu
    exact ⟨rfl, by rw [hu]⟩
  | f x =>
    obtain ⟨nm, ps, body, hd, hu, hps⟩ := hm
    obtain ⟨rfl, he⟩ := h.fn hd
    cases he; cases m <;> simp [Uses, refNames, callNames] at hu hps
    exact absurd hu hps

theorem FillScope.clear {sc : Scope} {pos : Addr} {cell : Text} (h : FillScope sc pos cell) (h1 : cell ≠ "price".toList) (h2 : cell ≠ "n".toList) :
    Clear sc (some pos) (.call "double".toList [.ref "price".toList]) [.v "price".toList, .f "double".toList] (fun p => p = "n".toList) := by
  have needs : ∀ {n m : Name}, n ≠ .v "price".toList → Needs sc (some pos) n m → m = n := fun {n m} hn hnm =>
    needs_closed (S := fun m => m = n) (fun a b ha hab => absurd (ha ▸ (h.mentions hab).1) hn) rfl hnm
  refine ⟨⟨?_, ?_⟩, ⟨?_, ?_, ?_⟩, ⟨?_, ?_⟩, ?_, ?_, ?_, ?_, ?_⟩
  · intro n hn
    cases n with
    | v x =>
      obtain ⟨d, hd⟩ := Option.isSome_iff_exists.mp hn
      by_cases hx : x = "price".toList
      · subst hx; simp
      · rw [h.others x hx] at hd; cases hd
    | f x =>
      obtain ⟨d, hd⟩ := Option.isSome_iff_exists.mp hn
      obtain ⟨rfl, -⟩ := h.fn hd; simp
  · intro n m _ hm hnm
    obtain ⟨-, rfl⟩ := h.mentions hnm
    obtain ⟨d, hd⟩ := Option.isSome_iff_exists.mp hm
    rw [h.others cell h1] at hd; cases hd
  · intro g nm ps body hd p hp
    obtain ⟨-, he⟩ := h.fn hd
    cases he; simpa using hp
  · intro x d a hd ha r hr
    obtain ⟨-, rfl⟩ := h.var hd ha
    simp only [refNames, List.mem_singleton] at hr
    subst hr; exact h2
  · intro g nm ps body hd r hr hps
    obtain ⟨-, he⟩ := h.fn hd
    cases he; simp [refNames] at hr hps
    exact absurd hr hps
  · intro x d a hd ha
    obtain ⟨-, rfl⟩ := h.var hd ha
    simp [Apart]
  · intro g nm ps body hd
    obtain ⟨-, he⟩ := h.fn hd
    cases he; simp [Apart]
  · intro x d a hd ha
    obtain ⟨-, rfl⟩ := h.var hd ha
    simp [arityOk]
  · intro g nm ps body hd
    obtain ⟨-, he⟩ := h.fn hd
    cases he; simp [arityOk]
  · intro r hr
    simp only [refNames, refNamesL, List.append_nil, List.mem_singleton] at hr
    subst hr; decide
  · rw [Apart, ApartL_iff]
    refine ⟨by simp [Apart], fun _ a ha m hu _ g hg hn hm => ?_⟩
    obtain rfl := List.mem_singleton.mp ha
    have e1 := needs (by simp) hn
    cases m with
    | f x => simp [Uses, callNames] at hu
    | v x =>
      have : ∀ y, Name.f g ≠ .v y := by simp
      have hcl : ∃ y, Name.f g = .v y := needs_closed (S := fun m => ∃ y, m = .v y) (fun a b _ hab => ⟨_, (h.mentions hab).2⟩) ⟨x, rfl⟩ hm
      exact this _ hcl.choose_spec
  · simp only [arityOk, arityOkL, and_true, true_and]
    intro nm ps body hd
    obtain ⟨-, he⟩ := h.fn hd
    cases he; rfl

theorem FillScope.means {sc : Scope} {pos : Addr} {cell : Text} (h : FillScope sc pos cell) (h1 : cell ≠ "price".toList) :
    Ast.Means sc (some pos) (.call "double".toList [.ref "price".toList]) (.infix (.ref cell) "*".toList (.int false none 2)) := by
  obtain ⟨d, e1, e2⟩ := h.price
  refine .body (nm := "double".toList) (ps := ["n".toList]) (body := .infix (.ref "n".toList) "*".toList (.int false none 2)) (by rw [h.functions, if_pos rfl]; rfl) rfl ?_
  refine .infix (.value e1 e2 (.ref (h.others cell h1))) (.leaf fun m => by cases m <;> simp [subst, Uses, refNames, callNames])

/-- C80 on the example: the row is there twice, with the price of the same row doubled. -/
example (E : Env) (version : Nat) (e : Option Exit) (states : List (Files Text)) (w : List (MPath × Module Text))
    (h : Main E version [] (fun _ => []) [] (exampleArgs false []) (exampleFs fillText) exampleFiles e states w) :
    e = some .success ∧ ∃ final out, states.getLast? = some final ∧ Wrote exampleFiles final (Path.ofText "out.csv".toList) out ∧
      (csvRead out).length = 2 ∧ cellAt (csvRead out) 0 0 = "3".toList ∧ cellAt (csvRead out) 0 1 = "=(A1 * 2)".toList ∧
      cellAt (csvRead out) 1 0 = "3".toList ∧ cellAt (csvRead out) 1 1 = "=(A2 * 2)".toList := by
  have h0 : NoMark (cellAt (rowsOf (exampleFiles (Path.ofText "out.csv".toList))) 0 0) := by unfold NoMark; decide
  obtain ⟨sc, rows, d1, d2, hmain⟩ := C80_meaning version [] (fun _ => []) [] (exampleSetup E false [] [] rfl) (by intro h; cases h)
    (fill_file E) (exampleFresh fillText) fill_cells (rs := [fillRow]) (.cons (fill_rowText E) .nil)
    (by
      intro r hr c hc he
      obtain rfl := List.mem_singleton.mp hr
      simp only [fillRow, List.mem_cons, List.not_mem_nil, or_false] at hc
      rcases hc with rfl | rfl
      · exact absurd he (by decide)
      · exact ⟨_, fill_formula E⟩) (files := exampleFiles) h0
    (by
      intro r hr c hc
      obtain rfl := List.mem_singleton.mp hr
      simp only [fillRow, List.mem_cons, List.not_mem_nil, or_false] at hc
      unfold NoMark
      rcases hc with rfl | rfl <;> decide)
  -- the row
  obtain ⟨row, rfl⟩ : ∃ row, rows = [row] := List.length_eq_one_iff.mp d2.1
  obtain ⟨row', r1, r2⟩ := d2.2 0 fillRow rfl
  cases r1
  have hfill : row.fill = some ⟨some 2, 0⟩ := r2.fill
  have hopts : row.opts = {} := r2.opts
  obtain ⟨c₀, c₁, hcells⟩ : ∃ c₀ c₁, row.cells = [c₀, c₁] := by
    have := congrArg List.length r2.cells
    rw [List.length_map, List.length_map] at this
    exact List.length_eq_two.mp this
  have hc := r2.cells
  rw [hcells, hopts] at hc
  simp only [List.map_cons, List.map_nil, fillRow, List.cons.injEq, Prod.mk.injEq, and_true] at hc
  obtain ⟨⟨o0, v0, a0⟩, o1, v1, a1⟩ := hc
  have a0' : c₀.ast = none := by rw [a0]; rfl
  have a1' : c₁.ast = some (.call "double".toList [.ref "price".toList]) := by
    rw [a1, formulaOf, if_pos (by decide), fill_formula]; rfl
  have n0 : c₀.opts.var = some "price".toList := by rw [o0]; rfl
  have n1 : c₁.opts.var = none := by rw [o1]; rfl
  have hcop : copies [row] row = 2 := by
    have hb : ¬ Unbounded row := by rintro ⟨y, hy⟩; rw [hfill] at hy; cases hy
    rw [copies, if_neg hb, boundedCopies, hfill]
  have htot : total [row] [] = 0 := rfl
  obtain ⟨s₁, hs₁⟩ : ∃ s₁, evalFills ⟨[row], false⟩ = some s₁ := by
    rw [evalFills]
    simp only [Bool.false_eq_true, if_false, multipleInfinite, hfill]
    exact ⟨_, rfl⟩
  have hscope : ∀ (x i : Nat), i < 2 → FillScope (effective sc (collect []) s₁) ⟨x, i⟩ (cellRef 0 i) := by
    intro x i hi
    refine ⟨fun g => ?_, fun x hx => ?_, ?_⟩
    · show sc.functions g = _
      rw [d1.functions]
      simp only [fillLines, stmts, List.filterMap_cons, List.filterMap_nil, Stmt.function?]
      by_cases hg : g = "double".toList
      · subst hg; rfl
      · rw [if_neg (Ne.symm hg), if_neg hg]; rfl
    · show (sc.variables x).or ((sheetVars s₁ x).or none) = none
      rw [d1.vars, sheetVars_none hs₁]
      · rfl
      · intro r hr
        obtain rfl := List.mem_singleton.mp hr
        rw [names, hcells, hopts]
        simp only [List.filterMap_cons, List.filterMap_nil, n0, n1]
        simpa using hx
    · obtain ⟨val, e1, e2⟩ := C23_means [row] s₁ hs₁ "price".toList ⟨x, i⟩ (cellRef 0 i) (.sameCell (before := []) (r := row) (x := 0) ⟨[], rfl, by simp⟩
        ⟨⟨c₀, by rw [hcells]; rfl, n0⟩, fun x' c hx' hc' => by
          rw [hcells] at hc'
          match x', hx' with
          | 1, _ => cases hc'; rw [n1]; simp
          | x' + 2, _ => cases hc'⟩
        (by rw [hfill]; rfl)
        (by
          intro f hf y
          rw [placed, hfill] at hf
          cases hf
          rw [InCopies, htot, hcop, fillRange]
          constructor
          · rintro ⟨a, b, hab, h1, h2⟩; cases hab; exact ⟨h1, by have h3 : y ≤ 1 := h2; omega⟩
          · rintro ⟨h1, h2⟩; exact ⟨0, 1, rfl, h1, by omega⟩)
        (by rw [InCopies, htot, hcop]; simpa using hi))
      refine ⟨.cellVar "price".toList val, ?_, e2⟩
      show (sc.variables "price".toList).or ((sheetVars s₁ "price".toList).or none) = _
      rw [d1.vars, e1]; rfl
  have hcell : ∀ i, i < 2 → cellRef 0 i ≠ "price".toList ∧ cellRef 0 i ≠ "n".toList := by
    intro i hi
    have : i = 0 ∨ i = 1 := by omega
    rcases this with rfl | rfl <;> decide +kernel
  have hclear : AllClear (effective sc (collect []) s₁) [row] := by
    intro before r after i x c f e1 e2 e3 e4
    obtain ⟨rfl, rfl, rfl⟩ : before = [] ∧ r = row ∧ after = [] := by
      cases before with
      | nil => simp only [List.nil_append, List.cons.injEq] at e1; exact ⟨rfl, e1.1.symm, e1.2.symm⟩
      | cons b bs =>
        simp only [List.cons_append, List.cons.injEq] at e1
        exact absurd e1.2 (by simp)
    rw [hcop] at e2
    rw [hcells] at e3
    rw [htot, Nat.zero_add]
    match x with
    | 0 => cases e3; rw [a0'] at e4; cases e4
    | 1 =>
      cases e3; rw [a1'] at e4; cases e4
      exact ⟨_, _, (hscope 1 i e2).clear (hcell i e2).1 (hcell i e2).2⟩
    | x + 2 => cases e3
  obtain ⟨h2, -, final, out, h3, h4, h5, h6⟩ := (hmain s₁ hs₁ hclear).2 e states w h
  have hsafe : (exampleArgs false []).safe = false := rfl
  have key : ∀ i, i < 2 → cellAt (csvRead out) i 0 = "3".toList ∧
      cellAt (csvRead out) i 1 = '=' :: Parser.display (.infix (.ref (cellRef 0 i)) "*".toList (.int false none 2)) := by
    intro i hi
    obtain ⟨t, t1, t2, -⟩ := h6 [] row [] rfl i (by rw [hcop]; exact hi) 0 c₀ (by rw [hcells]; rfl)
    obtain ⟨t', t1', -, t3'⟩ := h6 [] row [] rfl i (by rw [hcop]; exact hi) 1 c₁ (by rw [hcells]; rfl)
    rw [htot, Nat.zero_add, shown, hsafe, if_neg (by simp)] at t1 t1'
    refine ⟨by rw [t1, t2 a0', v0], ?_⟩
    rw [t1', (t3' _ a1').2 _ ?_]
    rw [htot, Nat.zero_add]
    exact (hscope 1 i hi).means (hcell i hi).1
  refine ⟨h2, final, out, h3, h4, ?_, (key 0 (by decide)).1, ?_, (key 1 (by decide)).1, ?_⟩
  · rw [h5, total]; simp [hcop]
  · rw [(key 0 (by decide)).2]; decide +kernel
  · rw [(key 1 (by decide)).2]; decide +kernel

end Verif.Cli
