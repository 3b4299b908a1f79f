import Verif.Ast.Rename
import Verif.Sheet.Errors
/-
Exchanging two names throughout a program: the sheet (C100).
-/
namespace Verif.Sheet
open Verif.Ast Verif.Cell

/-- The options with the name of the cell or row replaced. -/
def renOpts (π : Text → Text) (o : Opts) : Opts := { o with var := o.var.map π }

/-- The cell with its name and the names in its formula replaced.  (The text from which the formula was read is not used any more.) -/
def renCell (π : Text → Text) (c : Cell) : Cell := { c with ast := c.ast.map (ren π), opts := renOpts π c.opts }

/-- The row with all names replaced. -/
def renRow (π : Text → Text) (r : Row) : Row := { r with opts := renOpts π r.opts, cells := r.cells.map (renCell π) }

/-- The sheet with all names replaced. -/
def renSheet (π : Text → Text) (s : Sheet) : Sheet := ⟨s.rows.map (renRow π), s.expanded⟩

/-- The outcome of a compilation with all names replaced. -/
def renOut {α : Type} (π : Text → Text) (f : α → α) : Out α → Out α
  | .ok s => .ok (f s)
  | .err p e => .err p ⟨ren π e.source, e.expected, e.received⟩
  | .panic => .panic

section
variable {π : Text → Text}

theorem multipleInfinite_ren (b : Bool) (rows : List Row) : multipleInfinite b (rows.map (renRow π)) = multipleInfinite b rows := by
  induction rows generalizing b with
  | nil => rfl
  | cons r rs ih =>
    simp only [List.map_cons, multipleInfinite]
    have h : (renRow π r).fill = r.fill := rfl
    rw [h, ih, ih]

theorem rowsLeftOver_ren (rows : List Row) : rowsLeftOver (rows.map (renRow π)) = rowsLeftOver rows := by
  unfold rowsLeftOver
  rw [List.foldl_map]
  rfl

theorem expandLoop_ren (left n : Nat) (rows : List Row) : expandLoop left n (rows.map (renRow π)) = (expandLoop left n rows).map (renRow π) := by
  induction rows generalizing n with
  | nil => rfl
  | cons r rs ih =>
    simp only [List.map_cons, expandLoop]
    have h : (renRow π r).fill = r.fill := rfl
    rw [h]
    cases r.fill with
    | none => simp only [List.map_cons]; rw [ih]
    | some f => simp only [List.map_append, List.map_replicate]; rw [ih]; rfl

theorem evalFills_ren (s : Sheet) : evalFills (renSheet π s) = (evalFills s).map (renSheet π) := by
  simp only [evalFills, renSheet, multipleInfinite_ren, rowsLeftOver_ren, expandLoop_ren]
  split
  · rfl
  · split <;> rfl

theorem cellVars_ren (y : Nat) (fill : Option Fill) (x : Nat) (cs : List Cell) :
    cellVars y fill x (cs.map (renCell π)) = (cellVars y fill x cs).map fun p => (π p.1, p.2) := by
  induction cs generalizing x with
  | nil => rfl
  | cons c cs ih =>
    simp only [List.map_cons, cellVars, List.map_append, ih]
    congr 1
    show ((c.opts.var.map π).toList).map _ = _
    unfold cellVar
    cases c.opts.var <;> rfl

theorem insertions_ren (y : Nat) (rows : List Row) : insertions y (rows.map (renRow π)) = (insertions y rows).map fun p => (π p.1, p.2) := by
  induction rows generalizing y with
  | nil => rfl
  | cons r rs ih =>
    simp only [List.map_cons, insertions, List.map_append, ih]
    congr 1
    have h : cellVars y (renRow π r).fill 0 (renRow π r).cells = (cellVars y r.fill 0 r.cells).map fun p => (π p.1, p.2) := cellVars_ren y r.fill 0 r.cells
    rw [h]
    congr 1
    show ((r.opts.var.map π).toList).map _ = _
    unfold rowVar
    cases r.opts.var <;> rfl

theorem collect_ren (hπ : ∀ n, π (π n) = n) (l : List (Text × Ast)) : collect (l.map fun p => (π p.1, ren π p.2)) = renTable π (collect l) := by
  funext k
  induction l using List.reverseRecOn with
  | nil => rfl
  | append_singleton l p ih =>
    simp only [List.map_append, List.map_cons, List.map_nil, collect_snoc, renTable]
    by_cases h : k = π p.1
    · rw [if_pos h, if_pos (by rw [h, hπ])]; rfl
    · rw [if_neg h, if_neg (fun h' => h (by rw [← h', hπ])), ih]; rfl

theorem sheetVars_ren (hπ : ∀ n, π (π n) = n) (s : Sheet) : sheetVars (renSheet π s) = renTable π (sheetVars s) := by
  unfold sheetVars
  rw [← collect_ren hπ]
  show collect ((insertions 0 (s.rows.map (renRow π))).map _) = _
  rw [insertions_ren, List.map_map, List.map_map]
  rfl

theorem effective_ren (hπ : ∀ n, π (π n) = n) (sc : Scope) (ext : Text → Option Ast) (s : Sheet) :
    effective (sc.ren π) (renTable π ext) (renSheet π s) = (effective sc ext s).ren π := by
  have h : (effective (sc.ren π) (renTable π ext) (renSheet π s)).variables = ((effective sc ext s).ren π).variables := by
    funext k
    show (renTable π sc.variables k).or ((sheetVars (renSheet π s) k).or (renTable π ext k)) =
      ((sc.variables (π k)).or ((sheetVars s (π k)).or (ext (π k)))).map (ren π)
    rw [sheetVars_ren hπ]
    simp only [renTable]
    cases sc.variables (π k) with
    | some _ => rfl
    | none => cases sheetVars s (π k) <;> rfl
  exact congrArg (fun v => Scope.mk (sc.ren π).functions v (sc.ren π).exports) h

variable {sc : Scope}

theorem evalCells_ren (hπ : ∀ n, π (π n) = n) (hA : FixesCells π) {y x : Nat} {cs : List Cell} {o : Out (List Cell)} (h : EvalCells sc y x cs o) :
    EvalCells (sc.ren π) y x (cs.map (renCell π)) (renOut π (List.map (renCell π)) o) := by
  induction h with
  | nil => exact .nil
  | @value x c cs o hc _ ih =>
    have := EvalCells.value (c := renCell π c) (by show c.ast.map _ = none; rw [hc]; rfl) ih
    refine cast (congrArg (EvalCells _ _ _ _) ?_) this
    cases o <;> rfl
  | @formula x c cs o a b hc he _ ih =>
    have := EvalCells.formula (c := renCell π c) (a := ren π a) (b := ren π b) (by show c.ast.map _ = _; rw [hc]; rfl) (Eval.ren hπ hA he) ih
    refine cast (congrArg (EvalCells _ _ _ _) ?_) this
    cases o <;> rfl
  | err hc he => exact .err (by show Option.map _ _ = _; rw [hc]; rfl) (Eval.ren hπ hA he)
  | panic hc he => exact .panic (by show Option.map _ _ = _; rw [hc]; rfl) (Eval.ren hπ hA he)

theorem evalRow_ren (hπ : ∀ n, π (π n) = n) (hA : FixesCells π) {y : Nat} {r : Row} {o : Out Row} (h : EvalRow sc y r o) :
    EvalRow (sc.ren π) y (renRow π r) (renOut π (renRow π) o) := by
  obtain ⟨o', h1, rfl⟩ := h
  refine ⟨_, evalCells_ren hπ hA h1, ?_⟩
  cases o' <;> rfl

theorem evalAll_ren (hπ : ∀ n, π (π n) = n) (hA : FixesCells π) {y : Nat} {rs rs' : List Row} (h : EvalAll sc y rs rs') :
    EvalAll (sc.ren π) y (rs.map (renRow π)) (rs'.map (renRow π)) := by
  induction h with
  | nil => exact .nil
  | cons hr _ ih => exact .cons (evalRow_ren hπ hA hr) ih

theorem evalRows_ren (hπ : ∀ n, π (π n) = n) (hA : FixesCells π) {rs : List Row} {o : Out (List Row)} (h : EvalRows sc rs o) :
    EvalRows (sc.ren π) (rs.map (renRow π)) (renOut π (List.map (renRow π)) o) := by
  cases h with
  | ok h => exact .ok (evalAll_ren hπ hA h)
  | err h1 h2 => exact .err (by rw [List.getElem?_map, h1]; rfl) (evalRow_ren hπ hA h2)
  | panic h1 h2 => exact .panic (by rw [List.getElem?_map, h1]; rfl) (evalRow_ren hπ hA h2)

theorem isEnum_ren (hπ : ∀ n, π (π n) = n) {l : List (Text × Ast)} {m : Text → Option Ast} (h : IsEnum l m) :
    IsEnum (l.map fun p => (π p.1, ren π p.2)) (renTable π m) := by
  refine ⟨?_, fun k v => ?_⟩
  · have : (l.map fun p => (π p.1, ren π p.2)).map (·.1) = (l.map (·.1)).map π := by simp
    rw [this]
    exact List.Pairwise.map _ (fun _ _ h h' => h (inv_inj hπ h')) h.1
  · simp only [List.mem_map, renTable, Prod.mk.injEq, Option.map_eq_some_iff]
    constructor
    · rintro ⟨⟨k', v'⟩, h1, h2, h3⟩
      exact ⟨v', by rw [← h2, hπ]; exact (h.2 _ _).mp h1, h3⟩
    · rintro ⟨v', h1, h2⟩
      exact ⟨(π k, v'), (h.2 _ _).mpr h1, hπ k, h2⟩

/-- A sheet is evaluated with the definitions that it sees; that the tables are finite is all that is needed of their orders. -/
theorem evalSheet_iff {ext : Text → Option Ast} {s : Sheet} {o : Out Sheet} :
    EvalSheet sc ext s o ↔ (∃ own, IsEnum own sc.variables) ∧ (∃ e, IsEnum e ext) ∧ ∃ s₁ o', evalFills s = some s₁ ∧
      EvalRows (effective sc ext s₁) s₁.rows o' ∧ o = o'.map fun rows => ⟨rows, s₁.expanded⟩ := by
  constructor
  · rintro ⟨s₁, sheet, own, e, own', o', hf, e1, e2, e3, e4, hr, ho⟩
    rw [evalScope_effective e1 e2 e3 e4] at hr
    exact ⟨⟨own, e2⟩, ⟨e, e3⟩, s₁, o', hf, hr, ho⟩
  · rintro ⟨⟨own, e2⟩, ⟨e, e3⟩, s₁, o', hf, hr, ho⟩
    obtain ⟨sheet, e1⟩ := isEnum_collect ((insertions 0 s₁.rows).map fun p => (p.1, .cellVar p.1 p.2))
    obtain ⟨own', e4⟩ := isEnum_collect (sheet ++ own)
    refine ⟨s₁, sheet, own, e, own', o', hf, e1, e2, e3, e4, ?_, ho⟩
    rw [evalScope_effective e1 e2 e3 e4]
    exact hr

theorem evalSheet_ren (hπ : ∀ n, π (π n) = n) (hA : FixesCells π) {ext : Text → Option Ast} {s : Sheet} {o : Out Sheet} (h : EvalSheet sc ext s o) :
    EvalSheet (sc.ren π) (renTable π ext) (renSheet π s) (renOut π (renSheet π) o) := by
  rw [evalSheet_iff] at h ⊢
  obtain ⟨⟨own, e2⟩, ⟨e, e3⟩, s₁, o', hf, hr, rfl⟩ := h
  refine ⟨⟨_, isEnum_ren hπ e2⟩, ⟨_, isEnum_ren hπ e3⟩, renSheet π s₁, renOut π (List.map (renRow π)) o', by rw [evalFills_ren, hf]; rfl, ?_, ?_⟩
  · rw [effective_ren hπ]
    exact evalRows_ren hπ hA hr
  · cases o' <;> rfl

theorem renCell_renCell (hπ : ∀ n, π (π n) = n) (c : Cell) : renCell π (renCell π c) = c := by
  obtain ⟨a, f, v, o⟩ := c
  have h1 : (o.var.map π).map π = o.var := by cases h : o.var <;> simp [hπ]
  have h2 : (a.map (ren π)).map (ren π) = a := by cases a <;> simp [ren_ren hπ]
  simp only [renCell, renOpts, h1, h2]

theorem renRow_renRow (hπ : ∀ n, π (π n) = n) (r : Row) : renRow π (renRow π r) = r := by
  obtain ⟨o, f, cs⟩ := r
  have h1 : (o.var.map π).map π = o.var := by cases h : o.var <;> simp [hπ]
  have h2 : (cs.map (renCell π)).map (renCell π) = cs := by
    rw [List.map_map]
    have : renCell π ∘ renCell π = id := funext (renCell_renCell hπ)
    rw [this, List.map_id]
  simp only [renRow, renOpts, h1, h2]

theorem renSheet_renSheet (hπ : ∀ n, π (π n) = n) (s : Sheet) : renSheet π (renSheet π s) = s := by
  obtain ⟨rows, e⟩ := s
  have h2 : (rows.map (renRow π)).map (renRow π) = rows := by
    rw [List.map_map]
    have : renRow π ∘ renRow π = id := funext (renRow_renRow hπ)
    rw [this, List.map_id]
  simp only [renSheet, h2]

theorem renOut_renOut (hπ : ∀ n, π (π n) = n) (o : Out Sheet) : renOut π (renSheet π) (renOut π (renSheet π) o) = o := by
  cases o <;> simp [renOut, ren_ren hπ, renSheet_renSheet hπ]

end

/-- C100: if two names that are not those of cells are exchanged throughout a program (in the definitions, the values from the command line, the names of cells
and rows, parameters and formulas), the outcomes are the same up to the exchange, whatever the schedule. -/
theorem C100_exchange (sc : Scope) (ext : Text → Option Ast) (s : Sheet) (o : Out Sheet) {x y : Text} (hx : ∀ r : A1, r.text ≠ x) (hy : ∀ r : A1, r.text ≠ y) :
    EvalSheet (sc.ren (swapName x y)) (renTable (swapName x y) ext) (renSheet (swapName x y) s) (renOut (swapName x y) (renSheet (swapName x y)) o) ↔
      EvalSheet sc ext s o := by
  have hπ := swapName_swapName x y
  have hA := fixesCells_swap hx hy
  refine ⟨fun h => ?_, evalSheet_ren hπ hA⟩
  have := evalSheet_ren hπ hA h
  rwa [Scope.ren_ren hπ, renTable_renTable hπ, renSheet_renSheet hπ, renOut_renOut hπ] at this

/-- A sheet compiled from the program with two names exchanged has the same cells: a formula is the same but for the two names. -/
theorem C100_cells {sc : Scope} {ext : Text → Option Ast} {s s' : Sheet} (h : EvalSheet sc ext s (.ok s')) {x y : Text} (hx : ∀ r : A1, r.text ≠ x)
    (hy : ∀ r : A1, r.text ≠ y) :
    ∃ s'', EvalSheet (sc.ren (swapName x y)) (renTable (swapName x y) ext) (renSheet (swapName x y) s) (.ok s'') ∧
      ∀ i j, formulaAt s'' i j = (formulaAt s' i j).map (ren (swapName x y)) ∧
        (∀ f, formulaAt s' i j = some f → x ∉ namesOf f → y ∉ namesOf f → formulaAt s'' i j = some f) := by
  refine ⟨_, (C100_exchange sc ext s (.ok s') hx hy).mpr h, fun i j => ?_⟩
  have e : formulaAt (renSheet (swapName x y) s') i j = (formulaAt s' i j).map (ren (swapName x y)) := by
    simp only [formulaAt, renSheet, List.getElem?_map]
    cases s'.rows[j]? with
    | none => rfl
    | some r =>
      simp only [Option.map_some, Option.bind_some, renRow, List.getElem?_map]
      cases r.cells[i]? <;> rfl
  refine ⟨e, fun f hf h1 h2 => ?_⟩
  rw [e, hf, Option.map_some, ren_eq h1 h2]

/-- Why the names of cells are excepted: if a definition is called like the cell `a`, then the references to `a` that are written for the name of that cell
become the value of the definition. -/
theorem C100_violated_address {sc : Scope} {pos : Option Addr} {v nm : Text} {a : Addr} {n : Int} (hv : sc.variables v = some (.cellVar v (.absolute a)))
    (ha : sc.variables a.text = some (.var nm (.int false none n))) (hne : v ≠ a.text) : Eval sc pos (.ref v) (.ok (.int false none n)) := by
  have hs : (sc.variables v).isSome = true := by rw [hv]; rfl
  have hs' : (sc.variables a.text).isSome = true := by rw [ha]; rfl
  have r1 : refsOf sc (.ref v) = ⟨[], [v]⟩ := by simp [refsOf, fnRefs, varRefs, hs]
  have r2 : refsOf sc (.ref a.text) = ⟨[], [a.text]⟩ := by simp [refsOf, fnRefs, varRefs, hs']
  have s1 : Round sc pos (.ref v) (.ok (.ref a.text)) := by
    refine ⟨[v], [], ⟨by simp, by simp [varRefs, hs]⟩, ⟨by simp, by simp [fnRefs]⟩, ?_⟩
    have : resolveVars sc pos [v] = some [(v, .ref a.text)] := by
      simp only [resolveVars, hv, resolve]
      cases pos <;> rfl
    simp [Ast.round, this, replaceSeq, replaceVar, evalFns]
  have s2 : Round sc pos (.ref a.text) (.ok (.int false none n)) := by
    refine ⟨[a.text], [], ⟨by simp, by simp [varRefs, hs']⟩, ⟨by simp, by simp [fnRefs]⟩, ?_⟩
    simp [Ast.round, resolveVars, ha, resolve, replaceSeq, replaceVar, evalFns]
  refine .again ?_ s1 (.again ?_ s2 (.stop (.inl ⟨rfl, rfl⟩)))
  · rintro (h | h)
    · rw [r1] at h; cases h.2
    · rw [r1] at h; exact absurd ((h.2 v).mp (by simp)) (by simp)
  · rintro (h | h)
    · rw [r2] at h; cases h.2
    · rw [r2, r1] at h; exact hne ((by simpa using (h.2 v).mpr (by simp)))

/-! ### A case that meets the hypotheses -/

/-- With `f` called `total`, a sheet with a wrong call of it is rejected at the same cells. -/
example (p : Addr) (e : EvalError) (h : EvalSheet oneFn (fun _ => none) twoWrong (.err p e)) :
    EvalSheet (oneFn.ren (swapName (T "f") (T "total"))) (renTable (swapName (T "f") (T "total")) fun _ => none) (renSheet (swapName (T "f") (T "total")) twoWrong)
      (.err p ⟨ren (swapName (T "f") (T "total")) e.source, e.expected, e.received⟩) :=
  (C100_exchange oneFn _ twoWrong (.err p e) (not_cell (by decide)) (not_cell (by decide))).mpr h

example : (oneFn.ren (swapName (T "f") (T "total"))).functions (T "total") = some (.fn (T "total") [T "a"] (R "a")) := rfl

example : formulaAt (renSheet (swapName (T "f") (T "total")) twoWrong) 0 1 = some (call "total" [I 1, I 2]) := rfl

end Verif.Sheet
