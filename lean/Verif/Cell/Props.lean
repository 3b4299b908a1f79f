import Verif.Cell.Rows
import Verif.Csvp.Props
/-
C28-C31, C50: cells, their options and the options of rows.
-/
namespace Verif.Cell
open Verif.Ast Verif.Parser

/-- An environment for the examples: ASCII letters and digits and three others, no dates, no A1. -/
def demo : Env where
  uni := asciiOnly
  alnum c := c.isAlphanum || c == 'é' || c == 'あ' || c == '日'
  alnum_ascii c h := by
    have : (c == 'é') = false ∧ (c == 'あ') = false ∧ (c == '日') = false := by
      refine ⟨?_, ?_, ?_⟩ <;>
      · rw [beq_eq_false_iff_ne]; rintro rfl; revert h; decide
    simp [this]
  alnum_ws c h := by
    simp only [Bool.or_eq_true, beq_iff_eq] at h
    rcases h with ((h | h) | h) | h
    · simp only [Char.isAlphanum, Char.isAlpha, Char.isUpper, Char.isLower, Char.isDigit, Bool.or_eq_true,
        decide_eq_true_eq, Bool.and_eq_true, UInt32.le_iff_toNat_le] at h
      simp only [isWs]
      have e : c.toNat = c.val.toNat := rfl
      simp only [e, Bool.or_eq_false_iff, Bool.and_eq_false_iff, decide_eq_false_iff_not, beq_eq_false_iff_ne]
      simp at h
      omega
    all_goals subst h; decide
  lower t := t.map Char.toLower
  lower_ascii _ _ := rfl
  date _ := none
  a1 _ := none
  f64 := some

/-! ## C28 -/

/-- The formulas among the values parse. -/
def FormulasOk (E : Env) (vs : List Text) : Prop :=
  ∀ v ∈ vs, v.head? = some '=' → ∃ a, Parser.parse E.uni E.f64 v = .ok a

theorem parseAst_ok {E : Env} {v : Text} (h : v.head? = some '=' → ∃ a, Parser.parse E.uni E.f64 v = .ok a) :
    ∃ a, parseAst E v = .ok a := by
  cases v with
  | nil => exact ⟨none, rfl⟩
  | cons c r =>
    by_cases hc : c = '='
    · subst hc
      obtain ⟨a, ha⟩ := h rfl
      exact ⟨some a, by simp only [parseAst, ha]⟩
    · exact ⟨none, by unfold parseAst; split <;> simp_all⟩

theorem cellsLoop_cells (E : Env) (row : RowS) (fs : List Csvp.Field) (cs : List (List Setting × Text))
    (h : List.Forall₂ (fun f c => CellText E f.value c.1 c.2) fs cs) (hf : FormulasOk E (cs.map (·.2))) :
    ∃ cells, cellsLoop E row fs = .ok (row, cells) ∧
      cells.map (·.opts) = cs.map (fun c => settled c.1 (withoutVar row.opts)) ∧
      cells.map (·.value) = cs.map (·.2) := by
  induction h with
  | nil => exact ⟨[], rfl, rfl, rfl⟩
  | @cons f c fs cs h1 _ ih =>
    obtain ⟨cells, e1, e2, e3⟩ := ih (fun v hv => hf v (by simp at hv ⊢; exact .inr hv))
    obtain ⟨l, hl⟩ := listsLoop_cellText E (npos := f.positions.length) (x := f.addr.x) (y := f.addr.y) (row := row)
      h1 f.value.length 0 (Nat.le_refl _)
    obtain ⟨a, ha⟩ := parseAst_ok (hf c.2 (by simp))
    have hc : cellParse E f row = .ok (row, ⟨a, f, c.2, settled c.1 (withoutVar row.opts)⟩) := by
      simp only [cellParse, parseCell, hl, ha]
    refine ⟨_ :: cells, by simp only [cellsLoop, hc, e1]; rfl, by simp [e2], by simp [e3]⟩

/-- C28 for rows as they are documented: the first cell with its row options and the other cells with
their own options.  The row has the options given for it, and every cell has the row's options (not the
variable name), changed by its own. -/
theorem C28_row (E : Env) (f : Csvp.Field) (fs : List Csvp.Field) (es : List Entry) (ss : List Setting) (v : Text)
    (cs : List (List Setting × Text)) (hx : f.addr.x = 0) (hf : FirstText E f.value es ss v)
    (hfs : List.Forall₂ (fun f c => CellText E f.value c.1 c.2) fs cs)
    (hv : FormulasOk E (v :: cs.map (·.2))) :
    ∃ row, rowParse E (f :: fs) = .ok row ∧
      row.opts = settled (settings es) {} ∧
      row.fill = filled f.addr.y es none ∧
      row.cells.map (·.value) = v :: cs.map (·.2) ∧
      row.cells.map (·.opts) = (ss :: cs.map (·.1)).map fun s => settled s (withoutVar row.opts) := by
  obtain ⟨l, hl⟩ := listsLoop_firstText E (npos := f.positions.length) (y := f.addr.y) (row := {}) hf
    f.value.length 0 (Nat.le_refl _)
  obtain ⟨a, ha⟩ := parseAst_ok (hv v (by simp))
  have hc : cellParse E f {} = .ok (⟨settled (settings es) {}, filled f.addr.y es none⟩,
      ⟨a, f, v, settled ss (withoutVar (settled (settings es) {}))⟩) := by
    simp only [cellParse, parseCell, hx, hl, ha]
  obtain ⟨cells, e1, e2, e3⟩ := cellsLoop_cells E ⟨settled (settings es) {}, filled f.addr.y es none⟩ fs cs hfs
    (fun u hu => hv u (by simp at hu ⊢; exact .inr hu))
  refine ⟨⟨settled (settings es) {}, filled f.addr.y es none,
    ⟨a, f, v, settled ss (withoutVar (settled (settings es) {}))⟩ :: cells⟩, ?_, rfl, rfl, ?_, ?_⟩
  · simp only [rowParse, cellsLoop, hc, e1]
  · simp [e3]
  · simp [e2]

theorem cellsLoop_later {E : Env} {row row' : RowS} {fs : List Csvp.Field} {cells : List Cell}
    (hx : ∀ f ∈ fs, f.addr.x ≠ 0) (h : cellsLoop E row fs = .ok (row', cells)) :
    row' = row ∧ ∀ c ∈ cells, ∃ ss, c.opts = settled ss (withoutVar row.opts) := by
  induction fs generalizing cells with
  | nil => cases h; exact ⟨rfl, fun c hc => by cases hc⟩
  | cons f fs ih =>
    rw [cellsLoop] at h
    split at h
    · cases h
    · rename_i r1 c1 h1
      rw [cellParse] at h1
      split at h1
      · cases h1
      · cases h1
      · rename_i r2 o v l h2
        split at h1
        · cases h1
        · cases h1
          obtain ⟨rfl, hss⟩ := listsLoop_later (hx f (by simp)) _ (fun p hp => by cases hp) h2
          split at h
          · cases h
          · rename_i h3
            cases h
            obtain ⟨rfl, hall⟩ := ih (fun g hg => hx g (by simp [hg])) h3
            exact ⟨rfl, fun c hc => by rcases List.mem_cons.mp hc with rfl | hc; exact hss; exact hall c hc⟩

/-- C28 for every row that parses, whatever its text: the cells after the first never change the row's
options or fill, and each has the row's options (not the variable name), changed only by settings. -/
theorem C28_later_cells (E : Env) (f : Csvp.Field) (fs : List Csvp.Field) (row : Row)
    (hx : ∀ g ∈ fs, g.addr.x ≠ 0) (h : rowParse E (f :: fs) = .ok row) :
    ∃ c cs, row.cells = c :: cs ∧ cellParse E f {} = .ok (⟨row.opts, row.fill⟩, c) ∧
      ∀ d ∈ cs, ∃ ss, d.opts = settled ss (withoutVar row.opts) := by
  rw [rowParse] at h
  split at h
  · cases h
  · rename_i r cells h1
    cases h
    rw [cellsLoop] at h1
    split at h1
    · cases h1
    · rename_i r1 c h2
      split at h1
      · cases h1
      · rename_i r2 cs h3
        cases h1
        obtain ⟨rfl, h4⟩ := cellsLoop_later hx h3
        exact ⟨c, cs, rfl, h2, h4⟩

/-- C28: a row option list in any other column is an error (or a panic), also after the cell's own
options. -/
theorem C28_row_list_elsewhere (E : Env) (f : Csvp.Field) (row : RowS) (w l w' r : Text) (hx : f.addr.x ≠ 0)
    (hw : W w) (hw' : W w') (hl : l = [] ∨ ∃ ss, CellList E l ss)
    (hf : f.value = w ++ l ++ (w' ++ "![[".toList ++ r)) :
    ∀ x, cellParse E f row ≠ .ok x := by
  have key : ∀ n p off w, W w → ∀ x l', listsLoop E f.positions.length f.addr.x f.addr.y n row p
      ⟨w ++ "![[".toList ++ r, off⟩ ≠ .ok x l' := by
    intro n p off w hw x l' h
    cases n with
    | zero => cases h
    | succ n =>
      obtain ⟨tok, o, -, e⟩ := maybeStart_row hw off (r := r)
      rw [listsLoop, bind_ok e] at h
      dsimp only at h
      rw [if_pos ⟨rfl, hx⟩] at h
      exact failAt_ne h
  have hp : ∀ x l', parseCell E f row ≠ .ok x l' := by
    intro x l' h
    rw [parseCell] at h
    rcases hl with rfl | ⟨ss, hl⟩
    · have e : f.value = (w ++ w') ++ "![[".toList ++ r := by rw [hf]; simp
      rw [e] at h
      exact key _ _ _ _ (W_append hw hw') _ _ h
    · obtain ⟨o, -, e⟩ := listsLoop_cell E (npos := f.positions.length) (x := f.addr.x) (y := f.addr.y) (row := row)
        (r := w' ++ "![[".toList ++ r) hw hl f.value.length 0
      rw [← hf] at e
      rw [e] at h
      exact key _ _ _ _ hw' _ _ h
  intro x h
  rw [cellParse] at h
  split at h
  · cases h
  · cases h
  · rename_i h1; exact hp _ _ h1

/-- A cell has at most one option list of its own. -/
theorem C28_two_cell_lists (E : Env) (f : Csvp.Field) (row : RowS) (w l w' r : Text) (ss : List Setting)
    (hw : W w) (hw' : W w') (hl : CellList E l ss) (hf : f.value = w ++ l ++ (w' ++ "[[".toList ++ r)) :
    ∀ x, cellParse E f row ≠ .ok x := by
  have hp : ∀ x l', parseCell E f row ≠ .ok x l' := by
    intro x l' h
    rw [parseCell] at h
    obtain ⟨o, -, e⟩ := listsLoop_cell E (npos := f.positions.length) (x := f.addr.x) (y := f.addr.y) (row := row)
      (r := w' ++ "[[".toList ++ r) hw hl f.value.length 0
    rw [← hf] at e
    rw [e] at h
    cases hn : f.value.length with
    | zero => rw [hn] at h; cases h
    | succ n =>
      obtain ⟨tok, o', -, e'⟩ := maybeStart_cell hw' o (r := r)
      rw [hn, listsLoop, bind_ok e'] at h
      dsimp only at h
      rw [if_neg (by simp), if_pos ⟨rfl, rfl⟩] at h
      exact failAt_ne h
  intro x h
  rw [cellParse] at h
  split at h
  · cases h
  · cases h
  · rename_i h1; exact hp _ _ h1

/-- The example field: text in row 0, column `x`. -/
def fieldAt (x : Nat) (t : Text) : Csvp.Field := ⟨⟨x, 0⟩, t, t.map fun _ => ⟨0, 0⟩⟩

/-- The full claim: every cell of the row, the first included, has the row's options (not the variable
name), changed only by its own settings. -/
def C28_full : Prop :=
  ∀ (E : Env) (fs : List Csvp.Field) (row : Row), (∀ (i : Nat) (f : Csvp.Field), fs[i]? = some f → f.addr.x = i) →
    rowParse E fs = .ok row → ∀ c ∈ row.cells, ∃ ss, c.opts = settled ss (withoutVar row.opts)

theorem settled_color (ss : List Setting) (o : Opts) (h : o.color.isSome = true) : (settled ss o).color.isSome = true := by
  induction ss generalizing o with
  | nil => rw [settled_nil]; exact h
  | cons s ss ih =>
    have e : settled (s :: ss) o = settled ss (settled [s] o) := settled_append [s] ss o
    rw [e]
    refine ih _ ?_
    cases s <;> first | exact h | rfl

/-- Parts of the examples. -/
theorem noList_one {c : Char} (h1 : c ≠ '[') (h2 : c ≠ '!') (r : Text) : NoList (c :: r) :=
  ⟨fun h => by obtain ⟨r, h⟩ := h; cases h; exact h1 rfl, fun h => by obtain ⟨r, h⟩ := h; cases h; exact h2 rfl⟩

theorem lock_list (E : Env) : CellList E "[[l]]".toList [.lock] :=
  ⟨[], "l".toList, [], W_nil, W_nil, .one (.setting (.lock ⟨"l", by simp, rfl⟩)), rfl⟩

theorem white_option (E : Env) : OptText E "c=fff".toList (.color ⟨255, 255, 255⟩) :=
  OptText.color (n := "c".toList) (q := "=".toList) (v := "fff".toList) ⟨"c", by simp, rfl⟩ ⟨[], [], W_nil, W_nil, rfl⟩
    (.short (h := []) (n1 := 15) (n2 := 15) (n3 := 15) (.inl rfl) (.inr rfl) (.inr rfl) (.inr rfl) rfl)

/-- C28 is violated: row options that follow the first cell's own option list do not apply to that cell. -/
theorem C28_violated : ¬ C28_full := by
  intro h
  have hl : RowList demo "![[c=fff]]".toList [.inl (.color ⟨255, 255, 255⟩)] :=
    ⟨[], "c=fff".toList, [], W_nil, W_nil, .one (.setting (white_option demo)), rfl⟩
  generalize hf : fieldAt 0 ("[[l]]".toList ++ ("![[c=fff]]".toList ++ "a".toList)) = f
  have hv : f.value = [] ++ "[[l]]".toList ++ ([] ++ "![[c=fff]]".toList ++ "a".toList) := by rw [← hf]; rfl
  have hx : f.addr.x = 0 := by rw [← hf]; rfl
  obtain ⟨o1, -, e1⟩ := listsLoop_cell demo (npos := f.positions.length) (x := 0) (y := f.addr.y) (row := {})
    (r := [] ++ "![[c=fff]]".toList ++ "a".toList) W_nil (lock_list demo) 16 0
  obtain ⟨o2, -, e2⟩ := listsLoop_row demo (npos := f.positions.length) (y := f.addr.y) (row := {})
    (parsed := some (settled [.lock] (withoutVar {}))) (r := "a".toList) W_nil hl 15 o1
  have e3 := listsLoop_end demo (npos := f.positions.length) (x := 0) (y := f.addr.y)
    (row := ⟨settled (settings [.inl (.color ⟨255, 255, 255⟩)]) {}, filled f.addr.y [.inl (.color ⟨255, 255, 255⟩)] none⟩)
    (parsed := some (settled [.lock] (withoutVar {}))) W_nil (Solid_cons (c := 'a') rfl [])
    (noList_one (by decide) (by decide) []) 14 o2
  have hlen : f.value.length = 16 := by rw [← hf]; rfl
  obtain ⟨l, hp⟩ : ∃ l, parseCell demo f {} = .ok (⟨settled (settings [.inl (.color ⟨255, 255, 255⟩)]) {},
      filled f.addr.y [.inl (.color ⟨255, 255, 255⟩)] none⟩, settled [.lock] (withoutVar {}), ['a']) l := by
    rw [parseCell, hlen, hv, hx, e1, e2]
    exact ⟨_, e3⟩
  have hr : rowParse demo [f] = .ok ⟨settled (settings [.inl (.color ⟨255, 255, 255⟩)]) {},
      filled f.addr.y [.inl (.color ⟨255, 255, 255⟩)] none, [⟨none, f, ['a'], settled [.lock] (withoutVar {})⟩]⟩ := by
    have ha : parseAst demo ['a'] = .ok none := rfl
    simp only [rowParse, cellsLoop, cellParse, hp, ha]
  have := h demo [f] _ (fun i g hg => by
    cases i with
    | zero => cases hg; exact hx
    | succ i => cases hg) hr _ (List.mem_singleton.mpr rfl)
  obtain ⟨ss, hss⟩ := this
  have hcol := settled_color ss (withoutVar (settled (settings [.inl (.color ⟨255, 255, 255⟩)]) {})) rfl
  rw [← hss] at hcol
  cases hcol

/-- The hypotheses of `C28_row` are met: `![[c=fff v=x]]a` and `[[ B = ALL / l ]] b`. -/
example : ∃ row, rowParse demo [fieldAt 0 "![[c=fff v=x]]a".toList, fieldAt 1 "[[ b = ALL / l ]] b".toList] = .ok row ∧
      row.opts = settled [.color ⟨255, 255, 255⟩, .var "x".toList] {} ∧
      row.cells.map (·.value) = ["a".toList, "b".toList] ∧
      row.cells.map (·.opts) = [{ color := some ⟨255, 255, 255⟩ },
        settled [.border .all, .lock] { color := some ⟨255, 255, 255⟩ }] := by
  have hw0 : W [] := W_nil
  have hw1 : W [' '] := fun c hc => by rw [List.mem_singleton.mp hc]; rfl
  have hf : FirstText demo "![[c=fff v=x]]a".toList
      ([.inl (.color ⟨255, 255, 255⟩), .inl (.var "x".toList)] ++ []) [] "a".toList := by
    refine FirstText.row (w := []) (l := "![[c=fff v=x]]".toList) hw0 ⟨[], "c=fff v=x".toList, [], hw0, hw0, ?_, rfl⟩
      (.cell ⟨[], ['a'], hw0, Solid_cons rfl _, noList_one (by decide) (by decide) _, rfl, .inl ⟨rfl, rfl⟩⟩)
    refine Entries.cons (t := "c=fff".toList) (sep := " ".toList) (r := "v=x".toList) (.setting ?_) (.inl ⟨hw1, by simp⟩)
      (.one (.setting ?_))
    · exact white_option demo
    · exact OptText.var (n := "v".toList) (q := "=".toList) (v := "x".toList) ⟨"v", by simp, rfl⟩
        ⟨[], [], hw0, hw0, rfl⟩ (by simp) (by intro c hc; rw [List.mem_singleton.mp hc]; rfl)
  have hc : CellText demo "[[ b = ALL / l ]] b".toList [.border .all, .lock] "b".toList := by
    refine ⟨[' '], ['b'], hw1, Solid_cons rfl _, noList_one (by decide) (by decide) _, rfl, .inr ⟨[], "[[ b = ALL / l ]]".toList, hw0,
      ⟨[' '], "b = ALL / l".toList, [' '], hw1, hw1, ?_, rfl⟩, rfl⟩⟩
    refine Entries.cons (t := "b = ALL".toList) (sep := " / ".toList) (r := "l".toList) (.setting ?_)
      (.inr ⟨[' '], [' '], hw1, hw1, rfl⟩) (.one (.setting (.lock ⟨"l", by simp, rfl⟩)))
    exact OptText.border (n := "b".toList) (q := " = ".toList) (v := "ALL".toList) (x := .all) ⟨"b", by simp, rfl⟩
      ⟨[' '], [' '], hw1, hw1, rfl⟩ ⟨by decide, "all", by simp [sideNames], by decide⟩
  obtain ⟨row, h1, h2, -, h4, h5⟩ := C28_row demo (fieldAt 0 "![[c=fff v=x]]a".toList)
    [fieldAt 1 "[[ b = ALL / l ]] b".toList] _ _ _ [([.border .all, .lock], "b".toList)] rfl hf (.cons hc .nil)
    (by intro v hv h; simp at hv; rcases hv with rfl | rfl <;> cases h)
  refine ⟨row, h1, h2, h4, ?_⟩
  rw [h5, h2]; rfl

/-! ## C29 -/

theorem cellParse_inv {E : Env} {f : Csvp.Field} {row row' : RowS} {c : Cell} (h : cellParse E f row = .ok (row', c)) :
    c.field = f ∧ ∃ l, parseCell E f row = .ok (row', c.opts, c.value) l ∧ parseAst E c.value = .ok c.ast := by
  rw [cellParse] at h
  split at h
  · cases h
  · cases h
  · rename_i h1
    split at h
    · cases h
    · rename_i h2
      cases h
      exact ⟨rfl, _, h1, h2⟩

/-- C29: a cell is a formula exactly when its text starts with `=`, and then it is the formula of that
text; otherwise its text is emitted as it is. -/
theorem C29_formula_iff (E : Env) (f : Csvp.Field) (row row' : RowS) (c : Cell)
    (h : cellParse E f row = .ok (row', c)) :
    (c.ast.isSome = true ↔ c.value.head? = some '=') ∧
    (∀ a, c.ast = some a → Parser.parse E.uni E.f64 c.value = .ok a) ∧
    (c.value.head? ≠ some '=' → c.display = c.value) := by
  obtain ⟨-, l, -, h2⟩ := cellParse_inv h
  by_cases hv : c.value.head? = some '='
  · obtain ⟨r, hr⟩ : ∃ r, c.value = '=' :: r := by
      cases hc : c.value with
      | nil => rw [hc] at hv; cases hv
      | cons d r => rw [hc] at hv; cases hv; exact ⟨r, rfl⟩
    rw [hr, parseAst] at h2
    rw [hr]
    split at h2
    · rename_i a ha
      have h2' : c.ast = some a := (Except.ok.inj h2).symm
      rw [h2']
      exact ⟨by simp, fun b hb => by cases hb; exact ha, fun hn => absurd rfl hn⟩
    · cases h2
  · have h3 : parseAst E c.value = .ok none := by
      unfold parseAst
      split
      · rename_i hc; rw [hc] at hv; exact absurd rfl hv
      · rfl
    rw [h3] at h2
    have h2' : c.ast = none := (Except.ok.inj h2).symm
    refine ⟨by rw [h2']; simpa using hv, fun a ha => ?_, fun _ => ?_⟩
    · rw [h2'] at ha; cases ha
    · rw [Cell.display, h2']

/-- C29: the text of a cell has no white space around it and is a piece of the text of the field. -/
theorem C29_text_kept (E : Env) (f : Csvp.Field) (row row' : RowS) (c : Cell)
    (h : cellParse E f row = .ok (row', c)) :
    (∀ d, c.value.head? = some d → isWs d = false) ∧ (∀ d, c.value.getLast? = some d → isWs d = false) ∧
      ∃ a b, f.value = a ++ c.value ++ b := by
  obtain ⟨-, l, h1, -⟩ := cellParse_inv h
  obtain ⟨r, hr⟩ := listsLoop_value _ h1
  obtain ⟨a, b, hab⟩ := listsLoop_infix _ h1
  exact ⟨by rw [hr]; exact Csvp.trim_head r, by rw [hr]; exact Csvp.trim_last r, a, b, hab.symm⟩

theorem trim_of_trimmed {t : Text} (h1 : ∀ c, t.head? = some c → isWs c = false)
    (h2 : ∀ c, t.getLast? = some c → isWs c = false) : trim t = t := by
  have e1 : trimStart t = t := by
    cases t with
    | nil => rfl
    | cons c t => exact List.dropWhile_cons_of_neg (by simpa using h1 c rfl)
  rw [trim, e1, trimEnd]
  cases hr : t.reverse with
  | nil => rw [List.reverse_eq_nil_iff.mp hr]; rfl
  | cons c s =>
    have : t.getLast? = some c := by rw [List.getLast?_eq_head?_reverse, hr]; rfl
    rw [List.dropWhile_cons_of_neg (by simpa using h2 c this), ← hr, List.reverse_reverse]

/-- C29: in a parsed CSV file, a field that does not start with an option list is a cell with exactly the
field's text (the field's value is already trimmed), the options of the row and no others. -/
theorem C29_no_options (E : Env) (cfg : Csvp.Config) (t : Text) (rs : List (List Csvp.Field))
    (hrs : Csvp.parse cfg t = .ok rs) (r : List Csvp.Field) (hr : r ∈ rs) (f : Csvp.Field) (hf : f ∈ r)
    (hno : NoList f.value) (row row' : RowS) (c : Cell) (h : cellParse E f row = .ok (row', c)) :
    c.value = f.value ∧ row' = row ∧ c.opts = withoutVar row.opts := by
  obtain ⟨h1, h2⟩ := Csvp.C08_trimmed cfg t rs hrs r hr f hf
  have hc : CellText E f.value [] f.value :=
    ⟨[], f.value, W_nil, fun d hd => h1 d hd, hno, (trim_of_trimmed h1 h2).symm, .inl ⟨rfl, rfl⟩⟩
  obtain ⟨l, hl⟩ := listsLoop_cellText E (npos := f.positions.length) (x := f.addr.x) (y := f.addr.y) (row := row)
      hc f.value.length 0 (Nat.le_refl _)
  obtain ⟨-, l', h3, -⟩ := cellParse_inv h
  rw [parseCell, hl] at h3
  simp only [R.ok.injEq, Prod.mk.injEq] at h3
  exact ⟨h3.1.2.2.symm, h3.1.1.symm, by rw [← h3.1.2.1, settled_nil]⟩

/-! ## C30 -/

theorem takeBytes_some {n : Nat} {s t : Text} (h : takeBytes n s = some t) : ∃ r, s = t ++ r ∧ byteLen t = n := by
  induction s generalizing n t with
  | nil =>
    cases n with
    | zero => cases h; exact ⟨[], rfl, rfl⟩
    | succ n => cases h
  | cons c s ih =>
    cases n with
    | zero => cases h; exact ⟨c :: s, rfl, rfl⟩
    | succ n =>
      rw [takeBytes] at h
      split at h
      · rename_i hc
        cases ht : takeBytes (n + 1 - c.utf8Size) s with
        | none => rw [ht] at h; cases h
        | some t' =>
          rw [ht] at h; cases h
          obtain ⟨r, h1, h2⟩ := ih ht
          exact ⟨r, by rw [h1]; rfl, by rw [byteLen_cons, h2]; omega⟩
      · cases h

theorem HexDigit_of_hexVal {c : Char} {n : Nat} (h : hexVal c = some n) : HexDigit c n := by
  have hc : c = Char.ofNat c.toNat := (Char.ofNat_toNat c).symm
  have e0 : ('0' : Char).toNat = 48 := rfl
  have ea : ('a' : Char).toNat = 97 := rfl
  have eA : ('A' : Char).toNat = 65 := rfl
  rw [hexVal] at h
  split at h
  · rename_i h1
    have h2 : 48 ≤ c.toNat := h1.1
    have h3 : c.toNat ≤ 57 := h1.2
    rw [e0] at h
    obtain rfl : c.toNat - 48 = n := by simpa using h
    rw [hc]
    generalize c.toNat = k at h2 h3 ⊢
    interval_cases k <;> exact .inl rfl
  · split at h
    · rename_i h1
      have h2 : 97 ≤ c.toNat := h1.1
      have h3 : c.toNat ≤ 102 := h1.2
      rw [ea] at h
      obtain rfl : c.toNat - 97 + 10 = n := by simpa using h
      rw [hc]
      generalize c.toNat = k at h2 h3 ⊢
      interval_cases k <;> exact .inr rfl
    · split at h
      · rename_i h1
        have h2 : 65 ≤ c.toNat := h1.1
        have h3 : c.toNat ≤ 70 := h1.2
        rw [eA] at h
        obtain rfl : c.toNat - 65 + 10 = n := by simpa using h
        rw [hc]
        generalize c.toNat = k at h2 h3 ⊢
        interval_cases k <;> exact .inl rfl
      · cases h

theorem hexFold_none (s : Text) :
    s.foldl (fun (a : Option Nat) c => a.bind fun n => (hexVal c).map fun d => n * 16 + d) none = none := by
  induction s with
  | nil => rfl
  | cons c s ih => simpa using ih

theorem hexFold_digits {s : Text} {a n : Nat}
    (h : s.foldl (fun (a : Option Nat) c => a.bind fun n => (hexVal c).map fun d => n * 16 + d) (some a) = some n) :
    ∀ c ∈ s, ∃ d, HexDigit c d := by
  induction s generalizing a with
  | nil => intro c hc; cases hc
  | cons c s ih =>
    rw [List.foldl_cons] at h
    cases hv : hexVal c with
    | none => rw [hv] at h; simp only [Option.bind_some, Option.map_none] at h; rw [hexFold_none] at h; cases h
    | some d =>
      rw [hv] at h
      simp only [Option.bind_some, Option.map_some] at h
      intro e he
      rcases List.mem_cons.mp he with rfl | he
      · exact ⟨d, HexDigit_of_hexVal hv⟩
      · exact ih h e he

theorem hexByte_digits {s : Text} {v : UInt8} (h : hexByte s = some v) : ∀ c ∈ s, ∃ d, HexDigit c d := by
  rw [hexByte] at h
  split at h
  · cases h
  · rename_i n hn; exact hexFold_digits hn

theorem hexAt_inv {s : Text} {i k : Nat} {d : Bool} {v : UInt8} (h : hexAt s i k d = .ok v) :
    ∃ p t r, s = p ++ t ++ r ∧ byteLen p = i ∧ t.length = k ∧ (∀ c ∈ t, ∃ n, HexDigit c n) ∧ stringToHex t d = some v := by
  rw [hexAt] at h
  split at h
  · cases h
  · rename_i t ht
    split at h
    · rename_i v' hv
      cases h
      cases hd : dropBytes i s with
      | none => rw [hd] at ht; cases ht
      | some q =>
        rw [hd] at ht
        obtain ⟨p, h1, h2⟩ := dropBytes_some hd
        obtain ⟨r, h3, h4⟩ := takeBytes_some ht
        have hdig : ∀ c ∈ t, ∃ n, HexDigit c n := by
          intro c hc
          refine hexByte_digits hv c ?_
          cases d with
          | true => exact List.mem_append_left _ hc
          | false => exact hc
        refine ⟨p, t, r, by rw [h1, h3, List.append_assoc], h2, ?_, hdig, hv⟩
        rw [← h4, byteLen_ascii]
        intro c hc
        obtain ⟨n, hn⟩ := hdig c hc
        exact hn.facts.2.1
    · cases h

theorem append_bytes_inj {a b r s : Text} (h : a ++ r = b ++ s) (hb : byteLen a = byteLen b) : a = b ∧ r = s := by
  have h1 := dropBytes_append a r
  rw [h, hb, dropBytes_append] at h1
  obtain rfl := Option.some.inj h1
  exact ⟨List.append_cancel_right h, rfl⟩

theorem ascii_digits {t : Text} (h : ∀ c ∈ t, ∃ n, HexDigit c n) : byteLen t = t.length :=
  byteLen_ascii fun c hc => by obtain ⟨n, hn⟩ := h c hc; exact hn.facts.2.1

theorem rgbParse_inv {s : Text} {x : Rgb} (h : rgbParse s = .ok x) (hs : byteLen s = 3 ∨ byteLen s = 6)
    (h0 : Text) (hh : h0 = [] ∨ h0 = ['#']) : ColorText (h0 ++ s) x := by
  obtain ⟨k, d, hk, hkd⟩ : ∃ k d, (if byteLen s = 6 then (2, false) else (1, true) : Nat × Bool) = (k, d) ∧
      (byteLen s = 3 * k) ∧ ((k = 1 ∧ d = true) ∨ (k = 2 ∧ d = false)) := by
    rcases hs with hs | hs <;> rw [hs] <;> exact ⟨_, _, rfl, rfl, by simp⟩
  obtain ⟨hlen, hkd⟩ := hkd
  rw [rgbParse, hk] at h
  dsimp only at h
  split at h
  · cases h
  · cases h
  · rename_i r hr
    split at h
    · cases h
    · cases h
    · rename_i g hg
      split at h
      · cases h
      · cases h
      · rename_i b hb
        cases h
        obtain ⟨p1, t1, r1, e1, l1, k1, d1, v1⟩ := hexAt_inv hr
        obtain ⟨p2, t2, r2, e2, l2, k2, d2, v2⟩ := hexAt_inv hg
        obtain ⟨p3, t3, r3, e3, l3, k3, d3, v3⟩ := hexAt_inv hb
        have q1 : p1 = [] := List.length_eq_zero_iff.mp (by have := length_le_byteLen p1; omega)
        subst q1
        rw [List.nil_append] at e1
        have b1 := ascii_digits d1
        have b2 := ascii_digits d2
        have b3 := ascii_digits d3
        have q2 : t1 = p2 ∧ r1 = t2 ++ r2 := append_bytes_inj (by rw [← e1, e2, List.append_assoc]) (by omega)
        obtain ⟨rfl, rfl⟩ := q2
        have q3 : t1 ++ t2 = p3 ∧ r2 = t3 ++ r3 := by
          refine append_bytes_inj ?_ (by rw [byteLen_append]; omega)
          rw [List.append_assoc, ← e1, e3, List.append_assoc]
        obtain ⟨rfl, rfl⟩ := q3
        have q4 : r3 = [] := by
          have hh := hlen
          rw [e1, byteLen_append, byteLen_append, byteLen_append] at hh
          exact List.length_eq_zero_iff.mp (by have := length_le_byteLen r3; omega)
        subst q4
        rw [List.append_nil] at e1
        subst e1
        rcases hkd with ⟨rfl, rfl⟩ | ⟨rfl, rfl⟩
        · obtain ⟨a, rfl⟩ := List.length_eq_one_iff.mp k1
          obtain ⟨b', rfl⟩ := List.length_eq_one_iff.mp k2
          obtain ⟨c, rfl⟩ := List.length_eq_one_iff.mp k3
          obtain ⟨na, ha⟩ := d1 a (by simp)
          obtain ⟨nb, hb'⟩ := d2 b' (by simp)
          obtain ⟨nc, hc⟩ := d3 c (by simp)
          have w : ∀ (a : Char) (n : Nat) (v : UInt8), HexDigit a n → stringToHex [a] true = some v → v = UInt8.ofNat (n * 17) := by
            intro a n v hd hv
            have := hexByte_two hd.facts.1 hd.facts.1 hd.lt hd.lt
            rw [stringToHex, if_pos rfl] at hv
            change hexByte [a, a] = _ at hv
            rw [this] at hv
            have : n * 17 = n * 16 + n := by omega
            rw [this]
            exact (Option.some.inj hv).symm
          exact ColorText.short hh ha hb' hc (by rw [w _ _ _ ha v1, w _ _ _ hb' v2, w _ _ _ hc v3])
        · obtain ⟨a, b', rfl⟩ := List.length_eq_two.mp k1
          obtain ⟨c, d, rfl⟩ := List.length_eq_two.mp k2
          obtain ⟨e, f, rfl⟩ := List.length_eq_two.mp k3
          obtain ⟨na, ha⟩ := d1 a (by simp)
          obtain ⟨nb, hb'⟩ := d1 b' (by simp)
          obtain ⟨nc, hc⟩ := d2 c (by simp)
          obtain ⟨nd, hd⟩ := d2 d (by simp)
          obtain ⟨ne, he⟩ := d3 e (by simp)
          obtain ⟨nf, hf⟩ := d3 f (by simp)
          have w : ∀ (a b : Char) (m n : Nat) (v : UInt8), HexDigit a m → HexDigit b n →
              stringToHex [a, b] false = some v → v = UInt8.ofNat (m * 16 + n) := by
            intro a b m n v hm hn hv
            rw [stringToHex, if_neg (by simp), hexByte_two hm.facts.1 hn.facts.1 hm.lt hn.lt] at hv
            exact (Option.some.inj hv).symm
          exact ColorText.long hh ha hb' hc hd he hf
            (by rw [w _ _ _ _ _ ha hb' v1, w _ _ _ _ _ hc hd v2, w _ _ _ _ _ he hf v3])

/-- C30: the texts read as colours are exactly `#RRGGBB`, `RRGGBB`, `#RGB` and `RGB` (a digit of the
short form stands for itself twice), and each denotes the colour one expects.  (A `+`, which
`from_str_radix` would accept before a digit, is excluded; it cannot occur in a colour option.) -/
theorem C30_colours (s : Text) (x : Rgb) (_hplus : '+' ∉ s) : rgbTryFrom s = .ok x ↔ ColorText s x := by
  refine ⟨fun h => ?_, rgb_of_colorText⟩
  by_cases hh : ∃ r, s = '#' :: r
  · obtain ⟨r, rfl⟩ := hh
    simp only [rgbTryFrom] at h
    split at h
    · rename_i hs; exact rgbParse_inv h hs ['#'] (.inr rfl)
    · cases h
  · have e : rgbTryFrom s = if byteLen s = 3 ∨ byteLen s = 6 then rgbParse s else .err := by
      unfold rgbTryFrom
      split
      · exact absurd ⟨_, rfl⟩ hh
      · rfl
    rw [e] at h
    split at h
    · rename_i hs; exact rgbParse_inv h hs [] (.inl rfl)
    · cases h

theorem hexDigit_spec {n : Nat} (h : n < 16) : HexDigit (hexDigit n) n := by
  interval_cases n <;> exact .inl rfl

/-- C30: printing a colour and reading it gives the colour; every colour prints as `#RRGGBB`. -/
theorem C30_round_trip (c : Rgb) : rgbTryFrom c.display = .ok c := by
  have hb : ∀ v : UInt8, v = UInt8.ofNat (v.toNat / 16 * 16 + v.toNat % 16) := by
    intro v
    rw [Nat.mul_comm, Nat.div_add_mod, UInt8.ofNat_toNat]
  have hd : ∀ v : UInt8, v.toNat / 16 < 16 := fun v => by have := v.toNat_lt; omega
  have hm : ∀ v : UInt8, v.toNat % 16 < 16 := fun v => Nat.mod_lt _ (by decide)
  refine rgb_of_colorText ?_
  exact ColorText.long (h := ['#']) (.inr rfl) (hexDigit_spec (hd c.r)) (hexDigit_spec (hm c.r)) (hexDigit_spec (hd c.g))
    (hexDigit_spec (hm c.g)) (hexDigit_spec (hd c.b)) (hexDigit_spec (hm c.b)) (by rw [← hb, ← hb, ← hb])

example : rgbTryFrom "#a1B2c3".toList = .ok ⟨0xA1, 0xB2, 0xC3⟩ ∧ rgbTryFrom "f0c".toList = .ok ⟨0xFF, 0x00, 0xCC⟩ ∧
    rgbTryFrom "#12345".toList = .err := ⟨rfl, rfl, rfl⟩

/-- A colour whose characters are three letters of six bytes makes the reader panic, because the text is
cut inside a character. -/
theorem C30_non_ascii_panics : rgbTryFrom ['a', 'é', 'あ'] = .panic := rfl

/-! ## C31 -/

/-- C31 (for ASCII texts; see `C31_violated` for the others): a text in single quotes is read back, and
exactly the quoted text is consumed. -/
theorem C31_quoted_partial (npos : Nat) (w t rest : Text) (off : Nat) (hw : W w) (h : Ascii t) :
    ∃ k, takeSingleQuoted npos ⟨w ++ squote t ++ rest, off⟩ = .ok k ⟨rest, off + byteLen (w ++ squote t)⟩ ∧ k.s = t := by
  obtain ⟨k, h1, h2⟩ := Reads_squote (npos := npos) hw h rest off trivial
  exact ⟨k, h2, h1⟩

theorem qbody_nonAscii {t : Text} (h : ¬ Ascii t) : ¬ Ascii (qbody t) := by
  intro h1
  refine h fun c hc => h1 c ?_
  rw [qbody, List.mem_flatMap]
  exact ⟨c, hc, by split <;> simp⟩

/-- The full claim. -/
def C31_full : Prop :=
  ∀ (npos : Nat) (t rest : Text) (off : Nat),
    ∃ k l, takeSingleQuoted npos ⟨squote t ++ rest, off⟩ = .ok k l ∧ k.s = t ∧ l.input = rest

/-- C31 is violated, for every text with a non-ASCII character: too little of the cell is skipped (or the
reader panics), whatever follows. -/
theorem C31_non_ascii (npos : Nat) (t rest : Text) (off : Nat) (h : ¬ Ascii t) (k : CTok) (l : Lx)
    (hk : takeSingleQuoted npos ⟨squote t ++ rest, off⟩ = .ok k l) :
    k.s = t ∧ rest.length < l.input.length := by
  have hs : Solid (squote t ++ rest) := Solid_cons rfl _
  have e := takeWhitespace_ws W_nil hs off
  rw [List.nil_append] at e
  rw [takeSingleQuoted, bind_ok e] at hk
  have e2 : squote t ++ rest = '\'' :: (qbody t ++ '\'' :: rest) := by rw [squote_eq]; simp
  rw [e2] at hk
  simp only [if_pos, quotedLoop_body, List.nil_append] at hk
  obtain ⟨tok, l1, h1, hk⟩ := bind_inv hk
  rw [matchToken] at h1
  cases h1
  obtain ⟨_, l2, h2, hk⟩ := bind_inv hk
  obtain ⟨rfl, rfl⟩ := pure_inv hk
  refine ⟨rfl, ?_⟩
  rw [moveInput] at h2
  split at h2
  · rename_i r hr
    cases h2
    obtain ⟨p, hp, hb⟩ := dropBytes_some hr
    dsimp only at hp ⊢
    have hq := length_lt_byteLen (qbody_nonAscii h)
    by_contra hle
    have hs1 : r <:+ '\'' :: (qbody t ++ '\'' :: rest) := ⟨p, hp.symm⟩
    have hs2 : rest <:+ '\'' :: (qbody t ++ '\'' :: rest) := ⟨'\'' :: (qbody t ++ ['\'']), by simp⟩
    obtain ⟨q, hq2⟩ := List.suffix_of_suffix_length_le hs1 hs2 (by omega)
    have e3 : ('\'' :: (qbody t ++ ['\'']) ++ q) ++ r = p ++ r := by rw [← hp, ← hq2]; simp
    have e4 := List.append_cancel_right e3
    rw [← e4, byteLen_append, byteLen_cons, byteLen_append, byteLen_cons] at hb
    have e5 : ('\'' : Char).utf8Size = 1 := rfl
    rw [e5] at hb
    omega
  · cases h2

theorem C31_violated : ¬ C31_full := by
  intro h
  obtain ⟨k, l, h1, -, h3⟩ := h 5 ['日'] [] 0
  have := (C31_non_ascii 5 ['日'] [] 0 (by intro h; exact absurd (h '日' (by simp)) (by decide)) k l h1).2
  rw [h3] at this
  exact absurd this (by decide)

example : takeSingleQuoted 20 ⟨"'it\\'s'/l]]".toList, 0⟩ = .ok ⟨"it's".toList, 0⟩ ⟨"/l]]".toList, 7⟩ := rfl
/-- A realistic case of the violation: the rest of a note is read as a value. -/
example : takeSingleQuoted 20 ⟨['\'', 'é', '\'', ']', ']'], 0⟩ = .ok ⟨['é'], 0⟩ ⟨['\'', ']', ']'], 3⟩ := rfl

/-! ## C50 -/

theorem spells_length {cfg t lo hi is raw ps} (h : Csvp.Spells cfg t lo hi is raw ps) :
    raw.length = ps.length ∧ ∀ c ∈ raw, c ∈ t := by
  have h1 := congrArg List.length h.chars
  simp only [List.length_map] at h1
  refine ⟨by rw [h.pos, List.length_map, h1], fun c hc => ?_⟩
  have : some c ∈ raw.map some := List.mem_map_of_mem hc
  rw [← h.chars, List.mem_map] at this
  obtain ⟨i, -, hi⟩ := this
  exact List.mem_of_getElem? hi

/-- C50: parsing the cells of an ASCII file never panics, whatever the row's options, and an error points
to a character of the cell: the field knows the position of that character in the file. -/
theorem C50_ascii_no_panic (E : Env) (cfg : Csvp.Config) (t : Text) (ht : Ascii t) (rs : List (List Csvp.Field))
    (hrs : Csvp.parse cfg t = .ok rs) (r : List Csvp.Field) (hr : r ∈ rs) (f : Csvp.Field) (hf : f ∈ r) (row : RowS) :
    parseCell E f row ≠ .panic ∧
      ∀ o, parseCell E f row = .err o → ∃ p, f.positionForOffset o = some p := by
  obtain ⟨is, raw, h1, h2, -⟩ := Csvp.field_raw hrs r hr f hf
  obtain ⟨h3, h4⟩ := spells_length h1
  have hinf := trim_infix raw
  rw [← h2] at hinf
  have := parseCell_safe E f row (fun c hc => ht c (h4 c (hinf.subset hc))) (by have := hinf.length_le; omega)
  refine ⟨this.1, fun o ho => ?_⟩
  have hlt := this.2 o ho
  exact ⟨f.positions[o], by rw [Csvp.Field.positionForOffset, if_neg (by omega), List.getElem?_eq_getElem hlt]⟩

theorem cellsLoop_panic {E : Env} {row : RowS} {fs : List Csvp.Field} (h : cellsLoop E row fs = .error .panic) :
    ∃ f ∈ fs, ∃ row, parseCell E f row = .panic := by
  induction fs generalizing row with
  | nil => cases h
  | cons f fs ih =>
    rw [cellsLoop] at h
    split at h
    · rename_i e he
      rw [cellParse] at he
      split at he
      · rename_i hp; exact ⟨f, by simp, row, hp⟩
      · cases he; cases h
      · split at he
        · cases he; cases h
        · cases he
    · split at h
      · rename_i h1
        cases h
        obtain ⟨g, hg, hp⟩ := ih h1
        exact ⟨g, by simp [hg], hp⟩
      · cases h

/-- C50 for rows. -/
theorem C50_ascii_rows (E : Env) (cfg : Csvp.Config) (t : Text) (ht : Ascii t) (rs : List (List Csvp.Field))
    (hrs : Csvp.parse cfg t = .ok rs) (r : List Csvp.Field) (hr : r ∈ rs) : rowParse E r ≠ .error .panic := by
  intro h
  rw [rowParse] at h
  split at h
  · rename_i h1
    cases h
    obtain ⟨f, hf, row, hp⟩ := cellsLoop_panic h1
    exact (C50_ascii_no_panic E cfg t ht rs hrs r hr f hf row).1 hp
  · cases h

/-- The full claim. -/
def C50_full : Prop :=
  ∀ (E : Env) (cfg : Csvp.Config) (t : Text) (rs : List (List Csvp.Field)), Csvp.parse cfg t = .ok rs →
    ∀ r ∈ rs, rowParse E r ≠ .error .panic

/-- C50 is violated for non-ASCII files: the cell `[[n='日']]` panics. -/
theorem C50_violated : ¬ C50_full := by
  intro h
  have e1 : Csvp.parse ⟨',', 0⟩ ['[', '[', 'n', '=', '\'', '日', '\'', ']', ']'] =
      .ok [[⟨⟨0, 0⟩, ['[', '[', 'n', '=', '\'', '日', '\'', ']', ']'],
        [⟨0, 0⟩, ⟨0, 1⟩, ⟨0, 2⟩, ⟨0, 3⟩, ⟨0, 4⟩, ⟨0, 5⟩, ⟨0, 6⟩, ⟨0, 7⟩, ⟨0, 8⟩]⟩]] := by decide +kernel
  have e2 : ∀ ps, parseCell demo ⟨⟨0, 0⟩, ['[', '[', 'n', '=', '\'', '日', '\'', ']', ']'], ps⟩ {} = .panic := fun ps => rfl
  refine h demo _ _ _ e1 _ (List.mem_singleton.mpr rfl) ?_
  simp only [rowParse, cellsLoop, cellParse, e2]

end Verif.Cell
