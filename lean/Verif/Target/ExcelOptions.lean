import Verif.Target.ExcelProps
import Mathlib.Tactic.Tauto
import Mathlib.Order.Defs.LinearOrder
import Mathlib.Data.Rat.Cast.Order
import Mathlib.Algebra.Order.Ring.Rat
/-
What the values, options and validations of a compiled cell become in a worksheet (C61, C64, C65, C67, C70, C71, C72).
-/
namespace Verif.Target
open Verif.Ast Verif.Parser Verif.Cell Verif.Sheet

section
variable {den : Text → DateVal} {ov : Bool} {s : Sheet} {ws ws' : Worksheet}

theorem written_at (h : buildWorksheet den ov s ws = some ws') {i j : Nat} {c : Cell} (hw : Written ov s ws i j c) :
    ws'.at i j = some ⟨setValue ((ws.at i j).bind (·.value)) c, styleOf c⟩ := by
  obtain ⟨hc, ho⟩ := hw
  rw [build_at h, hc]
  simp [newCell, ho]

/-! ### Values -/

/-- C61 (Excel): a formula that is a literal becomes a value of its type, and any other formula a formula, whose text is that of the CSV
output. -/
theorem C61_excel_formula (h : buildWorksheet den ov s ws = some ws') {i j : Nat} {c : Cell} (hw : Written ov s ws i j c) {a : Ast} (ha : c.ast = some a) :
    ∃ v, (ws'.at i j).bind (·.value) = some v ∧
      (∀ b, a = .bool b → v = .bool b) ∧ (∀ t, a = .text t → v = .text t) ∧ (∀ n, a = .int false none n → v = .int n) ∧
      (∀ t, a = .float false none t → v = .float t) ∧
      ((∀ b, a ≠ .bool b) → (∀ t, a ≠ .text t) → (∀ n, a ≠ .int false none n) → (∀ t, a ≠ .float false none t) →
        ∃ t, v = .formula t ∧ c.display = '=' :: t) := by
  rw [written_at h hw]
  simp only [Option.bind_some, setValue, ha, Cell.display, displayFormula]
  split <;> simp_all

/-- C61 is false: whatever a cell without formula contains, be it a number, becomes a text. -/
theorem C61_violated (h : buildWorksheet den ov s ws = some ws') {i j : Nat} {c : Cell} (hw : Written ov s ws i j c) (ha : c.ast = none)
    (hv : c.value ≠ []) : (ws'.at i j).bind (·.value) = some (.text c.value) := by
  rw [written_at h hw]
  simp [setValue, ha, hv]

/-! ### Format -/

/-- C64: the borders are those of the sides that are given, all of them if `all` is. -/
theorem C64_borders (h : buildWorksheet den ov s ws = some ws') {i j : Nat} {c : Cell} (hw : Written ov s ws i j c) :
    ∃ e, ws'.at i j = some e ∧
      ∀ side drawn, (side, drawn) ∈ [(BorderSide.left, e.style.left), (.right, e.style.right), (.top, e.style.top), (.bottom, e.style.bottom)] →
        drawn = if c.opts.borders side ∨ c.opts.borders .all then some c.opts.borderStyle else none := by
  refine ⟨_, written_at h hw, ?_⟩
  intro side drawn hm
  simp only [styleOf, borderOf, Cell.sideHasBorder, List.mem_cons, Prod.mk.injEq, List.not_mem_nil, or_false] at hm
  rcases hm with ⟨rfl, rfl⟩ | ⟨rfl, rfl⟩ | ⟨rfl, rfl⟩ | ⟨rfl, rfl⟩ <;> simp [or_comm]

/-- C64: alignment, number format and font are those of the cell: a font is given exactly if one of its options is. -/
theorem C64_format (h : buildWorksheet den ov s ws = some ws') {i j : Nat} {c : Cell} (hw : Written ov s ws i j c) :
    ∃ e, ws'.at i j = some e ∧ e.style.halign = c.opts.halign ∧ e.style.valign = c.opts.valign ∧ e.style.numFmt = c.opts.numFmt ∧
      (e.style.wrap = true ↔ c.opts.wrap = .wrap) ∧
      (e.style.font = none ↔ c.opts.fontSize = none ∧ c.opts.fontFamily = none ∧ c.opts.fontColor = none ∧ ∀ f, c.opts.textFmts f = false) ∧
      ∀ f, e.style.font = some f → f.size = c.opts.fontSize ∧ f.name = c.opts.fontFamily ∧ f.bold = c.opts.textFmts .bold ∧
        f.italic = c.opts.textFmts .italic ∧ f.strikethrough = c.opts.textFmts .strikethrough ∧ f.underline = c.opts.textFmts .underline := by
  refine ⟨_, written_at h hw, rfl, rfl, rfl, by simp [styleOf], ?_, ?_⟩
  · simp only [styleOf, fontOf]
    have : (∀ f, c.opts.textFmts f = false) ↔ c.opts.textFmts .bold = false ∧ c.opts.textFmts .italic = false ∧
        c.opts.textFmts .strikethrough = false ∧ c.opts.textFmts .underline = false :=
      ⟨fun h => ⟨h _, h _, h _, h _⟩, fun h f => by cases f <;> tauto⟩
    rw [this]
    split <;> rename_i h <;> simp only [reduceCtorEq, true_iff, false_iff] <;> tauto
  · intro f hf
    simp only [styleOf, fontOf] at hf
    split at hf
    · cases hf
    · cases hf; exact ⟨rfl, rfl, rfl, rfl, rfl, rfl⟩

/-- The text of an opaque colour in a worksheet: `FF` and the two digits each of red, green and blue (ARGB). -/
def argb (c : Rgb) : Text := "FF".toList ++ hex2 c.r ++ hex2 c.g ++ hex2 c.b

theorem hex2_inj : ∀ a b : UInt8, hex2 a = hex2 b → a = b := by
  intro a b h
  have key : ∀ m n : Fin 256, [hexDigit (m.val / 16), hexDigit (m.val % 16)] = [hexDigit (n.val / 16), hexDigit (n.val % 16)] → m = n := by
    intro m n h
    have hd : ∀ x y : Fin 16, hexDigit x.val = hexDigit y.val → x = y := by decide
    simp only [List.cons.injEq, and_true] at h
    have h1 := hd ⟨m.val / 16, by omega⟩ ⟨n.val / 16, by omega⟩ h.1
    have h2 := hd ⟨m.val % 16, by omega⟩ ⟨n.val % 16, by omega⟩ h.2
    simp only [Fin.mk.injEq] at h1 h2
    ext
    omega
  have := key ⟨a.toNat, a.toNat_lt⟩ ⟨b.toNat, b.toNat_lt⟩ h
  simp only [Fin.mk.injEq] at this
  exact UInt8.toNat_inj.mp this

/-- C64 is false of colours: they are written as RGBA, which is the colour meant only for white. -/
theorem C64_color_violated (h : buildWorksheet den ov s ws = some ws') {i j : Nat} {c : Cell} (hw : Written ov s ws i j c) {col : Rgb}
    (hc : c.opts.color = some col) :
    ((ws'.at i j).bind (·.style.background)) = some (argb col) ↔ col = ⟨255, 255, 255⟩ := by
  rw [written_at h hw]
  simp only [Option.bind_some, styleOf, hc, Option.map_some, Option.some.injEq, Rgb.toRgba, argb]
  constructor
  · intro h
    have hff : "FF".toList = hex2 255 := by decide
    rw [hff] at h
    simp only [hex2, List.cons_append, List.nil_append, List.append_assoc, List.cons.injEq] at h
    obtain ⟨a1, a2, a3, a4, a5, a6, a7, a8, _⟩ := h
    have r : col.r = 255 := hex2_inj _ _ (by simp only [hex2]; rw [a1, a2])
    have g : col.g = col.r := hex2_inj _ _ (by simp only [hex2]; rw [a3, a4])
    have b : col.b = col.g := hex2_inj _ _ (by simp only [hex2]; rw [a5, a6])
    cases col
    simp only at r g b
    subst b; subst g; subst r
    rfl
  · rintro rfl
    rfl

end

/-! ### Options without effect -/

/-- The cell without `lock` and `border_color`. -/
def plainCell (c : Cell) : Cell := { c with opts := { c.opts with lock := false, borderColor := none } }

/-- The sheet without `lock` and `border_color`. -/
def plainSheet (s : Sheet) : Sheet := { s with rows := s.rows.map fun r => { r with cells := r.cells.map plainCell } }

/-- C65 is false: without the options `lock` and `border_color`, what is written to a workbook is the same. -/
theorem C65_excel_violated (den : Text → DateVal) (ov : Bool) (name : Text) (s : Sheet) (file : Option Workbook) :
    writeExcel den ov name (plainSheet s) file = writeExcel den ov name s file := by
  have hcell : ∀ st x y c, placeCell ov st x y (plainCell c) = placeCell ov st x y c := by
    intro st x y c
    simp only [placeCell_eq]
    rfl
  have hcells : ∀ y cs x st, placeCells ov y x (cs.map plainCell) st = placeCells ov y x cs st := by
    intro y cs
    induction cs with
    | nil => intro x st; rfl
    | cons c cs ih => intro x st; rw [List.map_cons, placeCells, placeCells, hcell, ih]
  have hrows : ∀ rows y st, placeRows ov y (rows.map fun r : Row => { r with cells := r.cells.map plainCell }) st = placeRows ov y rows st := by
    intro rows
    induction rows with
    | nil => intro y st; rfl
    | cons r rows ih => intro y st; rw [List.map_cons, placeRows, placeRows, hcells, ih]
  have : buildWorksheet den ov (plainSheet s) = buildWorksheet den ov s := by
    funext ws
    simp only [buildWorksheet, plainSheet, hrows]
  rw [writeExcel, writeExcel, this]

/-! ### Validations of numbers and dates -/

/-- What the operator of a validation means. -/
def XOp.holds (op : XOp) (x a b : Rat) : Prop :=
  match op with
  | .between => a ≤ x ∧ x ≤ b
  | .notBetween => x < a ∨ b < x
  | .equal => x = a
  | .notEqual => x ≠ a
  | .less => x < a
  | .lessEq => x ≤ a
  | .greater => a < x
  | .greaterEq => a ≤ x

/-- The number of an argument. -/
def XArg.val : XArg → Rat
  | .num n => n
  | .text _ => 0

/-- A cell that contains the number `x` is accepted by a validation of numbers or dates (a date is its serial number). -/
def XRule.accepts (r : XRule) (x : Rat) : Prop :=
  ∃ op, r.op = some op ∧ op.holds x r.formula1.val ((r.formula2.map XArg.val).getD 0)

/-- What the validations of numbers mean. -/
inductive NumberMeaning : Validation → (Rat → Prop) → Prop
  | between (m n : Int) : NumberMeaning (.numberBetween m n) fun x => (m : Rat) ≤ x ∧ x ≤ n
  | notBetween (m n : Int) : NumberMeaning (.numberNotBetween m n) fun x => ¬ ((m : Rat) ≤ x ∧ x ≤ n)
  | equalTo (n : Int) : NumberMeaning (.numberEqualTo n) fun x => x = n
  | notEqualTo (n : Int) : NumberMeaning (.numberNotEqualTo n) fun x => x ≠ n
  | greaterThan (n : Int) : NumberMeaning (.numberGreaterThan n) fun x => x > n
  | greaterThanOrEqualTo (n : Int) : NumberMeaning (.numberGreaterThanOrEqualTo n) fun x => x ≥ n
  | lessThan (n : Int) : NumberMeaning (.numberLessThan n) fun x => x < n
  | lessThanOrEqualTo (n : Int) : NumberMeaning (.numberLessThanOrEqualTo n) fun x => x ≤ n

/-- C70: a validation of a number accepts, in the cell for which it is given, the numbers that its name says. -/
theorem C70_numbers {den : Text → DateVal} {x y : Nat} {v : Validation} {ok : Rat → Prop} (h : NumberMeaning v ok) :
    ∃ r, excelRule den x y v = some r ∧ r.sqref = (A1.cell ⟨x, y⟩).text ∧ r.type = .decimal ∧ ∀ q, r.accepts q ↔ ok q := by
  cases h <;> refine ⟨_, rfl, rfl, rfl, fun q => ?_⟩ <;> simp [XRule.accepts, XOp.holds, XArg.val]
  · rename_i m n
    constructor
    · rintro (h | h) h1
      · exact absurd h (not_lt.mpr h1)
      · exact h
    · intro h
      by_cases h1 : (m : Rat) ≤ q
      · exact .inr (h h1)
      · exact .inl (not_le.mp h1)

/-- The number of a date in a worksheet, from its number of days since 1900-01-01: that day is 1, and there is a day 1900-02-29 (60). -/
def serial (days : Int) : Int := if days < 59 then days + 1 else days + 2

/-- What the validations of dates mean, for the days since 1900-01-01. -/
inductive DateMeaning (den : Text → DateVal) : Validation → (Int → Prop) → Prop
  | after {d : Text} {n : Int} (h : den d = .date n) : DateMeaning den (.dateAfter d) fun x => x > n
  | before {d : Text} {n : Int} (h : den d = .date n) : DateMeaning den (.dateBefore d) fun x => x < n
  | equalTo {d : Text} {n : Int} (h : den d = .date n) : DateMeaning den (.dateEqualTo d) fun x => x = n
  | onOrAfter {d : Text} {n : Int} (h : den d = .date n) : DateMeaning den (.dateOnOrAfter d) fun x => x ≥ n
  | onOrBefore {d : Text} {n : Int} (h : den d = .date n) : DateMeaning den (.dateOnOrBefore d) fun x => x ≤ n
  | between {d e : Text} {m n : Int} (h : den d = .date m) (h' : den e = .date n) : DateMeaning den (.dateBetween d e) fun x => m ≤ x ∧ x ≤ n
  | notBetween {d e : Text} {m n : Int} (h : den d = .date m) (h' : den e = .date n) : DateMeaning den (.dateNotBetween d e) fun x => ¬ (m ≤ x ∧ x ≤ n)

/-- C67, the part that holds: a validation of dates accepts the numbers that it should, if the number of a date were the days since 1900-01-01. -/
theorem C67_partial {den : Text → DateVal} {x y : Nat} {v : Validation} {ok : Int → Prop} (h : DateMeaning den v ok) :
    ∃ r, excelRule den x y v = some r ∧ r.sqref = (A1.cell ⟨x, y⟩).text ∧ r.type = .date ∧ ∀ day : Int, r.accepts day ↔ ok day := by
  cases h
  case after n h | before n h | equalTo n h | onOrAfter n h | onOrBefore n h =>
    refine ⟨⟨_, .date, _, .num n, none, _, true, true⟩, by simp only [excelRule, h]; rfl, rfl, rfl, fun q => ?_⟩
    simp [XRule.accepts, XOp.holds, XArg.val]
  case between m n h h' | notBetween m n h h' =>
    refine ⟨⟨_, .date, _, .num m, some (.num n), _, true, true⟩, by simp only [excelRule, h, h']; rfl, rfl, rfl, fun q => ?_⟩
    simp [XRule.accepts, XOp.holds, XArg.val]
    try omega

/-- C67 is false, for all dates: "after `d`" accepts `d`, and neither "equal to `d`" nor "on or before `d`" does. -/
theorem C67_violated {den : Text → DateVal} {x y : Nat} {d : Text} {n : Int} (h : den d = .date n) :
    ∃ r, excelRule den x y (.dateAfter d) = some r ∧ r.accepts (serial n) ∧
    ∃ r, excelRule den x y (.dateEqualTo d) = some r ∧ ¬ r.accepts (serial n) ∧
    ∃ r, excelRule den x y (.dateOnOrBefore d) = some r ∧ ¬ r.accepts (serial n) := by
  obtain ⟨r1, e1, _, _, a1⟩ := C67_partial (x := x) (y := y) (DateMeaning.after h)
  obtain ⟨r2, e2, _, _, a2⟩ := C67_partial (x := x) (y := y) (DateMeaning.equalTo h)
  obtain ⟨r3, e3, _, _, a3⟩ := C67_partial (x := x) (y := y) (DateMeaning.onOrBefore h)
  refine ⟨r1, e1, (a1 _).mpr ?_, r2, e2, fun hh => ?_, r3, e3, fun hh => ?_⟩
  · unfold serial; split <;> omega
  · have := (a2 _).mp hh; unfold serial at this; split at this <;> omega
  · have := (a3 _).mp hh; unfold serial at this; split at this <;> omega

/-- C67, what holds instead: a validation of dates accepts the days whose second next day it should accept (the next day, before 1900-03-01). -/
theorem C67_shifted_partial {den : Text → DateVal} {x y : Nat} {v : Validation} {ok : Int → Prop} (h : DateMeaning den v ok) :
    ∃ r, excelRule den x y v = some r ∧ r.type = .date ∧ ∀ day : Int, r.accepts (serial day) ↔ ok (if day < 59 then day + 1 else day + 2) := by
  obtain ⟨r, e, _, ht, a⟩ := C67_partial (x := x) (y := y) h
  exact ⟨r, e, ht, fun day => a (serial day)⟩

/-! ### Validations of texts -/

/-- The text of a string literal of a formula (after the opening quote) and what follows it: a quote is written as two. -/
def literal : Text → Option (Text × Text)
  | [] => none
  | '"' :: '"' :: r => (literal r).map fun p => ('"' :: p.1, p.2)
  | '"' :: r => some ([], r)
  | c :: r => (literal r).map fun p => (c :: p.1, p.2)

theorem literal_plain (t r : Text) (ht : '"' ∉ t) (hr : r.head? ≠ some '"') : literal (t ++ '"' :: r) = some (t, r) := by
  induction t with
  | nil =>
    cases r with
    | nil => rfl
    | cons c r =>
      have : c ≠ '"' := by simpa using hr
      simp [literal, this]
  | cons c t ih =>
    have hc : c ≠ '"' := fun e => ht (by simp [e])
    have := ih (fun h => ht (List.mem_cons_of_mem _ h))
    rw [List.cons_append, literal, this]
    · rfl
    · rintro _ rfl; exact absurd rfl hc
    · rintro rfl; exact absurd rfl hc

theorem literal_no_quote {t a r : Text} (h : literal t = some (a, r)) : a.count '"' * 2 < t.count '"' := by
  fun_induction literal t generalizing a r with
  | case1 => cases h
  | case2 t ih =>
    obtain ⟨p, hp, he⟩ := Option.map_eq_some_iff.mp h
    cases he
    have := ih hp
    simp; omega
  | case3 t ht => cases h; simp
  | case4 c t h1 h2 ih =>
    obtain ⟨p, hp, he⟩ := Option.map_eq_some_iff.mp h
    cases he
    have := ih hp
    have hc : c ≠ '"' := by rintro rfl; exact h2 rfl
    rw [List.count_cons_of_ne (by simpa using hc.symm |>.symm), List.count_cons_of_ne (by simpa using hc.symm |>.symm)]
    exact this

/-- C71, the part that holds: the formula of a validation of texts looks for the text, if it contains no quote. -/
theorem C71_partial {den : Text → DateVal} {x y : Nat} {t : Text} (ht : '"' ∉ t) :
    (∃ f, (excelRule den x y (.textContains t)).map (·.formula1) = some (.text ("=ISNUMBER(SEARCH(\"".toList ++ f)) ∧
      literal f = some (t, ", ".toList ++ (A1.cell ⟨x, y⟩).text ++ "))".toList)) ∧
    (∃ f, (excelRule den x y (.textDoesNotContain t)).map (·.formula1) = some (.text ("=NOT(ISNUMBER(SEARCH(\"".toList ++ f)) ∧
      literal f = some (t, ", ".toList ++ (A1.cell ⟨x, y⟩).text ++ ")))".toList)) ∧
    (∃ f, (excelRule den x y (.textEqualTo t)).map (·.formula1) = some (.text ((A1.cell ⟨x, y⟩).text ++ " = \"".toList ++ f)) ∧
      literal f = some (t, [])) := by
  refine ⟨⟨t ++ '"' :: (", ".toList ++ (A1.cell ⟨x, y⟩).text ++ "))".toList), ?_, literal_plain _ _ ht (by simp)⟩,
    ⟨t ++ '"' :: (", ".toList ++ (A1.cell ⟨x, y⟩).text ++ ")))".toList), ?_, literal_plain _ _ ht (by simp)⟩,
    ⟨t ++ ['"'], ?_, literal_plain _ _ ht (by simp)⟩⟩
  all_goals simp [excelRule]

/-- C71 is false: if the text contains a quote, the formula never looks for that text. -/
theorem C71_violated {den : Text → DateVal} {x y : Nat} {t : Text} (ht : '"' ∈ t) {f r : Text}
    (h : (excelRule den x y (.textEqualTo t)).map (·.formula1) = some (.text ((A1.cell ⟨x, y⟩).text ++ " = \"".toList ++ f))) :
    literal f ≠ some (t, r) := by
  simp only [excelRule, Option.map_some, Option.some.injEq, XArg.text.injEq, List.append_assoc, List.append_cancel_left_eq] at h
  intro hl
  have := literal_no_quote hl
  rw [← h] at this
  have hp := List.count_pos_iff.mpr ht
  simp at this
  omega

/-! ### Validations by a list -/

/-- The text without spaces around it. -/
def unpad (t : Text) : Text := ((t.dropWhile (· = ' ')).reverse.dropWhile (· = ' ')).reverse

/-- The choices that a list in quotes offers: it is split at the commas. -/
def choices (t : Text) : Option (List Text) :=
  match t with
  | '"' :: r => if r.getLast? = some '"' then some ((r.dropLast.splitOn ',').map unpad) else none
  | _ => none

/-- The text of a value of a list. -/
def itemText : Ast → Text
  | .text t => t
  | a => display a

theorem splitOn_none (a : Text) (h : ',' ∉ a) : a.splitOn ',' = [a] := by
  rw [List.splitOn_eq_splitOnP]
  induction a with
  | nil => rfl
  | cons c a ih =>
    rw [List.splitOnP_cons_eq_if_modifyHead, if_neg, ih (fun hh => h (List.mem_cons_of_mem _ hh))]
    · rfl
    · simp only [beq_iff_eq]
      rintro rfl
      exact h (by simp)

theorem splitOn_cons (a : Text) (h : ',' ∉ a) (r : Text) : (a ++ ',' :: r).splitOn ',' = a :: r.splitOn ',' := by
  have e := splitOn_none a h
  rw [List.splitOn_eq_splitOnP] at e ⊢
  rw [List.splitOnP_append_cons a r (sep := ',') (by rfl), e]
  rfl

theorem splitOn_join (a : Text) (as : List Text) (h : ∀ t ∈ a :: as, ',' ∉ t) :
    (List.intercalate ", ".toList (a :: as)).splitOn ',' = a :: as.map (' ' :: ·) := by
  induction as generalizing a with
  | nil => simpa using splitOn_none a (h a (by simp))
  | cons b as ih =>
    have e : List.intercalate ", ".toList (a :: b :: as) = a ++ ',' :: ' ' :: List.intercalate ", ".toList (b :: as) := by simp
    rw [e, splitOn_cons a (h a (by simp))]
    have h2 := ih b (fun t ht => h t (List.mem_cons_of_mem _ ht))
    have e2 : ∀ l : Text, ' ' :: l = [' '] ++ l := fun l => rfl
    have key : ∀ (l : Text) (x : Text) (xs : List Text), l.splitOn ',' = x :: xs → (' ' :: l).splitOn ',' = (' ' :: x) :: xs := by
      intro l x xs hx
      rw [List.splitOn_eq_splitOnP] at hx ⊢
      rw [List.splitOnP_cons_eq_if_modifyHead, if_neg (by decide), hx]
      rfl
    rw [key _ _ _ h2]
    rfl

theorem count_split (l : Text) : (l.splitOn ',').length = l.count ',' + 1 := by
  rw [List.splitOn_eq_splitOnP]
  induction l with
  | nil => rfl
  | cons c l ih =>
    rw [List.splitOnP_cons_eq_if_modifyHead]
    by_cases hc : c = ','
    · subst hc; simp [ih]
    · rw [if_neg (by simpa using hc), List.length_modifyHead, ih, List.count_cons_of_ne (by simpa using hc)]

theorem unpad_pad (t : Text) (h1 : t.head? ≠ some ' ') (h2 : t.getLast? ≠ some ' ') : unpad t = t ∧ unpad (' ' :: t) = t := by
  have e : t.dropWhile (· = ' ') = t := by
    cases t with
    | nil => rfl
    | cons c t => rw [List.dropWhile_cons_of_neg (by simpa using h1)]
  have e' : t.reverse.dropWhile (· = ' ') = t.reverse := by
    rw [List.getLast?_eq_head?_reverse] at h2
    cases hr : t.reverse with
    | nil => rfl
    | cons c r => rw [hr] at h2; rw [List.dropWhile_cons_of_neg (by simpa using h2)]
  have e2 : (' ' :: t).dropWhile (· = ' ') = t := by rw [List.dropWhile_cons_of_pos (by rfl), e]
  exact ⟨by rw [unpad, e, e', List.reverse_reverse], by rw [unpad, e2, e', List.reverse_reverse]⟩

theorem filter_item (v : Ast) (h : '"' ∉ itemText v) : (display v).filter (· ≠ '"') = itemText v := by
  have key : ∀ t : Text, '"' ∉ t → t.filter (· ≠ '"') = t := by
    intro t ht
    rw [List.filter_eq_self]
    intro x hx
    simp only [decide_eq_true_eq]
    rintro rfl
    exact ht hx
  cases v with
  | text t =>
    have := key t h
    simp only [display, itemText, List.filter_append, this]
    simp
  | _ => exact key _ h

/-- C72, the part that holds: the choices of a list are its values, if these contain no comma or quote and no space at the ends. -/
theorem C72_partial {den : Text → DateVal} {x y : Nat} {vs : List Ast} (hne : vs ≠ []) (hc : ∀ v ∈ vs, ',' ∉ itemText v)
    (hq : ∀ v ∈ vs, '"' ∉ itemText v) (h1 : ∀ v ∈ vs, (itemText v).head? ≠ some ' ') (h2 : ∀ v ∈ vs, (itemText v).getLast? ≠ some ' ') :
    ∃ r t, excelRule den x y (.valueInList vs) = some r ∧ r.sqref = (A1.cell ⟨x, y⟩).text ∧ r.type = .list ∧ r.formula1 = .text t ∧
      choices t = some (vs.map itemText) := by
  refine ⟨_, _, rfl, rfl, rfl, rfl, ?_⟩
  have e : vs.map (fun v => (display v).filter (· ≠ '"')) = vs.map itemText := List.map_congr_left fun v hv => filter_item v (hq v hv)
  rw [listText, e, List.cons_append, choices, if_pos (by simp), List.dropLast_concat]
  cases vs with
  | nil => exact absurd rfl hne
  | cons v vs =>
    rw [List.map_cons, splitOn_join _ _ (by
      intro t ht
      rw [← List.map_cons, List.mem_map] at ht
      obtain ⟨w, hw, rfl⟩ := ht
      exact hc w hw)]
    simp only [List.map_cons, List.map_map, Option.some.injEq, List.cons.injEq]
    refine ⟨(unpad_pad _ (h1 v (by simp)) (h2 v (by simp))).1, List.map_congr_left fun w hw => ?_⟩
    exact (unpad_pad _ (h1 w (by simp [hw])) (h2 w (by simp [hw]))).2

theorem count_join (a : Text) (as : List Text) :
    (List.intercalate ", ".toList (a :: as)).count ',' = as.length + ((a :: as).map (List.count ',')).sum := by
  induction as generalizing a with
  | nil => simp
  | cons b as ih =>
    have e : List.intercalate ", ".toList (a :: b :: as) = a ++ ',' :: ' ' :: List.intercalate ", ".toList (b :: as) := by simp
    rw [e, List.count_append, List.count_cons_self, List.count_cons_of_ne (by decide), ih]
    simp only [List.map_cons, List.sum_cons, List.length_cons]
    omega

theorem le_sum {l : List Nat} {n : Nat} (h : n ∈ l) : n ≤ l.sum := by
  induction l with
  | nil => cases h
  | cons m l ih =>
    rw [List.sum_cons]
    rcases List.mem_cons.mp h with rfl | h
    · omega
    · have := ih h; omega

/-- C72 is false: a value with a comma becomes several choices, so that there are more choices than values. -/
theorem C72_violated {den : Text → DateVal} {x y : Nat} {vs : List Ast} {v : Ast} (hv : v ∈ vs) (hc : ',' ∈ display v) :
    ∃ r t cs, excelRule den x y (.valueInList vs) = some r ∧ r.formula1 = .text t ∧ choices t = some cs ∧ vs.length < cs.length := by
  have e : choices (listText vs) = some (((List.intercalate ", ".toList (vs.map fun v => (display v).filter (· ≠ '"'))).splitOn ',').map unpad) := by
    rw [listText, List.cons_append, choices, if_pos (by simp), List.dropLast_concat]
  refine ⟨_, _, _, rfl, rfl, e, ?_⟩
  · rw [List.length_map, count_split]
    cases vs with
    | nil => cases hv
    | cons w ws =>
      rw [List.map_cons, count_join, List.length_map]
      have hp : 0 < ((display v).filter (· ≠ '"')).count ',' := by
        rw [List.count_pos_iff, List.mem_filter]
        exact ⟨hc, by decide⟩
      have : ((display v).filter (· ≠ '"')).count ',' ≤ (((w :: ws).map fun v => (display v).filter (· ≠ '"')).map (List.count ',')).sum := by
        exact le_sum (List.mem_map.mpr ⟨_, List.mem_map.mpr ⟨v, hv, rfl⟩, rfl⟩)
      rw [List.map_cons (f := fun v => (display v).filter (· ≠ '"'))] at this
      simp only [List.length_cons]
      omega

/-! ### Cases that meet the hypotheses -/

/-- A cell with a text and options. -/
def exCell (v : Text) (o : Opts) : Cell := ⟨none, ⟨⟨0, 0⟩, v, []⟩, v, o⟩

/-- `x` with a note and a colour, an empty cell with a validation and a border, and below `=1 + a`. -/
def exSheet2 : Sheet := ⟨[⟨{}, none, [exCell ['x'] { note := some ['n'], color := some ⟨255, 0, 0⟩ },
    exCell [] { validation := some (.numberLessThan 5), borders := fun s => s = .all }]⟩,
  ⟨{}, none, [⟨some (.«infix» (.int false none 1) ['+'] (.ref ['a'])), ⟨⟨0, 0⟩, [], []⟩, [], {}⟩]⟩], true⟩

/-- A worksheet with a number in A1 and in B1, and a validation. -/
def exWorksheet : Worksheet :=
  ⟨fun p => if p = (1, 1) then some ⟨some (.int 1), styleOf (exCell [] {})⟩ else if p = (2, 1) then some ⟨some (.int 2), styleOf (exCell [] {})⟩ else none,
    [], [⟨"Z9".toList, .custom, none, .text "TRUE".toList, none, [], false, true⟩]⟩

/-- With and without `--safe`: what is written, the lost validation and the misplaced note. -/
example : ∃ ws', buildWorksheet (fun _ => .time) true exSheet2 exWorksheet = some ws' ∧
    (ws'.at 0 0).bind (·.value) = some (.text ['x']) ∧ (ws'.at 0 1).bind (·.value) = some (.int 2) ∧
    (ws'.at 1 0).bind (·.value) = some (.formula (display (.«infix» (.int false none 1) ['+'] (.ref ['a'])))) ∧
    (ws'.at 0 1).bind (·.style.left) = some .solid ∧
    ws'.comments = [((0, 0), ['n'])] ∧ ws'.validations = [⟨"B1".toList, .decimal, some .less, .num 5, none, "Number less than 5".toList, true, true⟩] := by
  refine ⟨_, rfl, by decide, by decide, by decide, by decide, by decide, by decide +kernel⟩

example : ∃ ws', buildWorksheet (fun _ => .time) false exSheet2 exWorksheet = some ws' ∧
    (ws'.at 0 0).bind (·.value) = some (.int 1) ∧ (ws'.at 0 1).bind (·.value) = some (.int 2) ∧
    (ws'.at 1 0).isSome ∧ ws'.comments = [] ∧ ws'.validations = exWorksheet.validations := by
  refine ⟨_, rfl, by decide, by decide, by decide, by decide, by decide⟩

/-- The cells of the sheet are written, the note and the colour are there. -/
example : (∃ c, Written true exSheet2 exWorksheet 0 0 c ∧ c.opts.note = some ['n'] ∧ c.opts.color = some ⟨255, 0, 0⟩ ∧ c.ast = none ∧ c.value ≠ []) ∧
    (∃ c, Written true exSheet2 exWorksheet 0 1 c ∧ c.opts.validation ≠ none ∧ c.ast = none ∧ c.value = []) ∧
    (∃ c, Written false exSheet2 exWorksheet 1 0 c ∧ c.ast ≠ none) := by
  refine ⟨⟨_, ⟨rfl, .inl rfl⟩, rfl, rfl, rfl, by simp [exCell]⟩, ⟨_, ⟨rfl, .inl rfl⟩, by simp [exCell], rfl, rfl⟩, ⟨_, ⟨rfl, .inr rfl⟩, by simp⟩⟩

/-- Validations: a date for `C67_violated`, a text with a quote for `C71_violated`, lists for `C72_partial` and `C72_violated`. -/
example : (excelRule (fun _ => .date 41202) 1 0 (.dateAfter "2012-10-22".toList)) = some ⟨"B1".toList, .date, some .greater, .num 41202, none, "Date after 2012-10-22".toList, true, true⟩ ∧
    serial 41202 = 41204 ∧
    (excelRule (fun _ => .time) 0 0 (.textEqualTo "a\"b".toList)).map (·.formula1) = some (.text "A1 = \"a\"b\"".toList) ∧
    choices (listText [.text "a".toList, .text "b c".toList, .int false none 3]) = some ["a".toList, "b c".toList, "3".toList] ∧
    choices (listText [.text "a,b".toList, .text "c".toList]) = some ["a".toList, "b".toList, "c".toList] := by
  refine ⟨by decide +kernel, by decide, by decide +kernel, by decide +kernel, by decide +kernel⟩

/-- Workbooks: another worksheet is kept, a new one is made. -/
example : ∃ wb', writeExcel (fun _ => .time) true ['b'] exSheet2 (some [(['a'], exWorksheet)]) = some wb' ∧ wb'.map (·.1) = [['a'], ['b']] := ⟨_, rfl, rfl⟩

end Verif.Target
