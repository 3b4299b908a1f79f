import Verif.Target.GoogleProps
import Verif.Target.ExcelOptions
/-
What the requests to Google Sheets mean (C63, C64, C66, C70 for Google Sheets): the names of the service and their meanings are written down from its
documentation, next to the options of a cell.
-/
namespace Verif.Target
open Verif.Ast Verif.Parser Verif.Cell Verif.Sheet

/-! ### specification: what the names of the service mean -/

/-- The vertical alignments of the service. -/
def serviceVAlign : List (VAlign × String) := [(.top, "TOP"), (.center, "MIDDLE"), (.bottom, "BOTTOM")]
/-- The horizontal alignments of the service. -/
def serviceHAlign : List (HAlign × String) := [(.left, "LEFT"), (.center, "CENTER"), (.right, "RIGHT")]
/-- The ways to wrap of the service. -/
def serviceWrap : List (Wrap × String) := [(.overflow, "OVERFLOW_CELL"), (.clip, "CLIP"), (.wrap, "WRAP")]
/-- The number formats of the service. -/
def serviceNumFmt : List (NumFmt × String) := [(.text, "TEXT"), (.number, "NUMBER"), (.percent, "PERCENT"), (.currency, "CURRENCY"), (.date, "DATE"),
  (.time, "TIME"), (.datetime, "DATE_TIME"), (.scientific, "SCIENTIFIC")]
/-- The border styles of the service. -/
def serviceBorder : List (BorderStyle × String) := [(.dotted, "DOTTED"), (.dashed, "DASHED"), (.solid, "SOLID"), (.solidMedium, "SOLID_MEDIUM"),
  (.solidThick, "SOLID_THICK"), (.double, "DOUBLE")]

/-- The text `t` is the name of `x`. -/
def names {α : Type} (l : List (α × String)) (x : α) (t : Text) : Prop := ∃ s, (x, s) ∈ l ∧ s.toList = t

/-- The number with the decimal digits `ds`. -/
def decimal (ds : Text) : Nat := ds.foldl (fun n c => 10 * n + (c.toNat - 48)) 0

/-- The number that a user enters as `t`: digits, perhaps after a minus sign. -/
def entered (t : Text) : Option Int :=
  match t with
  | '-' :: ds => if ds ≠ [] ∧ ds.all Char.isDigit then some (-((decimal ds : Nat) : Int)) else none
  | ds => if ds ≠ [] ∧ ds.all Char.isDigit then some ((decimal ds : Nat) : Int) else none

/-- The numbers that a cell with a condition may contain, by the documentation of the service. -/
inductive ServiceNumber : GCond → (Rat → Prop) → Prop
  | between {s t : Text} {m n : Int} (hs : entered s = some m) (ht : entered t = some n) :
      ServiceNumber ⟨"NUMBER_BETWEEN".toList, [.userEntered s, .userEntered t]⟩ fun x => (m : Rat) ≤ x ∧ x ≤ n
  | notBetween {s t : Text} {m n : Int} (hs : entered s = some m) (ht : entered t = some n) :
      ServiceNumber ⟨"NUMBER_NOT_BETWEEN".toList, [.userEntered s, .userEntered t]⟩ fun x => ¬ ((m : Rat) ≤ x ∧ x ≤ n)
  | eq {t : Text} {n : Int} (ht : entered t = some n) : ServiceNumber ⟨"NUMBER_EQ".toList, [.userEntered t]⟩ fun x => x = n
  | notEq {t : Text} {n : Int} (ht : entered t = some n) : ServiceNumber ⟨"NUMBER_NOT_EQ".toList, [.userEntered t]⟩ fun x => x ≠ n
  | greater {t : Text} {n : Int} (ht : entered t = some n) : ServiceNumber ⟨"NUMBER_GREATER".toList, [.userEntered t]⟩ fun x => x > n
  | greaterEq {t : Text} {n : Int} (ht : entered t = some n) : ServiceNumber ⟨"NUMBER_GREATER_THAN_EQ".toList, [.userEntered t]⟩ fun x => x ≥ n
  | less {t : Text} {n : Int} (ht : entered t = some n) : ServiceNumber ⟨"NUMBER_LESS".toList, [.userEntered t]⟩ fun x => x < n
  | lessEq {t : Text} {n : Int} (ht : entered t = some n) : ServiceNumber ⟨"NUMBER_LESS_THAN_EQ".toList, [.userEntered t]⟩ fun x => x ≤ n

/-- The texts that a cell with a condition may contain, by the documentation of the service (for the one condition on texts whose name the
compiler has right). -/
inductive ServiceText : GCond → (Text → Prop) → Prop
  | contains (t : Text) : ServiceText ⟨"TEXT_CONTAINS".toList, [.userEntered t]⟩ fun x => t <:+: x

/-- The values that the service knows for a relative date. -/
def relativeDates : List String := ["PAST_YEAR", "PAST_MONTH", "PAST_WEEK", "YESTERDAY", "TODAY", "TOMORROW"]

/-! ### lemmas -/

theorem digits_fold (n : Nat) : decimal (natText n) = n :=
  Nat.ofDigitChars_ten_toDigits

theorem entered_digits {ds : Text} (h1 : ds ≠ []) (h2 : ds.all Char.isDigit = true) :
    entered ds = some ((decimal ds : Nat) : Int) := by
  rw [entered.eq_def]
  split
  · rename_i ds
    simp [Char.isDigit] at h2
  · rw [if_pos ⟨h1, h2⟩]

theorem entered_int (n : Int) : entered (intText n) = some n := by
  have hd : ∀ m, natText m ≠ [] ∧ (natText m).all Char.isDigit = true := fun m =>
    ⟨Nat.toDigits_ne_nil, List.all_eq_true.mpr fun _ hc => Nat.isDigit_of_mem_toDigits (by decide) (by decide) hc⟩
  rw [intText]
  split
  · rename_i h
    rw [entered, if_pos (hd _), digits_fold]
    congr 1
    omega
  · rw [entered_digits (hd _).1 (hd _).2, digits_fold]
    congr 1
    omega

theorem names_VAlign (x : VAlign) : names serviceVAlign x (gVAlign x) := by
  cases x
  case top => exact ⟨"TOP", by decide, rfl⟩
  case center => exact ⟨"MIDDLE", by decide, rfl⟩
  case bottom => exact ⟨"BOTTOM", by decide, rfl⟩

theorem names_NumFmt (x : NumFmt) : names serviceNumFmt x (gNumFmt x) := by
  cases x
  case text => exact ⟨"TEXT", by decide, rfl⟩
  case number => exact ⟨"NUMBER", by decide, rfl⟩
  case percent => exact ⟨"PERCENT", by decide, rfl⟩
  case currency => exact ⟨"CURRENCY", by decide, rfl⟩
  case date => exact ⟨"DATE", by decide, rfl⟩
  case time => exact ⟨"TIME", by decide, rfl⟩
  case datetime => exact ⟨"DATE_TIME", by decide, rfl⟩
  case scientific => exact ⟨"SCIENTIFIC", by decide, rfl⟩

theorem names_HAlign (x : HAlign) (h : x ≠ .center) : names serviceHAlign x (gHAlign x) := by
  cases x
  case left => exact ⟨"LEFT", by decide, rfl⟩
  case center => exact absurd rfl h
  case right => exact ⟨"RIGHT", by decide, rfl⟩

theorem names_Wrap (x : Wrap) (h : x ≠ .overflow) : names serviceWrap x (gWrap x) := by
  cases x
  case overflow => exact absurd rfl h
  case clip => exact ⟨"CLIP", by decide, rfl⟩
  case wrap => exact ⟨"WRAP", by decide, rfl⟩

theorem names_Border (x : BorderStyle) : names serviceBorder x (gBorderStyle x) := by
  cases x
  case dotted => exact ⟨"DOTTED", by decide, rfl⟩
  case dashed => exact ⟨"DASHED", by decide, rfl⟩
  case solid => exact ⟨"SOLID", by decide, rfl⟩
  case solidMedium => exact ⟨"SOLID_MEDIUM", by decide, rfl⟩
  case solidThick => exact ⟨"SOLID_THICK", by decide, rfl⟩
  case double => exact ⟨"DOUBLE", by decide, rfl⟩

/-! ### theorems -/

/-- C64 (Google Sheets): vertical alignment, number format, colours and fonts of a written cell are those given; so are the style and the colour of
its borders, its horizontal alignment unless it is centred, and its way to wrap unless it is `overflow`. -/
theorem C64_google_format (c : Cell) : ∃ f, (gNew c).format = some f ∧
    names serviceVAlign c.opts.valign f.valign ∧ names serviceNumFmt c.opts.numFmt f.numFmt ∧
    (c.opts.halign ≠ .center → names serviceHAlign c.opts.halign f.halign) ∧ (c.opts.wrap ≠ .overflow → names serviceWrap c.opts.wrap f.wrap) ∧
    f.background = c.opts.color ∧
    (∀ b ∈ f.borders, ∀ d, b.left = some d ∨ b.right = some d ∨ b.top = some d ∨ b.bottom = some d →
      names serviceBorder c.opts.borderStyle d.style ∧ d.color = c.opts.borderColor) ∧
    (f.text.bind (·.size) = c.opts.fontSize) ∧ (f.text.bind (·.family) = c.opts.fontFamily) ∧ (f.text.bind (·.color) = c.opts.fontColor) ∧
    (f.text.bind (·.bold) = if c.opts.textFmts .bold then some true else none) ∧
    (f.text.bind (·.italic) = if c.opts.textFmts .italic then some true else none) ∧
    (f.text.bind (·.strikethrough) = if c.opts.textFmts .strikethrough then some true else none) ∧
    (f.text.bind (·.underline) = if c.opts.textFmts .underline then some true else none) := by
  refine ⟨_, rfl, names_VAlign _, names_NumFmt _, names_HAlign _, names_Wrap _, rfl, ?_, ?_⟩
  · intro b hb d hd
    have hs : ∀ s, gSide c.opts s = some d → d = ⟨gBorderStyle c.opts.borderStyle, c.opts.borderColor⟩ := by
      intro s h
      rw [gSide] at h
      split at h
      · cases h; rfl
      · cases h
    have e : d = ⟨gBorderStyle c.opts.borderStyle, c.opts.borderColor⟩ := by
      simp only [gFormat, gBorders] at hb
      split at hb
      · cases hb
      · cases hb
        rcases hd with h | h | h | h <;> exact hs _ h
    subst e
    exact ⟨names_Border _, rfl⟩
  · simp only [gFormat, gText]
    split
    · rename_i h
      simp only [GText.mk.injEq, gFlag] at h
      obtain ⟨h1, h2, h3, h4, h5, h6, h7⟩ := h
      simp only [h1, h2, h3, h4, h5, h6, h7, Option.bind_none, and_self]
    · exact ⟨rfl, rfl, rfl, rfl, rfl, rfl, rfl⟩

/-- C63 (Google Sheets): the note of a cell is attached to that cell (with the same number of columns and rows as offsets, and at most 1000 rows; for
the rest see C44). -/
theorem C63_google_partial {s : Sheet} {rows : List (List GData)} {g : GSheet} {n : Nat} (h : writeGoogle true (n, n) s rows = some g)
    (hs : s.rows.length ≤ 1000) {i j : Nat} {c : Cell} (hc : sheetCell s i j = some c) : (g (n + i) (n + j)).note = c.opts.note := by
  rw [C44_partial h hs hc]
  rfl

/-- C70 (Google Sheets), the part that holds: the two conditions on numbers whose names the service knows accept the numbers that they should. -/
theorem C70_google_partial {v : Validation} {ok : Rat → Prop} (h : NumberMeaning v ok) (hk : isOne apiCond (gCond v).type) :
    ∃ ok', ServiceNumber (gCond v) ok' ∧ ∀ q, ok' q ↔ ok q := by
  have h1 := (C66_violated_conditions v).mp hk
  cases h
  case between m n => exact ⟨_, .between (entered_int m) (entered_int n), fun q => Iff.rfl⟩
  case notBetween m n => exact ⟨_, .notBetween (entered_int m) (entered_int n), fun q => Iff.rfl⟩
  all_goals simp at h1

/-- C70 is false for Google Sheets: for every other validation of a number, no condition is known by the name that is sent. -/
theorem C70_google_violated {v : Validation} {ok : Rat → Prop} (h : NumberMeaning v ok) (hv : ∀ m n, v ≠ .numberBetween m n ∧ v ≠ .numberNotBetween m n) :
    ¬ isOne apiCond (gCond v).type ∧ ∀ ok', ¬ ServiceNumber (gCond v) ok' := by
  have hn : ¬ isOne apiCond (gCond v).type := by
    intro hk
    have h1 := (C66_violated_conditions v).mp hk
    cases h
    case between m n => exact (hv m n).1 rfl
    case notBetween m n => exact (hv m n).2 rfl
    all_goals simp at h1
  refine ⟨hn, fun ok' h' => hn ?_⟩
  cases hg : gCond v with
  | mk ty vs =>
    rw [hg] at h'
    show isOne apiCond ty
    cases h' <;> decide

/-- C71 (Google Sheets): a validation that a text is contained is sent with that text, whatever its characters. -/
theorem C71_google_partial (t : Text) : ServiceText (gCond (.textContains t)) fun x => t <:+: x := .contains t

/-- C66 is false of dates: the date of a validation is sent as a relative date, which the service does not know unless it is one of six words. -/
theorem C66_violated_dates {d e : Text} {v : Validation} (hv : v = .dateAfter d ∨ v = .dateBefore d ∨ v = .dateEqualTo d ∨ v = .dateOnOrAfter d ∨
    v = .dateOnOrBefore d ∨ v = .dateBetween d e ∨ v = .dateNotBetween d e) (hd : d.head?.any Char.isDigit) :
    ∃ t, .relativeDate t ∈ (gCond v).values ∧ ¬ isOne relativeDates t := by
  refine ⟨d, ?_, ?_⟩
  · rcases hv with rfl | rfl | rfl | rfl | rfl | rfl | rfl <;> simp [gCond, gCondArgs]
  · intro h
    rw [isOne, List.mem_map] at h
    obtain ⟨s, hs, rfl⟩ := h
    have key : ∀ s ∈ relativeDates, ¬ (s.toList.head?.any Char.isDigit = true) := by decide
    exact key s hs hd

/-! ### Cases that meet the hypotheses -/

example : ∃ ok, NumberMeaning (.numberBetween (-1) 10) ok ∧ isOne apiCond (gCond (.numberBetween (-1) 10)).type ∧ ok 3 ∧ ¬ ok 11 :=
  ⟨_, .between _ _, by decide, by constructor <;> decide, by rw [not_and]; intro _; decide⟩

example : ∃ ok, NumberMeaning (.numberLessThan 10) ok ∧ ∀ m n,
    Validation.numberLessThan 10 ≠ .numberBetween m n ∧ Validation.numberLessThan 10 ≠ .numberNotBetween m n :=
  ⟨_, .lessThan _, by simp⟩

example : ("2020-01-01".toList).head?.any Char.isDigit = true := by decide

/-- A bold percentage in a dotted box with a note. -/
def exBold : Opts :=
  { note := some ['n'], numFmt := .percent, borderStyle := .dotted, borders := (fun s => s = .left), textFmts := (fun f => f = .bold) }

example : ∃ f, (gNew (exCell ['x'] exBold)).format = some f ∧ f.numFmt = "PERCENT".toList ∧
    (f.borders.bind (·.left)).map (·.style) = some "DOTTED".toList ∧ f.text.bind (·.bold) = some true ∧ f.text.bind (·.italic) = none :=
  ⟨_, rfl, by decide, by decide, by decide, by decide⟩

end Verif.Target
