import Verif.Object.Laws
import Verif.Ast.Lemmas
import Mathlib.Data.List.Dedup
/-
Every module can be written to an object file, when its numbers and sizes fit the machine.
-/
namespace Verif.Object
open Verif.Ast Verif.Loader Verif.Sheet Verif.Cache
open Verif.Cell hiding Target

/-! ## Specification: what fits -/

/-- There is a way to write `a`. -/
def Writes {α : Type} (c : Codec α) (a : α) : Prop := ∃ b, c.enc a b

/-- A text of less than 2^64 bytes. -/
def FitsText (t : Text) : Prop := (utf8 t).length < 2 ^ 64

/-- An `i64`. -/
def FitsInt (n : Int) : Prop := -2 ^ 63 ≤ n ∧ n < 2 ^ 63

/-- A list of less than 2^64 elements. -/
def FitsList {α : Type} (P : α → Prop) (l : List α) : Prop := l.length < 2 ^ 64 ∧ ∀ a ∈ l, P a

/-- A value, if there is one. -/
def FitsOption {α : Type} (P : α → Prop) (o : Option α) : Prop := ∀ a, o = some a → P a

section
variable (X : Ext)

/-- A fill. -/
def FitsFill (f : Fill) : Prop := FitsOption (· < 2 ^ 64) f.amount ∧ Writes X.row f.startRow

/-- The value of a variable of a cell. -/
def FitsCellVal : CellVal → Prop
  | .absolute a => Writes X.addr a
  | .row r => Writes X.row r
  | .columnRelative c f => Writes X.column c ∧ FitsFill X f
  | .rowRelative r f => Writes X.row r ∧ FitsFill X f

/-- A tree. -/
inductive FitsAst : Ast → Prop
  | bool {b} : FitsAst (.bool b)
  | date {t} : Writes X.date t → FitsAst (.date t)
  | float {p s v} : Writes X.f64 v → FitsAst (.float p s v)
  | fn {n ps b} : FitsText n → FitsList FitsText ps → FitsAst b → FitsAst (.fn n ps b)
  | call {n args} : FitsText n → args.length < 2 ^ 64 → (∀ a ∈ args, FitsAst a) → FitsAst (.call n args)
  | «infix» {l op r} : FitsAst l → FitsText op → FitsAst r → FitsAst (.infix l op r)
  | int {p s v} : FitsInt v → FitsAst (.int p s v)
  | ref {r} : FitsText r → FitsAst (.ref r)
  | text {t} : FitsText t → FitsAst (.text t)
  | var {n a} : FitsText n → FitsAst a → FitsAst (.var n a)
  | cellVar {n v} : FitsText n → FitsCellVal X v → FitsAst (.cellVar n v)

/-- The definitions of a hash map: finitely many. -/
def FitsMap (f : Text → Option Ast) : Prop := ∃ es, IsEnum es f ∧ FitsList (fun e => FitsText e.1 ∧ FitsAst X e.2) es

/-- The definitions of a module. -/
structure FitsScope (s : Scope) : Prop where
  functions : FitsMap X s.functions
  «variables» : FitsMap X s.variables
  exports : FitsList FitsText s.exports

/-- A validation. -/
def FitsValidation : Validation → Prop
  | .custom t => FitsText t
  | .dateAfter d => Writes X.date d
  | .dateBefore d => Writes X.date d
  | .dateBetween d e => Writes X.date d ∧ Writes X.date e
  | .dateEqualTo d => Writes X.date d
  | .dateIsValid => True
  | .dateNotBetween d e => Writes X.date d ∧ Writes X.date e
  | .dateOnOrAfter d => Writes X.date d
  | .dateOnOrBefore d => Writes X.date d
  | .numberBetween m n => FitsInt m ∧ FitsInt n
  | .numberEqualTo n => FitsInt n
  | .numberGreaterThan n => FitsInt n
  | .numberGreaterThanOrEqualTo n => FitsInt n
  | .numberLessThan n => FitsInt n
  | .numberLessThanOrEqualTo n => FitsInt n
  | .numberNotBetween m n => FitsInt m ∧ FitsInt n
  | .numberNotEqualTo n => FitsInt n
  | .textContains t => FitsText t
  | .textDoesNotContain t => FitsText t
  | .textEqualTo t => FitsText t
  | .textIsValidEmail => True
  | .textIsValidUrl => True
  | .valueInList vs => FitsList (FitsAst X) vs
  | .valueInRange r => Writes X.a1 r

/-- The options of a cell or row. -/
structure FitsOpts (o : Opts) : Prop where
  validation : FitsOption (FitsValidation X) o.validation
  fontFamily : FitsOption FitsText o.fontFamily
  note : FitsOption FitsText o.note
  var : FitsOption FitsText o.var

/-- A cell. -/
structure FitsCell (c : Cell.Cell) : Prop where
  ast : FitsOption (FitsAst X) c.ast
  address : Writes X.addr ⟨c.field.addr.x, c.field.addr.y⟩
  fieldValue : FitsText c.field.value
  positions : FitsList (fun p : Csvp.SrcPos => p.line < 2 ^ 64 ∧ p.off < 2 ^ 64) c.field.positions
  value : FitsText c.value
  opts : FitsOpts X c.opts

/-- A row. -/
structure FitsRow (r : Row) : Prop where
  cells : FitsList (FitsCell X) r.cells
  fill : FitsOption (FitsFill X) r.fill
  opts : FitsOpts X r.opts

/-- A source text. -/
structure FitsSource (t : Text) : Prop where
  text : FitsText t
  lines : (Source.SourceCode.new t).lines < 2 ^ 64
  lenCode : (Source.SourceCode.new t).lenCode < 2 ^ 64
  lenCsv : (Source.SourceCode.new t).lenCsv < 2 ^ 64
  code : FitsOption FitsText (Source.SourceCode.new t).code
  csv : FitsText (Source.SourceCode.new t).csv

/-- A module. -/
structure FitsModule (m : Module Text) : Prop where
  version : Writes X.version m.version
  scope : FitsScope X m.scope
  rows : FitsList (FitsRow X) m.sheet.rows
  required : FitsList (FitsList FitsText) m.required
  source : FitsSource m.source

end

/-! ## Proofs -/

theorem Writes.le {k n : Nat} (h : n < 256 ^ k) : Writes (le k) n := ⟨_, h, rfl⟩
theorem Writes.le8 {n : Nat} (h : n < 2 ^ 64) : Writes (Object.le 8) n := .le (by have : 256 ^ 8 = 2 ^ 64 := rfl; omega)

theorem Writes.pair {α β : Type} {c : Codec α} {d : Codec β} {a : α} {a' : β} (h1 : Writes c a) (h2 : Writes d a') : Writes (pair c d) (a, a') := by
  obtain ⟨b₁, h1⟩ := h1
  obtain ⟨b₂, h2⟩ := h2
  exact ⟨_, b₁, b₂, h1, h2, rfl⟩

theorem Writes.ctor {α β : Type} {f : α → β} {c : Codec α} {y : β} (x : α) (hy : y = f x) (h : Writes c x) : Writes (ctor f c) y := by
  obtain ⟨b, h⟩ := h
  exact ⟨b, x, hy, h⟩

theorem Writes.bare {α : Type} (a : α) : Writes (bare a) a := .ctor () rfl ⟨[], rfl⟩

theorem Writes.enum {α : Type} {alts : List (Codec α)} {a : α} (i : Nat) {c : Codec α} (hc : alts[i]? = some c) (hi : i < 2 ^ 32) (h : Writes c a) : Writes (enum alts) a := by
  obtain ⟨b, h⟩ := h
  exact ⟨_, i, c, _, b, hc, ⟨hi, rfl⟩, h, rfl⟩

theorem Writes.bool (b : Bool) : Writes bool b := by
  cases b with
  | false => exact ⟨_, 0, rfl, by decide, rfl⟩
  | true => exact ⟨_, 1, rfl, by decide, rfl⟩

theorem Writes.option {α : Type} {c : Codec α} {o : Option α} (h : FitsOption (Writes c) o) : Writes (option c) o := by
  cases o with
  | none => exact ⟨[0], rfl⟩
  | some a =>
    obtain ⟨b, h⟩ := h a rfl
    exact ⟨1 :: b, b, h, rfl⟩

theorem FitsOption.mono {α : Type} {P Q : α → Prop} {o : Option α} (h : FitsOption P o) (hpq : ∀ a, P a → Q a) : FitsOption Q o := fun a ha => hpq a (h a ha)
theorem FitsList.mono {α : Type} {P Q : α → Prop} {l : List α} (h : FitsList P l) (hpq : ∀ a, P a → Q a) : FitsList Q l := ⟨h.1, fun a ha => hpq a (h.2 a ha)⟩

theorem Writes.list {α : Type} {c : Codec α} {l : List α} (h : FitsList (Writes c) l) : Writes (list c) l := by
  have key : ∀ l : List α, (∀ a ∈ l, Writes c a) → ∃ b, EncAll c l b := by
    intro l
    induction l with
    | nil => exact fun _ => ⟨[], .nil⟩
    | cons a l ih =>
      intro h
      obtain ⟨b, hb⟩ := h a (List.mem_cons_self ..)
      obtain ⟨bs, hbs⟩ := ih fun x hx => h x (List.mem_cons_of_mem _ hx)
      exact ⟨_, .cons hb hbs⟩
  obtain ⟨b, hb⟩ := key l h.2
  obtain ⟨b₁, h1⟩ := Writes.le8 h.1
  exact ⟨_, b₁, b, h1, hb, rfl⟩

theorem Writes.text {t : Text} (h : FitsText t) : Writes text t := by
  obtain ⟨b₁, h1⟩ := Writes.le8 h
  exact ⟨_, b₁, h1, rfl⟩

theorem Writes.i64 {n : Int} (h : FitsInt n) : Writes i64 n := by
  obtain ⟨h1, h2⟩ := h
  by_cases hn : 0 ≤ n
  · refine .ctor n.toNat ?_ (.le8 (by omega))
    rw [signed, if_pos (by omega)]
    omega
  · refine .ctor (n + 2 ^ 64).toNat ?_ (.le8 (by omega))
    rw [signed, if_neg (by omega)]
    omega

theorem Writes.u8 (n : UInt8) : Writes u8 n := .ctor n.toNat (UInt8.ofNat_toNat (x := n)).symm (.le (by have := n.toNat_lt; omega))

theorem lookup_reverse {α : Type} {es : List (Text × α)} (hn : (es.map (·.1)).Nodup) (k : Text) (v : α) : es.reverse.lookup k = some v ↔ (k, v) ∈ es := by
  have key : ∀ l : List (Text × α), (l.map (·.1)).Nodup → (l.lookup k = some v ↔ (k, v) ∈ l) := by
    intro l
    induction l with
    | nil => simp
    | cons e l ih =>
      intro hn
      rw [List.map_cons, List.nodup_cons] at hn
      obtain ⟨k', v'⟩ := e
      rw [List.lookup_cons, List.mem_cons]
      by_cases hk : k = k'
      · subst hk
        simp only [beq_self_eq_true, Option.some.injEq, Prod.mk.injEq, true_and]
        constructor
        · rintro rfl; exact .inl rfl
        · rintro (h | h)
          · exact h.symm
          · exact absurd (List.mem_map.mpr ⟨(k, v), h, rfl⟩) hn.1
      · have : (k == k') = false := by simp [hk]
        rw [this]
        simp only [Prod.mk.injEq, hk, false_and, false_or]
        exact ih hn.2
  rw [key _ (by rw [List.map_reverse]; exact List.nodup_reverse.mpr hn), List.mem_reverse]

theorem Writes.hashMap {c : Codec Ast} {f : Text → Option Ast} {es : List (Text × Ast)} (he : IsEnum es f)
    (h : FitsList (fun e => FitsText e.1 ∧ Writes c e.2) es) : Writes (hashMap c) f := by
  obtain ⟨b, hb⟩ := Writes.list (c := Object.pair Object.text c) (h.mono fun e he => (Writes.text he.1).pair he.2)
  refine ⟨b, es, he.1, ?_, hb⟩
  funext k
  refine Option.ext fun v => ?_
  rw [mapOf, lookup_reverse he.1, he.2]

theorem Writes.hashSet {α : Type} [DecidableEq α] {c : Codec α} (univ : List α) (hu : univ.Nodup) (hall : ∀ a, a ∈ univ) (hl : univ.length < 2 ^ 64)
    (hw : ∀ a, Writes c a) (f : α → Bool) : Writes (hashSet c) f := by
  obtain ⟨b, hb⟩ := Writes.list (c := c) (l := univ.filter f) ⟨Nat.lt_of_le_of_lt (List.length_filter_le ..) hl, fun a _ => hw a⟩
  exact ⟨b, _, hu.filter _, fun x => by simp [hall], hb⟩

section
variable {X : Ext}

theorem Writes.fill {f : Fill} (h : FitsFill X f) : Writes (fill X) f := .ctor (f.amount, f.startRow) rfl ((Writes.option (h.1.mono fun _ => .le8)).pair h.2)

theorem Writes.sign (s : Sign) : Writes sign s := by
  cases s with
  | negative => exact .enum 0 rfl (by decide) (.bare _)
  | positive => exact .enum 1 rfl (by decide) (.bare _)

theorem Writes.sign? (s : Option Sign) : Writes (Object.option Object.sign) s := .option fun a _ => .sign a

theorem writes_astN {n m : Nat} {a : Ast} (h : Writes (astN X n) a) (hnm : n ≤ m) : Writes (astN X m) a := by
  obtain ⟨b, h⟩ := h
  exact ⟨b, astN_sub X hnm _ _ h⟩

theorem Writes.astN {a : Ast} (h : FitsAst X a) : ∃ n, Writes (astN X n) a := by
  induction h with
  | bool => exact ⟨1, .enum 0 rfl (by decide) (.ctor _ rfl (.bool _))⟩
  | date h => exact ⟨1, .enum 1 rfl (by decide) (.ctor _ rfl h)⟩
  | @float p s v h => exact ⟨1, .enum 2 rfl (by decide) (.ctor (p, s, v) rfl ((Writes.bool p).pair ((Writes.sign? s).pair h)))⟩
  | @fn nm ps b h1 h2 _ ih =>
    obtain ⟨n, ih⟩ := ih
    exact ⟨n + 1, .enum 3 rfl (by decide) (.ctor (ps, b, nm) rfl ((Writes.list (h2.mono fun _ => .text)).pair (ih.pair (.text h1))))⟩
  | @call nm args h1 h2 _ ih =>
    have hn : ∀ l : List Ast, (∀ a ∈ l, ∃ n, Writes (Object.astN X n) a) → ∃ n, ∀ a ∈ l, Writes (Object.astN X n) a := by
      intro l
      induction l with
      | nil => exact fun _ => ⟨0, by simp⟩
      | cons a l ihl =>
        intro h
        obtain ⟨n₁, h1⟩ := h a (List.mem_cons_self ..)
        obtain ⟨n₂, h2⟩ := ihl fun x hx => h x (List.mem_cons_of_mem _ hx)
        refine ⟨max n₁ n₂, fun x hx => ?_⟩
        rcases List.mem_cons.mp hx with rfl | hx
        · exact writes_astN h1 (by omega)
        · exact writes_astN (h2 x hx) (by omega)
    obtain ⟨n, hn⟩ := hn args ih
    exact ⟨n + 1, .enum 4 rfl (by decide) (.ctor (args, nm) rfl ((Writes.list ⟨h2, hn⟩).pair (.text h1)))⟩
  | @«infix» l op r _ h2 _ ihl ihr =>
    obtain ⟨n₁, ihl⟩ := ihl
    obtain ⟨n₂, ihr⟩ := ihr
    exact ⟨max n₁ n₂ + 1, .enum 5 rfl (by decide) (.ctor (l, op, r) rfl ((writes_astN ihl (by omega)).pair ((Writes.text h2).pair (writes_astN ihr (by omega)))))⟩
  | @int p s v h => exact ⟨1, .enum 6 rfl (by decide) (.ctor (p, s, v) rfl ((Writes.bool p).pair ((Writes.sign? s).pair (.i64 h))))⟩
  | ref h => exact ⟨1, .enum 7 rfl (by decide) (.ctor _ rfl (.text h))⟩
  | text h => exact ⟨1, .enum 8 rfl (by decide) (.ctor _ rfl (.text h))⟩
  | @var nm a h1 _ ih =>
    obtain ⟨n, ih⟩ := ih
    exact ⟨n + 1, .enum 9 rfl (by decide) (.ctor (nm, .inr a) rfl ((Writes.text h1).pair (.enum 1 rfl (by decide) (.ctor _ rfl ih))))⟩
  | @cellVar nm v h1 h2 =>
    refine ⟨1, .enum 9 rfl (by decide) (.ctor (nm, .inl v) rfl ((Writes.text h1).pair ?_))⟩
    cases v with
    | absolute a => exact .enum 0 rfl (by decide) (.ctor _ rfl h2)
    | columnRelative c f => exact .enum 2 rfl (by decide) (.ctor (c, f) rfl (h2.1.pair (.fill h2.2)))
    | row r => exact .enum 3 rfl (by decide) (.ctor _ rfl h2)
    | rowRelative r f => exact .enum 4 rfl (by decide) (.ctor (r, f) rfl (h2.1.pair (.fill h2.2)))

theorem Writes.ast {a : Ast} (h : FitsAst X a) : Writes (ast X) a := by
  obtain ⟨n, b, h⟩ := Writes.astN h
  exact ⟨b, n, h⟩

theorem Writes.map {f : Text → Option Ast} (h : FitsMap X f) : Writes (Object.hashMap (Object.ast X)) f := by
  obtain ⟨es, h1, h2⟩ := h
  exact .hashMap h1 (h2.mono fun e he => ⟨he.1, .ast he.2⟩)

theorem Writes.scope {s : Scope} (h : FitsScope X s) : Writes (scope X) s :=
  .ctor (s.functions, s.variables, s.exports) rfl ((Writes.map h.functions).pair ((Writes.map h.variables).pair (.list (h.exports.mono fun _ => .text))))

theorem Writes.rgb (c : Rgb) : Writes rgb c := .ctor (c.r, c.g, c.b) rfl ((Writes.u8 _).pair ((Writes.u8 _).pair (.u8 _)))

theorem Writes.borderSide (s : BorderSide) : Writes borderSide s := by
  cases s with
  | all => exact .enum 0 rfl (by decide) (.bare _)
  | top => exact .enum 1 rfl (by decide) (.bare _)
  | bottom => exact .enum 2 rfl (by decide) (.bare _)
  | left => exact .enum 3 rfl (by decide) (.bare _)
  | right => exact .enum 4 rfl (by decide) (.bare _)

theorem Writes.borderStyle (s : BorderStyle) : Writes borderStyle s := by
  cases s with
  | dashed => exact .enum 0 rfl (by decide) (.bare _)
  | dotted => exact .enum 1 rfl (by decide) (.bare _)
  | double => exact .enum 2 rfl (by decide) (.bare _)
  | solid => exact .enum 3 rfl (by decide) (.bare _)
  | solidMedium => exact .enum 4 rfl (by decide) (.bare _)
  | solidThick => exact .enum 5 rfl (by decide) (.bare _)

theorem Writes.hAlign (s : HAlign) : Writes hAlign s := by
  cases s with
  | center => exact .enum 0 rfl (by decide) (.bare _)
  | left => exact .enum 1 rfl (by decide) (.bare _)
  | right => exact .enum 2 rfl (by decide) (.bare _)

theorem Writes.vAlign (s : VAlign) : Writes vAlign s := by
  cases s with
  | bottom => exact .enum 0 rfl (by decide) (.bare _)
  | center => exact .enum 1 rfl (by decide) (.bare _)
  | top => exact .enum 2 rfl (by decide) (.bare _)

theorem Writes.numFmt (s : NumFmt) : Writes numFmt s := by
  cases s with
  | currency => exact .enum 0 rfl (by decide) (.bare _)
  | date => exact .enum 1 rfl (by decide) (.bare _)
  | datetime => exact .enum 2 rfl (by decide) (.bare _)
  | number => exact .enum 3 rfl (by decide) (.bare _)
  | percent => exact .enum 4 rfl (by decide) (.bare _)
  | text => exact .enum 5 rfl (by decide) (.bare _)
  | time => exact .enum 6 rfl (by decide) (.bare _)
  | scientific => exact .enum 7 rfl (by decide) (.bare _)

theorem Writes.textFmt (s : TextFmt) : Writes textFmt s := by
  cases s with
  | bold => exact .enum 0 rfl (by decide) (.bare _)
  | italic => exact .enum 1 rfl (by decide) (.bare _)
  | strikethrough => exact .enum 2 rfl (by decide) (.bare _)
  | underline => exact .enum 3 rfl (by decide) (.bare _)

theorem Writes.wrap (s : Wrap) : Writes wrap s := by
  cases s with
  | wrap => exact .enum 0 rfl (by decide) (.bare _)
  | overflow => exact .enum 1 rfl (by decide) (.bare _)
  | clip => exact .enum 2 rfl (by decide) (.bare _)

theorem Writes.validation {v : Validation} (h : FitsValidation X v) : Writes (validation X) v := by
  cases v with
  | custom t => exact .enum 0 rfl (by decide) (.ctor _ rfl (.text h))
  | dateAfter d => exact .enum 1 rfl (by decide) (.ctor _ rfl h)
  | dateBefore d => exact .enum 2 rfl (by decide) (.ctor _ rfl h)
  | dateBetween d e => exact .enum 3 rfl (by decide) (.ctor (d, e) rfl (h.1.pair h.2))
  | dateEqualTo d => exact .enum 4 rfl (by decide) (.ctor _ rfl h)
  | dateIsValid => exact .enum 5 rfl (by decide) (.bare _)
  | dateNotBetween d e => exact .enum 6 rfl (by decide) (.ctor (d, e) rfl (h.1.pair h.2))
  | dateOnOrAfter d => exact .enum 7 rfl (by decide) (.ctor _ rfl h)
  | dateOnOrBefore d => exact .enum 8 rfl (by decide) (.ctor _ rfl h)
  | numberBetween m n => exact .enum 9 rfl (by decide) (.ctor (m, n) rfl ((Writes.i64 h.1).pair (.i64 h.2)))
  | numberEqualTo n => exact .enum 10 rfl (by decide) (.ctor _ rfl (.i64 h))
  | numberGreaterThan n => exact .enum 11 rfl (by decide) (.ctor _ rfl (.i64 h))
  | numberGreaterThanOrEqualTo n => exact .enum 12 rfl (by decide) (.ctor _ rfl (.i64 h))
  | numberLessThan n => exact .enum 13 rfl (by decide) (.ctor _ rfl (.i64 h))
  | numberLessThanOrEqualTo n => exact .enum 14 rfl (by decide) (.ctor _ rfl (.i64 h))
  | numberNotBetween m n => exact .enum 15 rfl (by decide) (.ctor (m, n) rfl ((Writes.i64 h.1).pair (.i64 h.2)))
  | numberNotEqualTo n => exact .enum 16 rfl (by decide) (.ctor _ rfl (.i64 h))
  | textContains t => exact .enum 17 rfl (by decide) (.ctor _ rfl (.text h))
  | textDoesNotContain t => exact .enum 18 rfl (by decide) (.ctor _ rfl (.text h))
  | textEqualTo t => exact .enum 19 rfl (by decide) (.ctor _ rfl (.text h))
  | textIsValidEmail => exact .enum 20 rfl (by decide) (.bare _)
  | textIsValidUrl => exact .enum 21 rfl (by decide) (.bare _)
  | valueInList vs => exact .enum 22 rfl (by decide) (.ctor _ rfl (.list (h.mono fun _ => .ast)))
  | valueInRange r => exact .enum 23 rfl (by decide) (.ctor _ rfl h)

theorem Writes.borders (f : BorderSide → Bool) : Writes (Object.hashSet Object.borderSide) f :=
  .hashSet [.all, .top, .bottom, .left, .right] (by decide) (by intro a; cases a <;> decide) (by decide) .borderSide f

theorem Writes.textFmts (f : TextFmt → Bool) : Writes (Object.hashSet Object.textFmt) f :=
  .hashSet [.bold, .italic, .strikethrough, .underline] (by decide) (by intro a; cases a <;> decide) (by decide) .textFmt f

theorem Writes.rgb? (c : Option Rgb) : Writes (Object.option Object.rgb) c := .option fun a _ => .rgb a
theorem Writes.text? {t : Option Text} (h : FitsOption FitsText t) : Writes (Object.option Object.text) t := .option (h.mono fun _ => .text)

theorem Writes.opts₁ {o : Opts} (h : FitsOpts X o) : Writes (opts₁ X) (o.borderColor, o.borderStyle, o.borders, o.color, o.validation) :=
  (Writes.rgb? _).pair ((Writes.borderStyle _).pair ((Writes.borders _).pair ((Writes.rgb? _).pair (.option (h.validation.mono fun _ => .validation)))))

theorem Writes.opts₂ {o : Opts} (h : FitsOpts X o) :
    Writes opts₂ (o.fontColor, o.fontFamily, o.fontSize, o.halign, o.lock, o.note, o.numFmt, o.textFmts, o.wrap, o.var, o.valign) :=
  (Writes.rgb? _).pair ((Writes.text? h.fontFamily).pair ((Writes.option fun a _ => .u8 a).pair ((Writes.hAlign _).pair ((Writes.bool _).pair ((Writes.text? h.note).pair
    ((Writes.numFmt _).pair ((Writes.textFmts _).pair ((Writes.wrap _).pair ((Writes.text? h.var).pair (.vAlign _))))))))))

theorem Writes.field {f : Csvp.Field} (h1 : Writes X.addr ⟨f.addr.x, f.addr.y⟩) (h2 : FitsText f.value)
    (h3 : FitsList (fun p : Csvp.SrcPos => p.line < 2 ^ 64 ∧ p.off < 2 ^ 64) f.positions) : Writes (field X) f :=
  .ctor (⟨f.addr.x, f.addr.y⟩, f.value, f.positions) rfl (h1.pair ((Writes.text h2).pair (.list (h3.mono fun _ hp => .ctor (_, _) rfl ((Writes.le8 hp.1).pair (.le8 hp.2))))))

theorem Writes.cell {c : Cell.Cell} (h : FitsCell X c) : Writes (cell X) c :=
  .ctor (c.ast, c.field, c.value, (c.opts.borderColor, c.opts.borderStyle, c.opts.borders, c.opts.color, c.opts.validation),
      (c.opts.fontColor, c.opts.fontFamily, c.opts.fontSize, c.opts.halign, c.opts.lock, c.opts.note, c.opts.numFmt, c.opts.textFmts, c.opts.wrap, c.opts.var, c.opts.valign)) rfl
    ((Writes.option (h.ast.mono fun _ => .ast)).pair ((Writes.field h.address h.fieldValue h.positions).pair ((Writes.text h.value).pair ((Writes.opts₁ h.opts).pair (.opts₂ h.opts)))))

theorem Writes.row {r : Row} (h : FitsRow X r) : Writes (row X) r :=
  .ctor (r.cells, (r.opts.borderColor, r.opts.borderStyle, r.opts.borders, r.opts.color, r.opts.validation), r.fill,
      (r.opts.fontColor, r.opts.fontFamily, r.opts.fontSize, r.opts.halign, r.opts.lock, r.opts.note, r.opts.numFmt, r.opts.textFmts, r.opts.wrap, r.opts.var, r.opts.valign)) rfl
    ((Writes.list (h.cells.mono fun _ => .cell)).pair ((Writes.opts₁ h.opts).pair ((Writes.option (h.fill.mono fun _ => .fill)).pair (.opts₂ h.opts))))

theorem Writes.source {t : Text} (h : FitsSource t) : Writes source t := by
  obtain ⟨b, hb⟩ := (Writes.text (t := []) (Nat.two_pow_pos 64)).pair ((Writes.le8 h.lines).pair ((Writes.le8 h.lenCode).pair ((Writes.le8 h.lenCsv).pair
    ((Writes.text? h.code).pair ((Writes.text h.csv).pair (Writes.text h.text))))))
  exact ⟨b, [], hb⟩

theorem Writes.mpath {p : MPath} (h : FitsList FitsText p) : Writes mpath p := .list (h.mono fun _ => .text)

/-- C90, writing.  Every module can be written, when its texts, lists and numbers have the sizes that the machine allows. -/
theorem C90_writes {m : Module Text} (h : FitsModule X m) : ∃ b, ObjectFile X m b := by
  have hs : FitsScope X { m.scope with exports := m.scope.exports.dedup } :=
    ⟨h.scope.functions, h.scope.variables, Nat.lt_of_le_of_lt (List.dedup_sublist _).length_le h.scope.exports.1, fun k hk => h.scope.exports.2 k (List.mem_dedup.mp hk)⟩
  obtain ⟨b, hb⟩ := h.version.pair ((Writes.mpath (p := []) ⟨by decide, by simp⟩).pair ((Writes.scope hs).pair
    ((Writes.ctor (f := fun x => (⟨x.1, x.2⟩ : Sheet)) (y := m.sheet) (m.sheet.rows, m.sheet.expanded) rfl ((Writes.list (h.rows.mono fun _ => .row)).pair (.bool _))).pair
    ((Writes.list (h.required.mono fun _ => .mpath)).pair ((Writes.source h.source).pair ((Writes.bool m.dirty).pair (.bool m.needsEval)))))))
  exact ⟨b, { m with scope := { m.scope with exports := m.scope.exports.dedup } }, ⟨fun k => List.mem_dedup.symm, rfl⟩, List.nodup_dedup _, _, rfl, hb⟩

end

end Verif.Object
