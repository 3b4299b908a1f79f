import Verif.Parser.Props
import Verif.Sheet.Refs
/-!
# C120: what is written is read in one way only

Spreadsheet programs do not agree on the precedence of operators, nor on how operators of the same precedence group.  Here formulas are read without any
such rules: wherever there is an infix operator, its operands may be what stands on its left and on its right.  The text `1 - 2 - 3` can then be read in two
ways.  A formula that csv++ writes can only be read in one.
-/
namespace Verif.Parser
open Verif.Ast

/-! ## Specification -/

/-- Token lists with commas between them. -/
def commas : List (List Tok) → List Tok
  | [] => []
  | [a] => a
  | a :: b :: as => a ++ ⟨.comma, [',']⟩ :: commas (b :: as)

/-- The tokens `ts` can be read as the formula, by rules that say nothing of precedence and associativity. -/
inductive Reads : List Tok → Ast → Prop
  /-- an integer, perhaps with a sign and a percent mark -/
  | int {pct s} {v : Nat} : Reads (signToks s ++ ⟨.integer, natText v⟩ :: pctToks pct) (.int pct s v)
  /-- a number with a point -/
  | float {pct s v} : Reads (signToks s ++ ⟨.float, v⟩ :: pctToks pct) (.float pct s v)
  /-- a name -/
  | ref {r} : Reads [⟨.reference, r⟩] (.ref r)
  /-- a text -/
  | text {t} : Reads [⟨.dqString, '"' :: (t ++ ['"'])⟩] (.text t)
  /-- a call -/
  | call {n parts args} : parts.length = args.length → (∀ (i : Nat) ts a, parts[i]? = some ts → args[i]? = some a → Reads ts a) →
      Reads (⟨.reference, n⟩ :: ⟨.openParen, ['(']⟩ :: (commas parts ++ [⟨.closeParen, [')']⟩])) (.call n args)
  /-- an expression in parentheses -/
  | paren {ts a} : Reads ts a → Reads (⟨.openParen, ['(']⟩ :: (ts ++ [⟨.closeParen, [')']⟩])) a
  /-- two expressions with an operator between them -/
  | infix {ls l op rs r} : op ∈ infixOps → Reads ls l → Reads rs r → Reads (ls ++ ⟨.operator, op⟩ :: rs) (.infix l op r)

/-! ## Parentheses -/

/-- What a token adds to the depth. -/
def weight (t : Tok) : Int := if t.kind = .openParen then 1 else if t.kind = .closeParen then -1 else 0

/-- The depth of parentheses after the tokens. -/
def depth : List Tok → Int
  | [] => 0
  | t :: ts => weight t + depth ts

theorem depth_append (a b : List Tok) : depth (a ++ b) = depth a + depth b := by
  induction a with
  | nil => simp [depth]
  | cons t a ih => simp only [List.cons_append, depth, ih]; omega

/-- Closed, and never below the ground. -/
structure Mid (ts : List Tok) : Prop where
  zero : depth ts = 0
  pos : ∀ p q, ts = p ++ q → 0 ≤ depth p

theorem mid_nil : Mid [] := ⟨rfl, fun p q h => by
  obtain ⟨rfl, rfl⟩ := List.append_eq_nil_iff.mp h.symm; decide⟩

theorem mid_append {a b : List Tok} (ha : Mid a) (hb : Mid b) : Mid (a ++ b) := by
  refine ⟨by rw [depth_append, ha.zero, hb.zero]; rfl, fun p q h => ?_⟩
  rcases List.append_eq_append_iff.mp h with ⟨c, rfl, h2⟩ | ⟨c, h1, -⟩
  · rw [depth_append, ha.zero, Int.zero_add]; exact hb.pos _ _ h2
  · exact ha.pos _ _ h1

theorem mid_flat {t : Tok} (h : weight t = 0) : Mid [t] := by
  refine ⟨by simp [depth, h], fun p q hpq => ?_⟩
  cases p with
  | nil => exact Int.le_refl _
  | cons t' p =>
    obtain ⟨rfl, h2⟩ := List.cons.inj hpq
    obtain ⟨rfl, -⟩ := List.append_eq_nil_iff.mp h2.symm
    simp [depth, h]

theorem mid_cons {t : Tok} {ts : List Tok} (h : weight t = 0) (hm : Mid ts) : Mid (t :: ts) := mid_append (mid_flat h) hm

/-- Within parentheses the depth is at least one. -/
theorem wrap_pos {m p q : List Tok} {t : Tok} (hm : Mid m) (h : ⟨.openParen, ['(']⟩ :: (m ++ [⟨.closeParen, [')']⟩]) = p ++ t :: q) (hp : p ≠ []) :
    1 ≤ depth p := by
  obtain ⟨t', p, rfl⟩ := List.exists_cons_of_ne_nil hp
  obtain ⟨rfl, h'⟩ := List.cons.inj h
  have : 0 ≤ depth p := by
    rcases List.append_eq_append_iff.mp h' with ⟨c, rfl, h2⟩ | ⟨c, h1, -⟩
    · cases c with
      | nil => rw [List.append_nil]; exact hm.pos m [] (by simp)
      | cons c cs => exact absurd (congrArg List.length h2) (by simp)
    · exact hm.pos _ _ h1
  have hw : weight ⟨.openParen, ['(']⟩ = 1 := rfl
  rw [depth, hw]; omega

theorem mid_wrap {m : List Tok} (hm : Mid m) : Mid (⟨.openParen, ['(']⟩ :: (m ++ [⟨.closeParen, [')']⟩])) := by
  have h1 : weight ⟨.openParen, ['(']⟩ = 1 := rfl
  have h2 : weight ⟨.closeParen, [')']⟩ = -1 := rfl
  have hz : depth (⟨.openParen, ['(']⟩ :: (m ++ [⟨.closeParen, [')']⟩])) = 0 := by
    simp only [depth, depth_append, hm.zero, h1, h2]; decide
  refine ⟨hz, fun p q h => ?_⟩
  cases p with
  | nil => exact Int.le_refl _
  | cons t p =>
    cases q with
    | nil => rw [List.append_nil] at h; rw [← h, hz]; exact Int.le_refl _
    | cons t' q => have := wrap_pos hm h (by simp); omega

theorem mid_commas {ps : List (List Tok)} (h : ∀ p ∈ ps, Mid p) : Mid (commas ps) := by
  induction ps with
  | nil => exact mid_nil
  | cons a as ih =>
    cases as with
    | nil => exact h a (by simp)
    | cons b as => exact mid_append (h a (by simp)) (mid_cons rfl (ih fun p hp => h p (by simp [hp])))

/-! ## Readings -/

/-- An infix operator. -/
def IsInfix (t : Tok) : Prop := t.kind = .operator ∧ t.s ∈ infixOps

/-- Operators, except at the very beginning, and commas stand in parentheses. -/
def Solid (ts : List Tok) : Prop := ∀ p t q, ts = p ++ t :: q → p ≠ [] → (IsInfix t ∨ t.kind = .comma) → 1 ≤ depth p

theorem number_solid {s : Option Sign} {t : Tok} {pct : Bool} (ht : ¬ IsInfix t) (ht' : t.kind ≠ .comma) : Solid (signToks s ++ t :: pctToks pct) := by
  intro p t' q h hp ht''
  exfalso
  have hpc : ∀ p t' q, pctToks pct = p ++ t' :: q → ¬ (IsInfix t' ∨ t'.kind = .comma) := by
    intro p t' q h
    have hm : t' ∈ pctToks pct := by rw [h]; simp
    rw [pctToks] at hm
    split at hm
    · rw [List.mem_singleton] at hm
      subst hm
      rintro (⟨-, h⟩ | h)
      · revert h; decide
      · cases h
    · cases hm
  have hno : ∀ p t' q, t :: pctToks pct = p ++ t' :: q → ¬ (IsInfix t' ∨ t'.kind = .comma) := by
    intro p t' q h
    cases p with
    | nil => obtain ⟨rfl, -⟩ := List.cons.inj h; rintro (h | h); exacts [ht h, ht' h]
    | cons t'' p => obtain ⟨-, h⟩ := List.cons.inj h; exact hpc _ _ _ h
  cases s with
  | none => exact hno p t' q h ht''
  | some s =>
    have : ∃ x, signToks (some s) = [x] := by cases s <;> exact ⟨_, rfl⟩
    obtain ⟨x, hx⟩ := this
    rw [hx] at h
    obtain ⟨y, p, rfl⟩ := List.exists_cons_of_ne_nil hp
    obtain ⟨-, h⟩ := List.cons.inj h
    exact hno _ _ _ h ht''

theorem mid_number {s : Option Sign} {t : Tok} {pct : Bool} (ht : weight t = 0) : Mid (signToks s ++ t :: pctToks pct) := by
  refine mid_append ?_ (mid_cons ht ?_)
  · cases s with
    | none => exact mid_nil
    | some s => cases s <;> exact mid_flat rfl
  · rw [pctToks]
    split
    · exact mid_flat rfl
    · exact mid_nil

theorem reads_mid {ts : List Tok} {a : Ast} (h : Reads ts a) : Mid ts := by
  induction h with
  | int => exact mid_number rfl
  | float => exact mid_number rfl
  | ref => exact mid_flat rfl
  | text => exact mid_flat rfl
  | call hl _ ih =>
    refine mid_cons rfl (mid_wrap (mid_commas fun p hp => ?_))
    obtain ⟨i, hi⟩ := List.getElem?_of_mem hp
    have := (List.getElem?_eq_some_iff.mp hi).1
    exact ih i p _ hi (List.getElem?_eq_getElem (by omega))
  | paren _ ih => exact mid_wrap ih
  | «infix» _ _ _ ih1 ih2 => exact mid_append ih1 (mid_cons rfl ih2)

theorem reads_ne {ts : List Tok} {a : Ast} (h : Reads ts a) : ts ≠ [] := by
  cases h <;> simp

/-- What is read is solid, or two expressions with an operator between them. -/
theorem reads_cases {ts : List Tok} {a : Ast} (h : Reads ts a) :
    Solid ts ∨ ∃ ls l op rs r, op ∈ infixOps ∧ Reads ls l ∧ Reads rs r ∧ ts = ls ++ ⟨.operator, op⟩ :: rs ∧ a = .infix l op r := by
  have hone : ∀ t : Tok, Solid [t] := by
    intro t p t' q h hp
    obtain ⟨y, p, rfl⟩ := List.exists_cons_of_ne_nil hp
    exact absurd (congrArg List.length h) (by simp)
  cases h with
  | int => exact .inl (number_solid (by rintro ⟨h, -⟩; cases h) (by intro h; cases h))
  | float => exact .inl (number_solid (by rintro ⟨h, -⟩; cases h) (by intro h; cases h))
  | ref => exact .inl (hone _)
  | text => exact .inl (hone _)
  | @call n parts args hl hr =>
    left
    intro p t q h hp ht
    obtain ⟨y, p, rfl⟩ := List.exists_cons_of_ne_nil hp
    obtain ⟨rfl, h'⟩ := List.cons.inj h
    have hm : Mid (commas parts) := mid_commas fun p hp => by
      obtain ⟨i, hi⟩ := List.getElem?_of_mem hp
      have := (List.getElem?_eq_some_iff.mp hi).1
      exact reads_mid (hr i p _ hi (List.getElem?_eq_getElem (by omega)))
    cases p with
    | nil =>
      obtain ⟨h'', -⟩ := List.cons.inj h'
      subst h''
      rcases ht with ⟨ht, -⟩ | ht <;> cases ht
    | cons z p =>
      have := wrap_pos hm h' (by simp)
      have hw : weight ⟨.reference, n⟩ = 0 := rfl
      rw [depth, hw]; omega
  | paren hr => exact .inl fun p t q h hp _ => wrap_pos (reads_mid hr) h hp
  | «infix» h0 h1 h2 => exact .inr ⟨_, _, _, _, _, h0, h1, h2, rfl, rfl⟩

/-- Commas stand in parentheses. -/
theorem reads_comma {ts : List Tok} {a : Ast} (h : Reads ts a) : ∀ p t q, ts = p ++ t :: q → t.kind = .comma → 1 ≤ depth p := by
  have hsolid : ∀ ts : List Tok, Solid ts → (∀ t q, ts = t :: q → t.kind ≠ .comma) → ∀ p t q, ts = p ++ t :: q → t.kind = .comma → 1 ≤ depth p := by
    intro ts hs hh p t q h ht
    by_cases hp : p = []
    · subst hp; exact absurd ht (hh t q h)
    · exact hs p t q h hp (.inr ht)
  induction h with
  | int =>
    rename_i pct s v
    refine hsolid _ (number_solid (by rintro ⟨h, -⟩; cases h) (by intro h; cases h)) ?_
    intro t q h
    cases s with
    | none => obtain ⟨rfl, -⟩ := List.cons.inj h; intro h; cases h
    | some s => cases s <;> (obtain ⟨rfl, -⟩ := List.cons.inj h; intro h; cases h)
  | float =>
    rename_i pct s v
    refine hsolid _ (number_solid (by rintro ⟨h, -⟩; cases h) (by intro h; cases h)) ?_
    intro t q h
    cases s with
    | none => obtain ⟨rfl, -⟩ := List.cons.inj h; intro h; cases h
    | some s => cases s <;> (obtain ⟨rfl, -⟩ := List.cons.inj h; intro h; cases h)
  | ref =>
    intro p t q h ht
    have this := List.mem_singleton.mp (h ▸ (by simp : t ∈ p ++ t :: q))
    subst this; cases ht
  | text =>
    intro p t q h ht
    have this := List.mem_singleton.mp (h ▸ (by simp : t ∈ p ++ t :: q))
    subst this; cases ht
  | call hl hr _ =>
    rename_i n parts args _
    rcases reads_cases (.call (n := n) hl hr) with h | ⟨_, _, _, _, _, _, _, _, _, h⟩
    · exact hsolid _ h fun t q h => by obtain ⟨rfl, -⟩ := List.cons.inj h; intro h; cases h
    · cases h
  | paren hr _ =>
    intro p t q h ht
    by_cases hp : p = []
    · subst hp; obtain ⟨rfl, -⟩ := List.cons.inj h; cases ht
    · exact wrap_pos (reads_mid hr) h hp
  | «infix» h0 h1 h2 ih1 ih2 =>
    intro p t q h ht
    rcases List.append_eq_append_iff.mp h with ⟨c, rfl, h2'⟩ | ⟨c, h1', h2'⟩
    · cases c with
      | nil => obtain ⟨rfl, -⟩ := List.cons.inj h2'; cases ht
      | cons c cs =>
        obtain ⟨h3, h4⟩ := List.cons.inj h2'
        have := ih2 _ _ _ h4 ht
        have hw : weight c = 0 := by rw [← h3]; rfl
        rw [depth_append, (reads_mid h1).zero, depth, hw]; omega
    · cases c with
      | nil => obtain ⟨rfl, -⟩ := List.cons.inj h2'; cases ht
      | cons c cs =>
        obtain ⟨rfl, -⟩ := List.cons.inj h2'
        exact ih1 _ _ _ h1' ht

/-- The last token is not an infix operator. -/
theorem reads_last {ts : List Tok} {a : Ast} (h : Reads ts a) : ∀ p t, ts = p ++ [t] → ¬ IsInfix t := by
  have hnum : ∀ (s : Option Sign) (t : Tok) (pct : Bool), ¬ IsInfix t → ∀ p x, signToks s ++ t :: pctToks pct = p ++ [x] → ¬ IsInfix x := by
    intro s t pct ht p x h
    have hl := congrArg List.getLast? h
    rw [List.getLast?_append, List.getLast?_append] at hl
    cases pct
    · simp [pctToks] at hl; rw [← hl]; exact ht
    · simp [pctToks] at hl; rw [← hl]; rintro ⟨-, h⟩; revert h; decide
  induction h with
  | int => exact hnum _ _ _ (by rintro ⟨h, -⟩; cases h)
  | float => exact hnum _ _ _ (by rintro ⟨h, -⟩; cases h)
  | ref =>
    intro p t h
    have this := List.mem_singleton.mp (h ▸ (by simp : t ∈ p ++ [t]))
    subst this; rintro ⟨h, -⟩; cases h
  | text =>
    intro p t h
    have this := List.mem_singleton.mp (h ▸ (by simp : t ∈ p ++ [t]))
    subst this; rintro ⟨h, -⟩; cases h
  | call _ _ _ =>
    intro p t h
    rw [← List.cons_append, ← List.cons_append] at h
    obtain ⟨-, h⟩ := List.append_inj' h rfl
    cases h
    rintro ⟨h, -⟩; cases h
  | paren _ _ =>
    intro p t h
    rw [← List.cons_append] at h
    obtain ⟨-, h⟩ := List.append_inj' h rfl
    cases h
    rintro ⟨h, -⟩; cases h
  | @«infix» ls l op rs r _ _ h2 _ ih2 =>
    intro p t h
    refine ih2 (rs.dropLast) t ?_
    have hl := congrArg List.getLast? h
    rw [List.getLast?_append, List.getLast?_append, List.getLast?_cons] at hl
    have hne := reads_ne h2
    obtain ⟨ys, y, rfl⟩ : ∃ ys y, rs = ys ++ [y] := ⟨rs.dropLast, rs.getLast hne, (List.dropLast_append_getLast hne).symm⟩
    simp at hl
    simp [hl]

/-- Arguments are taken apart in one way only. -/
theorem commas_inj {ps qs : List (List Tok)} (hp : ∀ p ∈ ps, p ≠ [] ∧ depth p = 0 ∧ ∀ x t y, p = x ++ t :: y → t.kind = .comma → 1 ≤ depth x)
    (hq : ∀ p ∈ qs, p ≠ [] ∧ depth p = 0 ∧ ∀ x t y, p = x ++ t :: y → t.kind = .comma → 1 ≤ depth x) (h : commas ps = commas qs) : ps = qs := by
  have hne : ∀ (p : List Tok) ps, p ≠ [] → commas (p :: ps) ≠ [] := by
    intro p ps hp
    cases ps <;> simp [commas, hp]
  induction ps generalizing qs with
  | nil =>
    cases qs with
    | nil => rfl
    | cons q qs => exact absurd h.symm (hne q qs (hq q (by simp)).1)
  | cons p ps ih =>
    cases qs with
    | nil => exact absurd h (hne p ps (hp p (by simp)).1)
    | cons q qs =>
      have p1 := hp p (by simp)
      have q1 := hq q (by simp)
      cases ps with
      | nil =>
        cases qs with
        | nil => simp only [commas] at h; rw [h]
        | cons q' qs =>
          simp only [commas] at h
          have := p1.2.2 _ _ _ h rfl
          omega
      | cons p' ps =>
        cases qs with
        | nil =>
          simp only [commas] at h
          have := q1.2.2 _ _ _ h.symm rfl
          omega
        | cons q' qs =>
          simp only [commas] at h
          rcases List.append_eq_append_iff.mp h with ⟨c, h1, h2⟩ | ⟨c, h1, h2⟩
          · cases c with
            | nil =>
              rw [List.append_nil] at h1
              obtain ⟨-, h2⟩ := List.cons.inj h2
              rw [h1, ih (fun p hp' => hp p (by simp [hp'])) (fun p hp' => hq p (by simp [hp'])) h2]
            | cons c cs =>
              obtain ⟨rfl, -⟩ := List.cons.inj h2
              have := q1.2.2 _ _ _ h1 rfl
              omega
          · cases c with
            | nil =>
              rw [List.append_nil] at h1
              obtain ⟨-, h2⟩ := List.cons.inj h2
              rw [h1, ih (fun p hp' => hp p (by simp [hp'])) (fun p hp' => hq p (by simp [hp'])) h2.symm]
            | cons c cs =>
              obtain ⟨rfl, -⟩ := List.cons.inj h2
              have := p1.2.2 _ _ _ h1 rfl
              omega

/-! ## The printed form -/

theorem argToks_commas (args : List Ast) : argToks args = commas (args.map toksOf) := by
  induction args with
  | nil => rfl
  | cons a as ih =>
    cases as with
    | nil => rfl
    | cons b as => simp only [argToks, List.map_cons, commas, ih]

/-- The printed form can be read as the formula. -/
theorem reads_display {u : Uni} {F : F64} {a : Ast} (h : Printable u F a) : Reads (toksOf a) a := by
  induction h with
  | int _ => rw [toksOf, intText_nat]; exact .int
  | float _ _ => exact .float
  | ref _ _ => exact .ref
  | text _ => exact .text
  | call _ _ _ ih =>
    rename_i n args _ _ _
    rw [toksOf, argToks_commas]
    refine .call (by simp) fun i ts a h1 h2 => ?_
    rw [List.getElem?_map, h2] at h1
    cases h1
    exact ih a (List.mem_of_getElem? h2)
  | «infix» h _ _ ih1 ih2 =>
    have := Reads.paren (.infix h ih1 ih2)
    rwa [List.append_assoc, List.cons_append] at this

theorem signed_inj {s s' : Option Sign} {t t' : Tok} {r r' : List Tok} (ht : t.kind ≠ .operator) (ht' : t'.kind ≠ .operator)
    (h : signToks s ++ t :: r = signToks s' ++ t' :: r') : s = s' ∧ t = t' ∧ r = r' := by
  cases s with
  | none =>
    cases s' with
    | none => obtain ⟨h1, h2⟩ := List.cons.inj h; exact ⟨rfl, h1, h2⟩
    | some s' =>
      exfalso
      cases s' <;> (obtain ⟨h1, -⟩ := List.cons.inj h; exact ht (by rw [h1]))
  | some s =>
    cases s' with
    | none =>
      exfalso
      cases s <;> (obtain ⟨h1, -⟩ := List.cons.inj h; exact ht' (by rw [← h1]))
    | some s' =>
      cases s <;> cases s' <;> obtain ⟨h1, h2⟩ := List.cons.inj h
      · obtain ⟨h3, h4⟩ := List.cons.inj h2; exact ⟨rfl, h3, h4⟩
      · exact absurd h1 (by decide)
      · exact absurd h1 (by decide)
      · obtain ⟨h3, h4⟩ := List.cons.inj h2; exact ⟨rfl, h3, h4⟩

theorem pctToks_inj {p p' : Bool} (h : pctToks p = pctToks p') : p = p' := by
  cases p <;> cases p' <;> simp_all [pctToks]

/-- A number can only be read as itself. -/
theorem reads_number {s : Option Sign} {t : Tok} {pct : Bool} (ht : t.kind = .integer ∨ t.kind = .float) {a : Ast}
    (h : Reads (signToks s ++ t :: pctToks pct) a) :
    (∃ v : Nat, t = ⟨.integer, natText v⟩ ∧ a = .int pct s v) ∨ (∃ v, t = ⟨.float, v⟩ ∧ a = .float pct s v) := by
  have hto : t.kind ≠ .operator := by rcases ht with h | h <;> rw [h] <;> decide
  have htc : t.kind ≠ .comma := by rcases ht with h | h <;> rw [h] <;> decide
  have hsol : Solid (signToks s ++ t :: pctToks pct) := number_solid (fun h => hto h.1) htc
  have hhead : ∀ t' r, signToks s ++ t :: pctToks pct = t' :: r → t'.kind ≠ .openParen ∧ t'.kind ≠ .reference ∧ t'.kind ≠ .dqString := by
    intro t' r h
    cases s with
    | none => obtain ⟨h1, -⟩ := List.cons.inj h; rw [← h1]; rcases ht with h | h <;> rw [h] <;> decide
    | some s => cases s <;> (obtain ⟨h1, -⟩ := List.cons.inj h; rw [← h1]; decide)
  generalize hts : signToks s ++ t :: pctToks pct = ts at h
  cases h with
  | int =>
    obtain ⟨rfl, rfl, h3⟩ := signed_inj hto (fun h => by cases h) hts
    obtain rfl := pctToks_inj h3
    exact .inl ⟨_, rfl, rfl⟩
  | float =>
    obtain ⟨rfl, rfl, h3⟩ := signed_inj hto (fun h => by cases h) hts
    obtain rfl := pctToks_inj h3
    exact .inr ⟨_, rfl, rfl⟩
  | ref => exact absurd rfl (hhead _ _ hts).2.1
  | text => exact absurd rfl (hhead _ _ hts).2.2
  | call _ _ => exact absurd rfl (hhead _ _ hts).2.1
  | paren _ => exact absurd rfl (hhead _ _ hts).1
  | «infix» h0 h1 h2 =>
    have := hsol _ _ _ hts (reads_ne h1) (.inl ⟨rfl, h0⟩)
    rw [(reads_mid h1).zero] at this
    omega

/-- The printed form can be read as nothing but the formula. -/
theorem reads_unique {u : Uni} {F : F64} {b : Ast} (hb : Printable u F b) : ∀ a, Reads (toksOf b) a → a = b := by
  induction hb with
  | int _ =>
    intro a h
    rw [toksOf, intText_nat] at h
    rcases reads_number (.inl rfl) h with ⟨v, h1, rfl⟩ | ⟨v, h1, -⟩
    · rw [Sheet.natText_inj _ _ (Tok.mk.inj h1).2]
    · cases h1
  | float _ _ =>
    intro a h
    rw [toksOf] at h
    rcases reads_number (.inr rfl) h with ⟨v, h1, -⟩ | ⟨v, h1, rfl⟩
    · cases h1
    · rw [(Tok.mk.inj h1).2]
  | ref _ _ =>
    rename_i r _ _
    intro a h
    have hsol := reads_cases h
    generalize hts : toksOf (.ref r) = ts at h
    rw [toksOf] at hts
    cases h with
    | int => exact absurd (congrArg (·.head?.map (·.kind)) hts) (by rename_i p s v; cases s <;> [simp [signToks]; (rename_i s; cases s <;> simp [signToks])])
    | float => exact absurd (congrArg (·.head?.map (·.kind)) hts) (by rename_i p s v; cases s <;> [simp [signToks]; (rename_i s; cases s <;> simp [signToks])])
    | ref => cases hts; rfl
    | text => exact absurd (congrArg (·.head?.map (·.kind)) hts) (by simp)
    | call _ _ => exact absurd (congrArg List.length hts) (by simp)
    | paren _ => exact absurd (congrArg (·.head?.map (·.kind)) hts) (by simp)
    | «infix» h0 h1 h2 =>
      have := List.length_pos_of_ne_nil (reads_ne h1)
      have h3 := congrArg List.length hts
      rw [List.length_append] at h3
      simp at h3
      omega
  | text _ =>
    rename_i t _
    intro a h
    generalize hts : toksOf (.text t) = ts at h
    rw [toksOf] at hts
    cases h with
    | int => exact absurd (congrArg (·.head?.map (·.kind)) hts) (by rename_i p s v; cases s <;> [simp [signToks]; (rename_i s; cases s <;> simp [signToks])])
    | float => exact absurd (congrArg (·.head?.map (·.kind)) hts) (by rename_i p s v; cases s <;> [simp [signToks]; (rename_i s; cases s <;> simp [signToks])])
    | ref => exact absurd (congrArg (·.head?.map (·.kind)) hts) (by simp)
    | text => simp at hts; rw [hts]
    | call _ _ => exact absurd (congrArg List.length hts) (by simp)
    | paren _ => exact absurd (congrArg (·.head?.map (·.kind)) hts) (by simp)
    | «infix» h0 h1 h2 =>
      have := List.length_pos_of_ne_nil (reads_ne h1)
      have h3 := congrArg List.length hts
      rw [List.length_append] at h3
      simp at h3
      omega
  | call hn hn' hargs ih =>
    rename_i n args
    intro a h
    have hd := reads_display (.call hn hn' hargs)
    have hsol : Solid (toksOf (.call n args)) := by
      rcases reads_cases hd with h | ⟨_, _, _, _, _, _, _, _, _, h⟩
      · exact h
      · cases h
    generalize hts : toksOf (.call n args) = ts at h
    rw [hts] at hsol
    rw [toksOf] at hts
    cases h with
    | int => exact absurd (congrArg (·.head?.map (·.kind)) hts) (by rename_i p s v; cases s <;> [simp [signToks]; (rename_i s; cases s <;> simp [signToks])])
    | float => exact absurd (congrArg (·.head?.map (·.kind)) hts) (by rename_i p s v; cases s <;> [simp [signToks]; (rename_i s; cases s <;> simp [signToks])])
    | ref => exact absurd (congrArg List.length hts) (by simp)
    | text => exact absurd (congrArg List.length hts) (by simp)
    | paren _ => exact absurd (congrArg (·.head?.map (·.kind)) hts) (by simp)
    | «infix» h0 h1 h2 =>
      have := hsol _ _ _ rfl (reads_ne h1) (.inl ⟨rfl, h0⟩)
      rw [(reads_mid h1).zero] at this
      omega
    | @call n' parts args' hl hr =>
      obtain ⟨h1, h2⟩ := List.cons.inj hts
      obtain ⟨-, h3⟩ := List.cons.inj h2
      obtain ⟨h4, -⟩ := List.append_inj' h3 rfl
      rw [argToks_commas] at h4
      have hgood : ∀ ts a, Reads ts a → ts ≠ [] ∧ depth ts = 0 ∧ ∀ x t y, ts = x ++ t :: y → t.kind = .comma → 1 ≤ depth x :=
        fun ts a h => ⟨reads_ne h, (reads_mid h).zero, reads_comma h⟩
      have h5 := commas_inj (fun p hp => by
        obtain ⟨e, he, rfl⟩ := List.mem_map.mp hp
        exact hgood _ e (reads_display (hargs e he))) (fun p hp => by
        obtain ⟨i, hi⟩ := List.getElem?_of_mem hp
        have := (List.getElem?_eq_some_iff.mp hi).1
        exact hgood _ _ (hr i p _ hi (List.getElem?_eq_getElem (by omega)))) h4
      have hlen : args'.length = args.length := by rw [← hl, ← h5, List.length_map]
      have : args' = args := by
        refine List.ext_getElem hlen fun i i1 i2 => ?_
        refine ih _ (List.getElem_mem i2) _ (hr i _ _ ?_ (List.getElem?_eq_getElem i1))
        rw [← h5, List.getElem?_map, List.getElem?_eq_getElem i2]; rfl
      rw [this, (Tok.mk.inj h1).2]
  | @«infix» l op r hop hl hr ih1 ih2 =>
    intro a h
    have d1 := reads_display hl
    have d2 := reads_display hr
    have hsolid : ∀ e : Ast, Printable u F e → Solid (toksOf e) := by
      intro e he
      rcases reads_cases (reads_display he) with h | ⟨ls, l, op, rs, r, h0, h1, h2, h3, rfl⟩
      · exact h
      · intro p t q hpq hp _
        rw [toksOf] at hpq
        refine wrap_pos (m := toksOf l ++ ⟨.operator, op⟩ :: toksOf r) ?_ (by rw [← hpq, List.append_assoc, List.cons_append]) hp
        cases he with
        | «infix» _ hl hr => exact mid_append (reads_mid (reads_display hl)) (mid_cons rfl (reads_mid (reads_display hr)))
    have hmid : Mid (toksOf l ++ ⟨.operator, op⟩ :: toksOf r) := mid_append (reads_mid d1) (mid_cons rfl (reads_mid d2))
    -- without the parentheses
    have hinner : ∀ a, Reads (toksOf l ++ ⟨.operator, op⟩ :: toksOf r) a → a = .infix l op r := by
      intro a h
      rcases reads_cases h with hs | ⟨ls, l', op', rs, r', h0, h1, h2, h3, rfl⟩
      · have := hs _ _ _ rfl (reads_ne d1) (.inl ⟨rfl, hop⟩)
        rw [(reads_mid d1).zero] at this
        omega
      · rcases List.append_eq_append_iff.mp h3 with ⟨c, e1, e2⟩ | ⟨c, e1, e2⟩
        · cases c with
          | nil =>
            rw [List.append_nil] at e1
            obtain ⟨e3, e4⟩ := List.cons.inj e2
            subst e1 e4
            rw [ih1 _ h1, ih2 _ h2, (Tok.mk.inj e3).2]
          | cons c cs =>
            exfalso
            obtain ⟨e3, e4⟩ := List.cons.inj e2
            subst e3
            have hz : depth cs = 0 := by
              have := (reads_mid h1).zero
              have hw : weight ⟨.operator, op⟩ = 0 := rfl
              rw [e1, depth_append, (reads_mid d1).zero, depth, hw] at this
              omega
            by_cases hcs : cs = []
            · subst hcs
              exact reads_last h1 _ _ e1 ⟨rfl, hop⟩
            · have := hsolid r hr _ _ _ e4 hcs (.inl ⟨rfl, h0⟩)
              omega
        · cases c with
          | nil =>
            rw [List.append_nil] at e1
            obtain ⟨e3, e4⟩ := List.cons.inj e2
            rw [← e1] at h1
            rw [e4] at h2
            rw [ih1 _ h1, ih2 _ h2, ← (Tok.mk.inj e3).2]
          | cons c cs =>
            exfalso
            obtain ⟨e3, e4⟩ := List.cons.inj e2
            subst e3
            have := hsolid l hl _ _ _ e1 (reads_ne h1) (.inl ⟨rfl, h0⟩)
            rw [(reads_mid h1).zero] at this
            omega
    have hshape : toksOf (.infix l op r) = ⟨.openParen, ['(']⟩ :: ((toksOf l ++ ⟨.operator, op⟩ :: toksOf r) ++ [⟨.closeParen, [')']⟩]) := by
      rw [toksOf, List.append_assoc, List.cons_append]
    rw [hshape] at h
    generalize hts : (⟨.openParen, ['(']⟩ : Tok) :: ((toksOf l ++ ⟨.operator, op⟩ :: toksOf r) ++ [⟨.closeParen, [')']⟩]) = ts at h
    cases h with
    | int => exact absurd (congrArg (·.head?.map (·.kind)) hts) (by rename_i p s v; cases s <;> [simp [signToks]; (rename_i s; cases s <;> simp [signToks])])
    | float => exact absurd (congrArg (·.head?.map (·.kind)) hts) (by rename_i p s v; cases s <;> [simp [signToks]; (rename_i s; cases s <;> simp [signToks])])
    | ref => exact absurd (congrArg (·.head?.map (·.kind)) hts) (by simp)
    | text => exact absurd (congrArg (·.head?.map (·.kind)) hts) (by simp)
    | call _ _ => exact absurd (congrArg (·.head?.map (·.kind)) hts) (by simp)
    | paren hr' =>
      obtain ⟨-, h1⟩ := List.cons.inj hts
      obtain ⟨h2, -⟩ := List.append_inj' h1 rfl
      rw [← h2] at hr'
      exact hinner _ hr'
    | «infix» h0 h1 h2 =>
      have := wrap_pos hmid hts (reads_ne h1)
      rw [(reads_mid h1).zero] at this
      omega

/-- C120: the text that is written for a formula is taken apart into tokens that can be read as the formula, and, whatever the precedence of the
operators and the way they group, as nothing else. -/
theorem C120_unambiguous_partial (u : Uni) (F : F64) (b : Ast) (h : Printable u F b) :
    ∃ e pts, lex u (displayFormula b) = .ok (pts, e) ∧ ∀ a, Reads (pts.map (·.tok)) a ↔ a = b := by
  have h1 : LexTo u (display b) (toksOf b) := by
    have := LexTo_display h (rest := []) (ts := []) (by intro c hc; cases hc) (LexTo_nil u)
    simpa using this
  obtain ⟨e, pts, h2, h3⟩ := lex_of_LexTo h1
  refine ⟨e, pts, h2, fun a => ?_⟩
  rw [h3]
  exact ⟨reads_unique h a, by rintro rfl; exact reads_display h⟩

/-- The rules are ambiguous: `1 - 2 - 3` can be read in two ways. -/
theorem C120_ambiguous : ∃ ts a b, Reads ts a ∧ Reads ts b ∧ a ≠ b := by
  have n : ∀ v : Nat, Reads [⟨.integer, natText v⟩] (.int false none v) := fun v => .int (s := none) (pct := false)
  have m : "-".toList ∈ infixOps := by decide
  refine ⟨_, _, _, .infix m (.infix m (n 1) (n 2)) (n 3), .infix (ls := [_]) m (n 1) (.infix (ls := [_]) m (n 2) (n 3)), ?_⟩
  intro h
  injection h with h _ _
  cases h

/-- C120 fails for texts with double quotes, which are written as they are: the text `a"&"b` is written so that it can only be read as two texts that are
put together. -/
theorem C120_violated (u : Uni) (F : F64) :
    parse u F "=\"a\"\"&\"\"b\"".toList = .ok (.text "a\"&\"b".toList) ∧
    ∃ e pts, lex u (displayFormula (.text "a\"&\"b".toList)) = .ok (pts, e) ∧
      ∀ a, Reads (pts.map (·.tok)) a ↔ a = .infix (.text ['a']) ['&'] (.text ['b']) := by
  have h1 : LexTo u "\"a\"&\"b\"".toList [⟨.dqString, ['"', 'a', '"']⟩, ⟨.operator, ['&']⟩, ⟨.dqString, ['"', 'b', '"']⟩] := by
    rw [show "\"a\"&\"b\"".toList = '"' :: ['a', '"', '&', '"', 'b', '"'] from by decide]
    have h3 : LexTo u ['"', 'b', '"'] [⟨.dqString, ['"', 'b', '"']⟩] := LexTo_quoted (p := ['b', '"']) (s := ['b']) rfl (LexTo_nil u)
    have h4 : LexTo u ['&', '"', 'b', '"'] [⟨.operator, ['&']⟩, ⟨.dqString, ['"', 'b', '"']⟩] :=
      LexTo_step (k := .operator) (b := 0) (full := ['&']) rfl ⟨by decide, by decide⟩ h3
    exact LexTo_quoted (p := ['a', '"', '&', '"', 'b', '"']) (s := ['a']) rfl h4
  obtain ⟨e, pts, h2, h3⟩ := lex_of_LexTo h1
  have e1 : "=\"a\"\"&\"\"b\"".toList = '=' :: quoteText "a\"&\"b".toList := by decide
  have e2 : displayFormula (.text "a\"&\"b".toList) = '=' :: "\"a\"&\"b\"".toList := by decide
  rw [e1, e2]
  refine ⟨C15_literal u F _, e, pts, h2, fun a => ?_⟩
  rw [h3]
  clear h1 h2 h3 e1 e2
  have ht : ∀ c : Char, Reads [⟨.dqString, ['"', c, '"']⟩] (.text [c]) := fun c => .text (t := [c])
  have hsolo : ∀ (c : Char) (a : Ast), Reads [⟨.dqString, ['"', c, '"']⟩] a → a = .text [c] := by
    intro c a h
    generalize hts : [(⟨.dqString, ['"', c, '"']⟩ : Tok)] = ts at h
    cases h with
    | int => exact absurd (congrArg (·.head?.map (·.kind)) hts) (by rename_i p s v; cases s <;> [simp [signToks]; (rename_i s; cases s <;> simp [signToks])])
    | float => exact absurd (congrArg (·.head?.map (·.kind)) hts) (by rename_i p s v; cases s <;> [simp [signToks]; (rename_i s; cases s <;> simp [signToks])])
    | ref => exact absurd (congrArg (·.head?.map (·.kind)) hts) (by simp)
    | @text t =>
      have h := (Tok.mk.inj (List.cons.inj hts).1).2
      obtain ⟨-, h⟩ := List.cons.inj h
      have h' : [c] ++ ['"'] = t ++ ['"'] := h
      rw [(List.append_inj' h' rfl).1]
    | call _ _ => exact absurd (congrArg List.length hts) (by simp)
    | paren _ => exact absurd (congrArg (·.head?.map (·.kind)) hts) (by simp)
    | «infix» h0 h1 h2 =>
      have := List.length_pos_of_ne_nil (reads_ne h1)
      have h3 := congrArg List.length hts
      rw [List.length_append] at h3
      simp at h3
      omega
  constructor
  · intro h
    rcases reads_cases h with hs | ⟨ls, l, op, rs, r, h0, r1, r2, e1, rfl⟩
    · have := hs [_] _ _ rfl (by simp) (.inl ⟨rfl, by decide⟩)
      exact absurd this (by decide)
    · match ls, reads_ne r1, e1 with
      | [x], _, e1 =>
        simp only [List.cons_append, List.nil_append, List.cons.injEq, Tok.mk.injEq, true_and] at e1
        obtain ⟨rfl, rfl, rfl⟩ := e1
        rw [hsolo _ _ r1, hsolo _ _ r2]
      | [x, y], _, e1 =>
        simp at e1
      | x :: y :: z :: ls, _, e1 =>
        have := congrArg List.length e1
        simp at this
  · rintro rfl
    exact .infix (ls := [_]) (by decide) (ht 'a') (ht 'b')

end Verif.Parser
