import Verif.Parser.Props
/-
C12, more exactly: what a printed formula is read as when it has booleans or floats without a fractional part.
-/
namespace Verif.Parser
open Verif.Ast

/-- The formula has no text with a quote and no name `fn`, and its floats print as `digits.digits` that reads as the same number, or as an integer. -/
inductive Plain (F : F64) : Ast → Prop
  | bool {b} : Plain F (.bool b)
  | int {pct s v} : Plain F (.int pct s v)
  | float {pct s v} : FloatText v → F v = some v → Plain F (.float pct s v)
  | whole {pct s} {n : Nat} : n < 2 ^ 63 → Plain F (.float pct s (natText n))
  | ref {r} : r ≠ "fn".toList → Plain F (.ref r)
  | text {t} : '"' ∉ t → Plain F (.text t)
  | call {n args} : n ≠ "fn".toList → (∀ a ∈ args, Plain F a) → Plain F (.call n args)
  | infix {l op r} : Plain F l → Plain F r → Plain F (.infix l op r)

/-- The second formula is the first with the booleans replaced by references to `TRUE` and `FALSE` and floats that print as integers by integers. -/
inductive Reread (F : F64) : Ast → Ast → Prop
  | bool {b : Bool} : Reread F (.bool b) (.ref (if b then "TRUE".toList else "FALSE".toList))
  | int {pct s v} : Reread F (.int pct s v) (.int pct s v)
  | float {pct s v} : FloatText v → F v = some v → Reread F (.float pct s v) (.float pct s v)
  | whole {pct s} {n : Nat} : n < 2 ^ 63 → Reread F (.float pct s (natText n)) (.int pct s n)
  | ref {r} : Reread F (.ref r) (.ref r)
  | text {t} : Reread F (.text t) (.text t)
  | call {n} {args args' : List Ast} : args.length = args'.length → (∀ (i : Nat) a a', args[i]? = some a → args'[i]? = some a' → Reread F a a') →
      Reread F (.call n args) (.call n args')
  | infix {l op r l' r'} : Reread F l l' → Reread F r r' → Reread F (.infix l op r) (.infix l' op r')

section
variable {u : Uni} {F : F64}

theorem natText_not_float (n : Nat) : ¬ FloatText (natText n) := by
  rintro ⟨ds, es, -, -, -, h⟩
  have := (natText_digits n).2 '.' (by rw [h]; simp)
  cases this

theorem reread_text {a b : Ast} (h : Reread F a b) : display b = display a := by
  induction h with
  | @bool b => cases b <;> rfl
  | int | float | ref | text => rfl
  | whole _ => simp only [display, intText_nat]
  | @call n args args' hl _ ih =>
    have : displayL args' = displayL args := by
      clear * - hl ih
      induction args generalizing args' with
      | nil => cases args' with
        | nil => rfl
        | cons => cases hl
      | cons a as iha =>
        cases args' with
        | nil => cases hl
        | cons a' as' =>
          simp only [displayL]
          rw [ih 0 a a' rfl rfl, iha (by simpa using hl) fun i a a' h1 h2 => ih (i + 1) a a' (by simpa using h1) (by simpa using h2)]
    simp only [display, this]
  | «infix» _ _ ih1 ih2 => simp only [display, ih1, ih2]

theorem refName_bool (u : Uni) (b : Bool) : RefName u (if b then "TRUE".toList else "FALSE".toList) ∧ (if b then "TRUE".toList else "FALSE".toList) ≠ "fn".toList := by
  cases b
  · refine ⟨⟨⟨['F', 'A', 'L', 'S', 'E'], by decide, ?_, .inl rfl⟩, ?_, by decide, by decide, by decide⟩, by decide⟩
    · intro c hc
      simp only [List.mem_cons, List.not_mem_nil, or_false] at hc
      rcases hc with rfl | rfl | rfl | rfl | rfl <;> rfl
    · intro c hc; cases hc; rfl
  · refine ⟨⟨⟨['T', 'R', 'U', 'E'], by decide, ?_, .inl rfl⟩, ?_, by decide, by decide, by decide⟩, by decide⟩
    · intro c hc
      simp only [List.mem_cons, List.not_mem_nil, or_false] at hc
      rcases hc with rfl | rfl | rfl | rfl <;> rfl
    · intro c hc; cases hc; rfl

theorem reread_exists {a : Ast} (hp : Parsed u F a) (h : Plain F a) : ∃ b, Reread F a b ∧ Printable u F b := by
  induction hp with
  | @bool b => exact ⟨_, .bool, .ref (refName_bool u b).1 (refName_bool u b).2⟩
  | int hv => exact ⟨_, .int, .int hv⟩
  | float hv =>
    cases h with
    | float h1 h2 => exact ⟨_, .float h1 h2, .float h1 h2⟩
    | whole h1 => exact ⟨_, .whole h1, .int h1⟩
  | ref hr => cases h with | ref h1 => exact ⟨_, .ref, .ref hr h1⟩
  | text => cases h with | text h1 => exact ⟨_, .text, .text h1⟩
  | @call n args hn hargs ih =>
    cases h with
    | call h1 h2 =>
      have : ∃ args' : List Ast, args.length = args'.length ∧ (∀ (i : Nat) a a', args[i]? = some a → args'[i]? = some a' → Reread F a a') ∧ ∀ a ∈ args', Printable u F a := by
        clear hargs
        induction args with
        | nil => exact ⟨[], rfl, (fun i a a' h _ => by cases h), (fun a h => by cases h)⟩
        | cons a as iha =>
          obtain ⟨as', e1, e2, e3⟩ := iha (fun a ha => ih a (by simp [ha])) (fun a ha => h2 a (by simp [ha]))
          obtain ⟨b, f1, f2⟩ := ih a (by simp) (h2 a (by simp))
          refine ⟨b :: as', by simp [e1], ?_, ?_⟩
          · intro i x x' hx hx'
            cases i with
            | zero => cases hx; cases hx'; exact f1
            | succ i => exact e2 i x x' (by simpa using hx) (by simpa using hx')
          · intro x hx
            rcases List.mem_cons.mp hx with rfl | hx
            · exact f2
            · exact e3 x hx
      obtain ⟨args', e1, e2, e3⟩ := this
      exact ⟨_, .call e1 e2, .call hn h1 e3⟩
  | «infix» hop _ _ ih1 ih2 =>
    cases h with
    | «infix» h1 h2 =>
      obtain ⟨l', e1, e2⟩ := ih1 h1
      obtain ⟨r', f1, f2⟩ := ih2 h2
      exact ⟨_, .infix e1 f1, .infix hop e2 f2⟩

theorem reread_differs {a b : Ast} (h : Reread F a b) (hu : Unfaithful F a) (hpl : Plain F a) : b ≠ a := by
  induction h with
  | bool => intro e; cases e
  | int => cases hu
  | float h1 h2 => exact absurd ⟨h1, h2⟩ hu
  | whole => intro e; cases e
  | ref => cases hpl with | ref h => exact absurd hu h
  | text => cases hpl with | text h => exact absurd hu h
  | @call n args args' hl hr ih =>
    cases hpl with
    | call h1 h2 =>
      simp only [Unfaithful, UnfaithfulL_iff] at hu
      rcases hu with hu | ⟨a, ha, hu⟩
      · exact absurd hu h1
      · intro e
        cases e
        obtain ⟨i, hi⟩ := List.getElem?_of_mem ha
        exact ih i a a hi hi hu (h2 a ha) rfl
  | «infix» _ _ ih1 ih2 =>
    cases hpl with
    | «infix» h1 h2 =>
      intro e
      cases e
      rcases hu with hu | hu
      · exact ih1 hu h1 rfl
      · exact ih2 hu h2 rfl

end

/-- C12: what the printed form of a formula is read as.  Booleans become references to `TRUE` and `FALSE`, floats without a fractional part become integers,
and nothing else changes; printing again gives the same text. -/
theorem C12_reread_partial (u : Uni) (F : F64) (input : Text) (a : Ast) (h : parse u F input = .ok a) (hp : Plain F a) :
    ∃ b, Reread F a b ∧ parse u F (displayFormula a) = .ok b ∧ displayFormula b = displayFormula a := by
  obtain ⟨ts, r, hts, hp', _⟩ := parse_some h
  obtain ⟨b, h1, h2⟩ := reread_exists ((parsed F false u _).1 _ _ _ _ hts hp') hp
  have e : displayFormula b = displayFormula a := by rw [displayFormula, reread_text h1]; rfl
  exact ⟨b, h1, by rw [← e]; exact C12_display_parses u F b h2, e⟩

/-- C12: the formulas that are read back as themselves are exactly those without booleans and floats that print as integers (of the formulas without texts with
a quote, the name `fn` and floats that print otherwise). -/
theorem C12_exact_partial (u : Uni) (F : F64) (input : Text) (a : Ast) (h : parse u F input = .ok a) (hp : Plain F a) :
    parse u F (displayFormula a) = .ok a ↔ ¬ Unfaithful F a := by
  refine ⟨fun h1 hu => ?_, C12_roundtrip_partial u F input a h⟩
  obtain ⟨b, h2, h3, -⟩ := C12_reread_partial u F input a h hp
  rw [h1] at h3
  cases h3
  exact reread_differs h2 hu hp rfl

/-- `=f(true)` is printed as `=f(TRUE)`, and read as a call with a reference. -/
example (u : Uni) (F : F64) : ∃ b, Reread F (.call "f".toList [.bool true]) b ∧ parse u F "=f(TRUE)".toList = .ok b := by
  obtain ⟨b, h1, h2, -⟩ := C12_reread_partial u F "=f(true)".toList (.call "f".toList [.bool true])
    (parse_lexed (e := _) (ts := [⟨.reference, "f".toList⟩, ⟨.openParen, "(".toList⟩, ⟨.boolean, "true".toList⟩, ⟨.closeParen, ")".toList⟩]) rfl rfl rfl)
    (.call (by decide) (by
      intro a ha
      rw [List.mem_singleton] at ha
      subst ha
      exact .bool))
  exact ⟨b, h1, h2⟩

end Verif.Parser
