import Verif.Date.Options
import Verif.Target.GoogleMeaning
/-
C109: what a user of a workbook is told about the validation of a cell.
-/
namespace Verif.Date
open Verif.Ast Verif.Parser Verif.Sheet Verif.Target
open Verif.Cell hiding Target

/-! ## Specification: the sentence that tells what a validation checks -/

/-- The kind of a validation. -/
def kind : Validation → VKind
  | .custom _ => .custom | .dateAfter _ => .dateAfter | .dateBefore _ => .dateBefore | .dateBetween _ _ => .dateBetween | .dateEqualTo _ => .dateEqualTo
  | .dateIsValid => .dateIsValid | .dateNotBetween _ _ => .dateNotBetween | .dateOnOrAfter _ => .dateOnOrAfter | .dateOnOrBefore _ => .dateOnOrBefore
  | .numberBetween _ _ => .numBetween | .numberEqualTo _ => .numEq | .numberGreaterThan _ => .numGt | .numberGreaterThanOrEqualTo _ => .numGte
  | .numberLessThan _ => .numLt | .numberLessThanOrEqualTo _ => .numLte | .numberNotBetween _ _ => .numNotBetween | .numberNotEqualTo _ => .numNeq
  | .textContains _ => .textContains | .textDoesNotContain _ => .textDoesNotContain | .textEqualTo _ => .textEq | .textIsValidEmail => .email
  | .textIsValidUrl => .url | .valueInList _ => .inList | .valueInRange _ => .inRange

/-- How the sentence begins. -/
def phrase : VKind → Text
  | .custom => "Custom formula: ".toList | .dateAfter => "Date after ".toList | .dateBefore => "Date before ".toList | .dateBetween => "Date between ".toList
  | .dateEqualTo => "Date equal to ".toList | .dateIsValid => "Date is valid".toList | .dateNotBetween => "Date not between ".toList
  | .dateOnOrAfter => "Date on or after ".toList | .dateOnOrBefore => "Date on or before ".toList | .numBetween => "Number between ".toList
  | .numEq => "Number equal to ".toList | .numGt => "Number greater than ".toList | .numGte => "Number greater than or equal to ".toList
  | .numLt => "Number less than ".toList | .numLte => "Number less than or equal to ".toList | .numNotBetween => "Number not between ".toList
  | .numNeq => "Number not equal to ".toList | .textContains => "Text contains \"".toList | .textDoesNotContain => "Text does not contain \"".toList
  | .textEq => "Text equal to \"".toList | .email => "Text is valid email".toList | .url => "Text is valid URL".toList
  | .inList => "Value in list: ".toList | .inRange => "Value in range ".toList

/-- How it goes on. -/
def details : Validation → Text
  | .custom t => t | .dateAfter d => d | .dateBefore d => d | .dateBetween d e => d ++ (" and ".toList ++ e) | .dateEqualTo d => d | .dateIsValid => []
  | .dateNotBetween d e => d ++ (" and ".toList ++ e) | .dateOnOrAfter d => d | .dateOnOrBefore d => d | .numberBetween m n => intText m ++ (" and ".toList ++ intText n)
  | .numberEqualTo n => intText n | .numberGreaterThan n => intText n | .numberGreaterThanOrEqualTo n => intText n | .numberLessThan n => intText n
  | .numberLessThanOrEqualTo n => intText n | .numberNotBetween m n => intText m ++ (" and ".toList ++ intText n) | .numberNotEqualTo n => intText n
  | .textContains t => t ++ "\"".toList | .textDoesNotContain t => t ++ "\"".toList | .textEqualTo t => t ++ "\"".toList | .textIsValidEmail => [] | .textIsValidUrl => []
  | .valueInList vs => listText vs | .valueInRange r => r

/-- The sentence. -/
def sentence (v : Validation) : Text := phrase (kind v) ++ details v

/-! ## Proofs -/

theorem four_parts (a b c d : Text) : a ++ b ++ c ++ d = a ++ (b ++ (c ++ d)) := by simp only [List.append_assoc]

theorem rule_prompt {x y : Nat} {v : Validation} {r : XRule} (h : excelRule denotes x y v = some r) :
    r.prompt = phrase (kind v) ++ details v ∧ r.input = true ∧ r.error = true := by
  cases v <;> simp only [excelRule] at h
  case dateAfter | dateBefore | dateEqualTo | dateOnOrAfter | dateOnOrBefore =>
    obtain ⟨n, -, h⟩ := Option.map_eq_some_iff.mp h
    subst h
    exact ⟨rfl, rfl, rfl⟩
  case dateBetween | dateNotBetween =>
    obtain ⟨m, -, h⟩ := Option.bind_eq_some_iff.mp h
    obtain ⟨n, -, h⟩ := Option.map_eq_some_iff.mp h
    subst h
    exact ⟨four_parts _ _ _ _, rfl, rfl⟩
  all_goals (rw [Option.some.injEq] at h; subst h; first | exact ⟨rfl, rfl, rfl⟩ | exact ⟨List.append_assoc _ _ _, rfl, rfl⟩)

theorem phrase_prefix {k k' : VKind} (h : phrase k <+: phrase k') (hne : k ≠ k') : (k = .numGt ∧ k' = .numGte) ∨ (k = .numLt ∧ k' = .numLte) := by
  revert h hne
  cases k <;> cases k' <;> decide

theorem intText_chars (n : Int) : intText n ≠ [] ∧ ∀ c ∈ intText n, c.isDigit = true ∨ c = '-' := by
  rw [intText]
  obtain ⟨h1, h2⟩ := natText_digits n.natAbs
  split
  · refine ⟨by simp, fun c hc => ?_⟩
    rcases List.mem_cons.mp hc with rfl | hc
    · exact .inr rfl
    · exact .inl (h2 c hc)
  · exact ⟨h1, fun c hc => .inl (h2 c hc)⟩

theorem intText_inj {m n : Int} (h : intText m = intText n) : m = n := by
  have := entered_int m
  rw [h, entered_int] at this
  exact (Option.some.inj this).symm

theorem int_or (n : Int) (s : Text) : intText n ≠ "or equal to ".toList ++ s := by
  intro h
  rcases (intText_chars n).2 'o' (by rw [h]; exact List.mem_cons_self) with h | h <;> cases h

theorem gt_gte {v v' : Validation} (hk : (kind v = .numGt ∧ kind v' = .numGte) ∨ (kind v = .numLt ∧ kind v' = .numLte))
    (h : phrase (kind v') ++ details v' = phrase (kind v) ++ details v) : False := by
  have e1 : phrase .numGte = phrase .numGt ++ "or equal to ".toList := by decide
  have e2 : phrase .numLte = phrase .numLt ++ "or equal to ".toList := by decide
  rcases hk with ⟨k1, k2⟩ | ⟨k1, k2⟩
  · rw [k1, k2, e1, List.append_assoc, List.append_cancel_left_eq] at h
    cases v <;> first | (cases k1; done) | exact int_or _ _ h.symm
  · rw [k1, k2, e2, List.append_assoc, List.append_cancel_left_eq] at h
    cases v <;> first | (cases k1; done) | exact int_or _ _ h.symm

/-- Equal prompts begin alike. -/
theorem same_kind {v v' : Validation} (h : phrase (kind v') ++ details v' = phrase (kind v) ++ details v) : kind v' = kind v := by
  by_contra hne
  have hp : phrase (kind v) <+: phrase (kind v') ∨ phrase (kind v') <+: phrase (kind v) := by
    rcases List.append_eq_append_iff.mp h with ⟨a, h1, -⟩ | ⟨a, h1, -⟩
    · exact .inr ⟨a, h1.symm⟩
    · exact .inl ⟨a, h1.symm⟩
  rcases hp with hp | hp
  · exact gt_gte (phrase_prefix hp fun e => hne e.symm) h
  · exact gt_gte (phrase_prefix hp hne) h.symm

theorem two_inj {a b a' b' : Text} (h : ' ' ∉ a) (h' : ' ' ∉ a') (e : a' ++ (" and ".toList ++ b') = a ++ (" and ".toList ++ b)) : a' = a ∧ b' = b := by
  induction a generalizing a' with
  | nil =>
    cases a' with
    | nil => exact ⟨rfl, by simpa using e⟩
    | cons c a' =>
      simp at e
      exact absurd (by rw [e.1]; simp) h'
  | cons c a ih =>
    cases a' with
    | nil =>
      simp at e
      exact absurd (by rw [← e.1]; simp) h
    | cons c' a' =>
      simp only [List.mem_cons, not_or] at h h'
      simp only [List.cons_append, List.cons.injEq] at e
      obtain ⟨e1, e2⟩ := ih h.2 h'.2 e.2
      exact ⟨by rw [e.1, e1], e2⟩

theorem digits_blank {t : Text} (h : ∀ c ∈ t, c.isDigit = true) : ' ' ∉ t := fun hc => by cases h _ hc

theorem padded_blank (w n : Nat) : ' ' ∉ padded w n := by
  rw [padded, List.mem_append, not_or]
  refine ⟨fun h => ?_, digits_blank (natText_digits n).2⟩
  have := List.eq_of_mem_replicate h
  cases this

theorem IsDay.blank {t : Text} (h : IsDay t) : ' ' ∉ t := by
  obtain ⟨d, -, rfl, -⟩ := h
  have h1 := padded_blank 2 d.month
  have h2 := padded_blank 2 d.day
  rw [dayText, List.mem_append, List.mem_cons, List.mem_append, List.mem_cons]
  split
  · have h3 := padded_blank 4 d.year.toNat
    simp [h1, h2, h3]
  · have h3 := padded_blank 4 d.year.natAbs
    split <;> simp [h1, h2, h3]

theorem intText_blank (n : Int) : ' ' ∉ intText n := fun h => by
  rcases (intText_chars n).2 _ h with h | h <;> cases h

/-- C109: the prompt of a validation says what is checked; it is shown, and so is an error message; and validations with the same prompt are the same (of a list of choices: the same as it is
written to the workbook), so the prompt tells all that there is. -/
theorem C109_prompt {v v' : Validation} (hv : ValDays v) (hv' : ValDays v') {x y x' y' : Nat} {r r' : XRule} (h : excelRule denotes x y v = some r)
    (h' : excelRule denotes x' y' v' = some r') :
    (r.prompt = sentence v ∧ r.input = true ∧ r.error = true) ∧ (r'.prompt = r.prompt → (v' = v ∨ ∃ vs vs', v = .valueInList vs ∧ v' = .valueInList vs') ∧
      ∀ i j, excelRule denotes i j v' = excelRule denotes i j v) := by
  obtain ⟨e1, e2, e3⟩ := rule_prompt h
  refine ⟨⟨e1, e2, e3⟩, fun e => ?_⟩
  rw [(rule_prompt h').1, e1] at e
  have hk := same_kind e
  rw [hk, List.append_cancel_left_eq] at e
  suffices hs : v' = v ∨ ∃ vs vs', v = .valueInList vs ∧ v' = .valueInList vs' ∧ listText vs' = listText vs by
    rcases hs with rfl | ⟨vs, vs', rfl, rfl, hl⟩
    · exact ⟨.inl rfl, fun _ _ => rfl⟩
    · exact ⟨.inr ⟨_, _, rfl, rfl⟩, fun i j => by simp only [excelRule, hl]⟩
  cases v <;> cases v' <;> cases hk
  case dateBetween.dateBetween | dateNotBetween.dateNotBetween =>
    obtain ⟨rfl, rfl⟩ := two_inj (hv _ (by simp [validationDates])).blank (hv' _ (by simp [validationDates])).blank e
    exact .inl rfl
  case numberBetween.numberBetween | numberNotBetween.numberNotBetween =>
    obtain ⟨f1, f2⟩ := two_inj (intText_blank _) (intText_blank _) e
    rw [intText_inj f1, intText_inj f2]; exact .inl rfl
  case valueInList.valueInList => exact .inr ⟨_, _, rfl, rfl, e⟩
  all_goals first
    | exact .inl rfl
    | (simp only [details] at e; rw [e]; exact .inl rfl)
    | (simp only [details] at e; rw [intText_inj e]; exact .inl rfl)
    | (simp only [details, List.append_cancel_right_eq] at e; rw [e]; exact .inl rfl)

/-- C109, sheets: for every two cells of a compiled sheet that have validations, whatever their positions. -/
theorem C109_sheet {E : Env} (hE : Calendar E) {csv : Text} {n : Nat} {s s' : Sheet} {sc : Scope} {ext : Text → Option Ast} (hp : Sheet.parse E csv n = .ok s)
    (he : EvalSheet sc ext s (.ok s')) {q q' : Row} {c c' : Cell} {v v' : Validation} (hq : q ∈ s'.rows) (hc : c ∈ q.cells) (hv : c.opts.validation = some v)
    (hq' : q' ∈ s'.rows) (hc' : c' ∈ q'.cells) (hv' : c'.opts.validation = some v') (x y x' y' : Nat) :
    ∃ r r', excelRule denotes x y v = some r ∧ excelRule denotes x' y' v' = some r' ∧ (r.prompt = sentence v ∧ r.input = true ∧ r.error = true) ∧
      (r'.prompt = r.prompt → (v' = v ∨ ∃ vs vs', v = .valueInList vs ∧ v' = .valueInList vs') ∧ ∀ i j, excelRule denotes i j v' = excelRule denotes i j v) := by
  have d : ValDays v := (C83_sheet hE hp he q hq).2 c hc v hv
  have d' : ValDays v' := (C83_sheet hE hp he q' hq').2 c' hc' v' hv'
  obtain ⟨r, hr⟩ := Option.ne_none_iff_exists'.mp (excelRule_days d x y)
  obtain ⟨r', hr'⟩ := Option.ne_none_iff_exists'.mp (excelRule_days d' x' y')
  exact ⟨r, r', hr, hr', C109_prompt d d' hr hr'⟩

/-- Two rules with different prompts, and two lists that are told apart neither by the prompt nor by the rule. -/
example : ((excelRule denotes 1 0 (.numberLessThan 5)).map (·.prompt) = some "Number less than 5".toList ∧
      (excelRule denotes 1 0 (.numberLessThanOrEqualTo 5)).map (·.prompt) = some "Number less than or equal to 5".toList) ∧
    excelRule denotes 0 0 (.valueInList [.text "a".toList, .ref "b".toList]) = excelRule denotes 0 0 (.valueInList [.ref "a".toList, .text "b".toList]) := by
  refine ⟨⟨by decide +kernel, by decide +kernel⟩, by decide +kernel⟩

end Verif.Date
