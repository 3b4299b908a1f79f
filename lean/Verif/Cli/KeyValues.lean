import Verif.Cli.Props
import Mathlib.Data.List.TakeWhile
import Mathlib.Data.List.Forall2
/-
Values given on the command line with `-k` (C81).
-/
namespace Verif.Cli
open Verif.Ast Verif.Loader Verif.Sheet Verif.Cache
open Verif.Cell hiding Target
open Verif.Target hiding MPath

/-- The argument `arg` of `-k` gives the name the value: the name is what stands before the first `=`, the value is the formula after it. -/
def Gives (E : Env) (arg name : Text) (value : Ast) : Prop :=
  ∃ v, arg = name ++ '=' :: v ∧ '=' ∉ name ∧ Parser.parse E.uni E.f64 v = .ok value

theorem span_eq {name v : Text} (h : '=' ∉ name) : (name ++ '=' :: v).span (· != '=') = (name, '=' :: v) := by
  rw [List.span_eq_takeWhile_dropWhile, List.takeWhile_append_of_pos, List.dropWhile_append_of_pos]
  · simp
  · intro c hc; simp only [bne_iff_ne]; rintro rfl; exact h hc
  · intro c hc; simp only [bne_iff_ne]; rintro rfl; exact h hc

theorem span_cons_eq {arg name v : Text} (h : arg.span (· != '=') = (name, '=' :: v)) : arg = name ++ '=' :: v ∧ '=' ∉ name := by
  rw [List.span_eq_takeWhile_dropWhile] at h
  obtain ⟨rfl, h2⟩ := Prod.mk.inj h
  refine ⟨by rw [← h2, List.takeWhile_append_dropWhile], fun hm => ?_⟩
  have := List.mem_takeWhile_imp hm
  simp at this

theorem forall₂_append_right {α β : Type} {R : α → β → Prop} {l : List α} {m n : List β} (h : List.Forall₂ R l (m ++ n)) :
    ∃ l₁ l₂, List.Forall₂ R l₁ m ∧ List.Forall₂ R l₂ n ∧ l = l₁ ++ l₂ :=
  ⟨_, _, List.forall₂_take_append l m n h, List.forall₂_drop_append l m n h, (List.take_append_drop _ _).symm⟩

theorem forall₂_append_left {α β : Type} {R : α → β → Prop} {l : List β} {m n : List α} (h : List.Forall₂ R (m ++ n) l) :
    ∃ l₁ l₂, List.Forall₂ R m l₁ ∧ List.Forall₂ R n l₂ ∧ l = l₁ ++ l₂ := by
  obtain ⟨l₁, l₂, h1, h2, h3⟩ := forall₂_append_right h.flip
  exact ⟨l₁, l₂, h1.flip, h2.flip, h3⟩

theorem display_head {u : Parser.Uni} {F : Parser.F64} {a : Ast} (h : Parser.Printable u F a) : (Parser.display a).head? ≠ some '=' := by
  have hdig : ∀ (s : Option Sign) (v t : Text), v ≠ [] → (∀ c, v.head? = some c → c.isDigit = true) → (Parser.signText s ++ v ++ t).head? ≠ some '=' := by
    intro s v t hne hv hq
    cases s with
    | some s => cases s <;> simp [Parser.signText] at hq
    | none =>
      obtain ⟨c, r, rfl⟩ := List.exists_cons_of_ne_nil hne
      simp [Parser.signText] at hq
      subst hq
      exact absurd (hv '=' rfl) (by decide)
  have href : ∀ (r t : Text), Parser.RefName u r → (r ++ t).head? ≠ some '=' := by
    intro r t hr hq
    obtain ⟨c, r', rfl, hc⟩ := Parser.ref_cons hr
    simp at hq
    subst hq
    rw [show u.isRef (Char.ofNat 61) = false from rfl] at hc
    cases hc
  cases h with
  | @int pct s v hv =>
    rw [Parser.display, Parser.intText_nat]
    have := Parser.natText_digits v
    exact hdig s _ _ this.1 fun c hc => this.2 c (List.mem_of_mem_head? hc)
  | @float pct s v hv _ =>
    rw [Parser.display]
    obtain ⟨ds, es, hne, h1, _, rfl⟩ := hv
    refine hdig s _ _ (by simp) fun c hc => ?_
    obtain ⟨d, ds, rfl⟩ := List.exists_cons_of_ne_nil hne
    simp at hc
    subst hc
    exact h1 d (by simp)
  | ref hr _ => rw [Parser.display]; simpa using href _ [] hr
  | text _ => simp [Parser.display]
  | call hr _ _ => rw [Parser.display, List.append_assoc, List.append_assoc]; exact href _ _ hr
  | «infix» _ _ _ => simp [Parser.display]

theorem parse_display {u : Parser.Uni} {F : Parser.F64} {a : Ast} (h : Parser.Printable u F a) : Parser.parse u F (Parser.display a) = .ok a := by
  have h1 : Parser.LexTo u (Parser.display a) (Parser.toksOf a) := by
    have := Parser.LexTo_display h (rest := []) (ts := []) (by intro c hc; cases hc) (Parser.LexTo_nil u)
    simpa using this
  obtain ⟨n, h2⟩ : Parser.Parses F false 0 (Parser.toksOf a) a [] := by
    have := Parser.Parses.display (F := F) (single := false) h (bp := 0) (rest := []) (by omega) (.inl trivial) (.ends trivial)
    simpa using this
  obtain ⟨e, pts, h3, h4⟩ := Parser.lex_of_LexTo' h1 (display_head h)
  rw [Parser.parse, h3]
  simp only [h4, Parser.parseToks_of F false h2]

theorem gives_unique {E : Env} {arg n n' : Text} {a a' : Ast} (h : Gives E arg n a) (h' : Gives E arg n' a') : n = n' ∧ a = a' := by
  obtain ⟨v, rfl, h1, h2⟩ := h
  obtain ⟨v', e, h1', h2'⟩ := h'
  have e1 := span_eq (v := v) h1
  rw [e, span_eq h1'] at e1
  cases e1
  rw [h2] at h2'
  cases h2'
  exact ⟨rfl, rfl⟩

/-- C81, the command line.  The `-k` arguments are accepted exactly if each of them is a name, `=` and a formula; the values are those, in order. -/
theorem C81_values (E : Env) (args : List Text) (l : List (Text × Ast)) :
    Parser.parseKeyValues E.uni E.f64 args = some l ↔ List.Forall₂ (fun arg d => Gives E arg d.1 d.2) args l := by
  induction args generalizing l with
  | nil => simp [Parser.parseKeyValues]
  | cons arg args ih =>
    rw [Parser.parseKeyValues]
    constructor
    · intro h
      split at h
      · rename_i name v hsp
        split at h
        · rename_i a ha
          obtain ⟨l', h1, rfl⟩ := Option.map_eq_some_iff.mp h
          exact .cons ⟨v, (span_cons_eq hsp).1, (span_cons_eq hsp).2, ha⟩ ((ih l').mp h1)
        · cases h
      · cases h
    · intro h
      cases h with
      | @cons _ d _ l' h1 h2 =>
        obtain ⟨v, rfl, hn, hv⟩ := h1
        rw [span_eq hn]
        simp only [hv, (ih l').mpr h2]
        rfl

/-- C81, the last one counts.  A name has the value that the last argument for it gives; other names have none. -/
theorem C81_last (E : Env) (args : List Text) (l : List (Text × Ast)) (h : Parser.parseKeyValues E.uni E.f64 args = some l) (n : Text) (a : Ast) :
    collect l n = some a ↔ ∃ before arg after, args = before ++ arg :: after ∧ Gives E arg n a ∧ ∀ x ∈ after, ∀ b, ¬ Gives E x n b := by
  rw [C81_values] at h
  constructor
  · intro hc
    induction l using List.reverseRecOn generalizing args with
    | nil => cases hc
    | append_singleton l d ih =>
      obtain ⟨args', xs, h1, h2, rfl⟩ := forall₂_append_right h
      cases h2 with
      | @cons arg _ _ _ h3 h4 =>
        cases h4
        rw [collect_snoc] at hc
        by_cases hn : n = d.1
        · rw [if_pos hn] at hc
          cases hc
          exact ⟨args', arg, [], rfl, hn ▸ h3, by simp⟩
        · rw [if_neg hn] at hc
          obtain ⟨bef, x, aft, rfl, hx, hy⟩ := ih args' h1 hc
          refine ⟨bef, x, aft ++ [arg], by simp, hx, fun y hm b hb => ?_⟩
          rcases List.mem_append.mp hm with hm | hm
          · exact hy y hm b hb
          · rw [List.mem_singleton] at hm
            subst hm
            exact hn (gives_unique hb h3).1
  · rintro ⟨bef, arg, aft, rfl, hg, hno⟩
    obtain ⟨l₁, l₂, h1, h2, rfl⟩ := forall₂_append_left h
    cases h2 with
    | @cons _ d _ l₃ h3 h4 =>
      obtain ⟨rfl, rfl⟩ := gives_unique hg h3
      rw [List.append_cons, collect_app, collect_none l₃ d.1, Option.none_or, collect_snoc, if_pos rfl]
      intro p hp e
      obtain ⟨x, hx, hxp⟩ : ∃ x ∈ aft, Gives E x p.1 p.2 := by
        clear h hno h1
        induction h4 with
        | nil => cases hp
        | cons h5 _ ih =>
          rcases List.mem_cons.mp hp with rfl | hp
          · exact ⟨_, by simp, h5⟩
          · obtain ⟨x, hx, h6⟩ := ih hp
            exact ⟨x, by simp [hx], h6⟩
      exact hno x hx _ (e ▸ hxp)

/-- C81, printed values.  Any formula can be given: its text, as it is printed, after the name and `=`. -/
theorem C81_printed (E : Env) (name : Text) (a : Ast) (h : '=' ∉ name) (ha : Parser.Printable E.uni E.f64 a) :
    Gives E (name ++ '=' :: Parser.display a) name a :=
  ⟨_, rfl, h, parse_display ha⟩

/-- C81, errors.  If an argument of `-k` is not of that form, the program ends unsuccessfully, and no file is touched. -/
theorem C81_rejected (E : Env) (version : Nat) (ts : List Text) (partials : Text → List Text) (cuts : List Nat) (a : Args) (fs : FS Text) (files : Files Text)
    (arg : Text) (ha : arg ∈ a.keyValues) (hno : ∀ n v, ¬ Gives E arg n v) (e : Option Exit) (states : List (Files Text)) (w : List (MPath × Module Text))
    (h : Main E version ts partials cuts a fs files e states w) : e = some .failure ∧ states = [files] ∧ w = [] := by
  have hc : configured E a = none := by
    rw [configured]
    cases hk : Parser.parseKeyValues E.uni E.f64 a.keyValues with
    | none => rfl
    | some l =>
      exfalso
      have h1 := (C81_values E a.keyValues l).mp hk
      generalize a.keyValues = ks at h1 ha
      clear hk
      induction h1 with
      | nil => cases ha
      | cons h5 _ ih =>
        rcases List.mem_cons.mp ha with rfl | ha
        · exact hno _ _ h5
        · exact ih ha
  cases h with
  | badArgs _ => exact ⟨rfl, rfl, rfl⟩
  | noName h1 _ => rw [hc] at h1; cases h1
  | failed h1 _ _ _ => rw [hc] at h1; cases h1
  | panics h1 _ _ => rw [hc] at h1; cases h1
  | hangs h1 _ _ => rw [hc] at h1; cases h1
  | compiled h1 _ _ => rw [hc] at h1; cases h1

/-- C81 fails for several pairs in one argument, the form of the comment in src/parser/ast_parser.rs:60-61: `foo=1,bar=2` gives foo the value 1,
and the rest is dropped without a message. -/
theorem C81_violated_list (E : Env) : Gives E "foo=1,bar=2".toList "foo".toList (.int false none 1) ∧
    ∀ n a, Gives E "foo=1,bar=2".toList n a → n ≠ "bar".toList := by
  have h : Gives E "foo=1,bar=2".toList "foo".toList (.int false none 1) :=
    ⟨"1,bar=2".toList, rfl, by decide, Parser.parse_lexed (e := _) (ts := [⟨.integer, "1".toList⟩, ⟨.comma, ",".toList⟩, ⟨.reference, "bar".toList⟩,
      ⟨.operator, "=".toList⟩, ⟨.integer, "2".toList⟩]) rfl rfl rfl⟩
  exact ⟨h, fun n a h' e => by rw [(gives_unique h' h).1] at e; exact absurd e (by decide)⟩

/-- C81 fails with white space before `=`: the name that gets the value ends with it, and is none that a formula could refer to. -/
theorem C81_violated_space (E : Env) : Gives E "k = 2".toList "k ".toList (.int false none 2) ∧
    ∀ n a, Gives E "k = 2".toList n a → n ≠ "k".toList := by
  have h : Gives E "k = 2".toList "k ".toList (.int false none 2) :=
    ⟨" 2".toList, rfl, by decide, Parser.parse_lexed (e := _) (ts := [⟨.integer, "2".toList⟩]) rfl rfl rfl⟩
  exact ⟨h, fun n a h' e => by rw [(gives_unique h' h).1] at e; exact absurd e (by decide)⟩

/-- `-k a=1 b=2 a=3`: a is 3. -/
example (E : Env) (l : List (Text × Ast)) (h : Parser.parseKeyValues E.uni E.f64 ["a=1".toList, "b=2".toList, "a=3".toList] = some l) :
    collect l "a".toList = some (.int false none 3) := by
  refine (C81_last E _ l h _ _).mpr ⟨["a=1".toList, "b=2".toList], "a=3".toList, [], rfl, ⟨"3".toList, rfl, by decide, ?_⟩, by simp⟩
  exact Parser.parse_lexed (e := _) (ts := [⟨.integer, "3".toList⟩]) rfl rfl rfl

/-- The hypothesis of `C81_rejected`: an argument without `=`. -/
example (E : Env) (n : Text) (a : Ast) : ¬ Gives E "verbose".toList n a := by
  rintro ⟨v, h, -⟩
  have : '=' ∈ "verbose".toList := by rw [h]; simp
  revert this
  decide

end Verif.Cli
