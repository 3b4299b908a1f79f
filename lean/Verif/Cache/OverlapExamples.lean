import Verif.Cache.Overlap
import Verif.Cache.Examples
/-
Concrete cases for C111.
-/
namespace Verif.Cache.Examples
open Verif.Ast Verif.Loader Verif.Sheet Verif.Cell Verif.Loader.Examples

/-- A source file with `x := n` and the formula `=x`. -/
def oneFile (n : Int) : Parsed := ⟨[], ⟨fun _ => none, single x (.int false none n), []⟩, sheet (.ref x)⟩

theorem eval_one (n : Int) : EvalSheet (oneFile n).scope noKv (oneFile n).sheet (.ok (done (.int false none n))) := by
  have hm : (mergeVariables (oneFile n).scope [] [(x, .int false none n)]).variables = single x (.int false none n) := by
    funext k
    simp [mergeVariables, collect, single]
  have hsv : sheetVars ⟨[⟨{}, none, [⟨some (.ref x), ⟨⟨0, 0⟩, [], []⟩, [], {}⟩]⟩], true⟩ = fun _ => none := by
    funext k
    simp [sheetVars, insertions, rowVar, cellVars, Verif.Sheet.cellVar, collect]
  refine ⟨⟨[⟨{}, none, [⟨some (.ref x), ⟨⟨0, 0⟩, [], []⟩, [], {}⟩]⟩], true⟩, [], [(x, .int false none n)], [], [(x, .int false none n)],
    .ok [⟨{}, none, [⟨some (.int false none n), ⟨⟨0, 0⟩, [], []⟩, [], {}⟩]⟩], rfl, ?_, single_enum x _, empty_enum, ?_, ?_, rfl⟩
  · rw [hsv]; exact empty_enum
  · have := single_enum x (.int false none n)
    rw [← hm] at this; exact this
  · refine .ok (.cons ⟨_, .formula rfl (eval_x ?_) .nil, rfl⟩ .nil)
    simp [evalScope, mergeVariables, collect]

/-- A source file that has just been saved. -/
def world (n : Int) : World Parsed := ⟨(oneFile n, 5), none, 7, fun _ => .start⟩

/-- The hypotheses of `C111_violated_edit`: the sheet stays `n`, whatever `m` is saved. -/
example (n m : Int) : ∃ b, Relation.ReflTransGen (Happens parse 1 noKv (fun _ => true)) (world n) b ∧ b.src.1 = oneFile m ∧
    b.doing 0 = .done (done (.int false none n)) := by
  obtain ⟨b, h1, h2, h3, _⟩ := C111_violated_edit (parse := parse) (version := 1) (kv := noKv) (useCache := fun _ => true) (w := world n) (pm := oneFile n)
    (s := done (.int false none n)) rfl (fun _ h => h) rfl rfl rfl (eval_one n) (oneFile m)
  exact ⟨b, h1, h2, h3⟩

/-- The object file of an older version of the source. -/
def old (n : Int) : Module Parsed := ⟨1, [], (oneFile n).scope, done (.int false none n), oneFile n, false, false⟩

/-- The hypotheses of `C111_violated_check`: of two runs one ends with the old sheet and one with the new one. -/
example (n m : Int) : ∃ b, Relation.ReflTransGen (Quiet parse 1 noKv (fun _ => true)) (⟨(oneFile m, 5), some (some (old n), 3), 7, fun _ => .start⟩ : World Parsed) b ∧
    b.doing 0 = .done (done (.int false none n)) ∧ b.doing 1 = .done (done (.int false none m)) := by
  obtain ⟨b, h1, _, h2, h3⟩ := C111_violated_check (parse := parse) (version := 1) (kv := noKv) (useCache := fun _ => true)
    (w := ⟨(oneFile m, 5), some (some (old n), 3), 7, fun _ => .start⟩) (pm := oneFile m) (s := done (.int false none m)) (m := old n) rfl (show 3 < 5 by decide) (show 5 ≤ 7 by decide)
    (Nat.le_refl _) rfl rfl rfl rfl rfl (eval_one m)
  exact ⟨b, h1, h2, h3⟩

/-- The hypotheses of `C111_orderly_partial`: a world with an old object file, in which one run compiles the source, and ends. -/
example (n m : Int) : New (⟨(oneFile m, 5), some (some (old n), 3), 7, fun _ => .start⟩ : World Parsed) ∧
    ∃ a b, Relation.ReflTransGen (Orderly parse 1 noKv (fun _ => true)) (⟨(oneFile m, 5), some (some (old n), 3), 7, fun _ => .start⟩ : World Parsed) a ∧
      Orderly parse 1 noKv (fun _ => true) a b ∧ a.doing 0 ≠ .done (done (.int false none m)) ∧ b.doing 0 = .done (done (.int false none m)) := by
  refine ⟨⟨fun m' t h => ?_, fun x t h => ?_, (show 5 ≤ 7 by decide), fun _ h => h⟩, ?_⟩
  · cases h; show 3 < 5; decide
  · cases h; show 3 ≤ 7; decide
  · have step : ∀ {o o' : Option (Option (Module Parsed) × Nat)} {t t' : Nat} {d d' : Doing Parsed}, d ≠ .start →
        RunDoes parse 1 noKv (fun _ => true) 0 (oneFile m, 5) o t d o' t' d' →
        Orderly parse 1 noKv (fun _ => true) (two (fun _ => .start) (oneFile m, 5) o t d .start) (two (fun _ => .start) (oneFile m, 5) o' t' d' .start) :=
      fun hd h => .run 0 ⟨rfl, h, fun k hk => by simp [two, hk]⟩ (fun e => absurd e hd)
    refine ⟨two (fun _ => .start) (oneFile m, 5) (some (none, 7)) 7 (.writing ⟨1, [], (oneFile m).scope, done (.int false none m), oneFile m, false, false⟩) .start,
      two (fun _ => .start) (oneFile m, 5) (some (some ⟨1, [], (oneFile m).scope, done (.int false none m), oneFile m, false, false⟩, 7)) 7
        (.done (done (.int false none m))) .start, ?_, step (by simp) (.write (Nat.le_refl _)), by simp [two], rfl⟩
    rw [two_eq (⟨(oneFile m, 5), some (some (old n), 3), 7, fun _ => .start⟩ : World Parsed)]
    refine ((((Relation.ReflTransGen.single (.run 0 ⟨rfl, .object, fun k hk => by simp [two, hk]⟩ (fun _ => .inl fun k => ?_))).tail
      (step (by simp) .time)).tail (step (by simp) (.newer (show 5 > 3 by decide)))).tail (step (by simp) (.parsed rfl))).trans ?_
    · exact (Relation.ReflTransGen.single (step (by simp) (.eval (m := ⟨1, [], (oneFile m).scope, (oneFile m).sheet, oneFile m, false, true⟩) (sc := (oneFile m).scope)
        rfl (eval_one m) rfl))).tail (step (by simp) (.open (Nat.le_refl _)))
    · simp only [two]
      split
      · exact fun h => h
      · split <;> exact fun h => h

end Verif.Cache.Examples
