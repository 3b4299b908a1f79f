import Verif.Object.Together
import Verif.Object.Examples
/-
C117 for a library with the definition `x := true`, which is changed to `x := false`.
-/
namespace Verif.Object.Examples
open Verif.Ast Verif.Loader Verif.Sheet Verif.Cache Verif.Object
open Verif.Cell hiding Target

/-- The source text. -/
def libText : Bool → Text
  | true => "x := true\n---\n".toList
  | false => "x := false\n---\n".toList

/-- The module of this text. -/
def libOf (v : Bool) : Module Text := ⟨1, [], ⟨mapOf [], mapOf [(['x'], .bool v)], [['x']]⟩, ⟨[], false⟩, libText v, false, true⟩

/-- Its bytes up to the definitions. -/
def libHead (v : Bool) : Bytes :=
  [1, 0, 0, 0, 0, 0, 0, 0] ++ [0, 0, 0, 0, 0, 0, 0, 0] ++ [0, 0, 0, 0, 0, 0, 0, 0] ++ [1, 0, 0, 0, 0, 0, 0, 0] ++ [1, 0, 0, 0, 0, 0, 0, 0, 120] ++
    [0, 0, 0, 0, if v then 1 else 0] ++ [1, 0, 0, 0, 0, 0, 0, 0] ++ [1, 0, 0, 0, 0, 0, 0, 0, 120]

theorem x_text : Object.text.enc ['x'] [1, 0, 0, 0, 0, 0, 0, 0, 120] := ⟨[1, 0, 0, 0, 0, 0, 0, 0], ⟨by decide, by decide⟩, by decide⟩

theorem lib_head (v : Bool) : HeadOf X (libOf v) (libHead v) := by
  have hbool : Object.bool.enc v [if v then 1 else 0] := by
    cases v
    · exact ⟨0, rfl, by decide, by decide⟩
    · exact ⟨1, rfl, by decide, by decide⟩
  have hast : (ast X).enc (.bool v) [0, 0, 0, 0, if v then 1 else 0] :=
    ⟨1, 0, _, [0, 0, 0, 0], [if v then 1 else 0], rfl, ⟨by decide, by decide⟩, ⟨v, rfl, hbool⟩, rfl⟩
  have hzero : (le 8).enc 0 [0, 0, 0, 0, 0, 0, 0, 0] := ⟨by decide, by decide⟩
  have hone : (le 8).enc 1 [1, 0, 0, 0, 0, 0, 0, 0] := ⟨by decide, by decide⟩
  refine ⟨[], [1, 0, 0, 0, 0, 0, 0, 0], _, hone, ⟨[0, 0, 0, 0, 0, 0, 0, 0], _, ⟨_, [], hzero, .nil, rfl⟩,
    ⟨(mapOf [], mapOf [(['x'], .bool v)], [['x']]), rfl, [0, 0, 0, 0, 0, 0, 0, 0], _, ⟨[], List.nodup_nil, rfl, _, [], hzero, .nil, rfl⟩,
      ⟨_, _, ⟨[(['x'], .bool v)], by simp, rfl, _, _, hone, .cons ⟨_, _, x_text, hast, rfl⟩ .nil, rfl⟩, ⟨_, _, hone, .cons x_text .nil, rfl⟩, rfl⟩, rfl⟩, rfl⟩, ?_⟩
  simp [libHead]

theorem lib_rest (v : Bool) : ∃ q, RestOf X (libOf v) q := by
  have hcode : FitsOption FitsText (Source.SourceCode.new (libText v)).code := by
    intro a h
    cases v
    · rw [show (Source.SourceCode.new (libText false)).code = some "x := false".toList by decide +kernel] at h
      cases h
      unfold FitsText
      decide +kernel
    · rw [show (Source.SourceCode.new (libText true)).code = some "x := true".toList by decide +kernel] at h
      cases h
      unfold FitsText
      decide +kernel
  have hs : FitsSource (libText v) := by
    refine ⟨?_, ?_, ?_, ?_, hcode, ?_⟩
    · unfold FitsText
      cases v <;> decide +kernel
    · cases v <;> decide +kernel
    · cases v <;> decide +kernel
    · cases v <;> decide +kernel
    · unfold FitsText
      cases v <;> decide +kernel
  have hrows : Writes (Object.list (Object.row X)) [] := .list ⟨by decide, by simp⟩
  have hreq : Writes (Object.list mpath) [] := .list ⟨by decide, by simp⟩
  exact (Writes.ctor (f := fun x => (⟨x.1, x.2⟩ : Sheet)) (y := ⟨[], false⟩) ([], false) rfl (hrows.pair (.bool _))).pair
    (hreq.pair ((Writes.source hs).pair ((Writes.bool _).pair (.bool _))))

theorem rest_ne {m : Module Text} {q : Bytes} (h : RestOf X m q) : q ≠ [] := by
  obtain ⟨a, b, ⟨x, -, c, d, ⟨e, f, ⟨-, rfl⟩, -, rfl⟩, -, rfl⟩, -, rfl⟩ := h
  simp [leBytes]

/-- The object file of `x := true` is there; one run reads it while the other, which compiles the changed source, replaces it.  The first then has the definition `x := true`
together with the source text in which x is false. -/
example : ∃ (b₁ b₂ : Bytes) (runs : Nat → ObjRun) (s : ObjRuns), ObjectFile X (libOf true) b₁ ∧ ObjectFile X (libOf false) b₂ ∧ runs 0 = .reader ∧ runs 1 = .writer b₂ ∧
    Relation.ReflTransGen (ObjTogether X true false runs) (objBegin (some b₁)) s ∧ s.phase 1 = .written ∧
    s.phase 0 = .result (some { libOf false with scope := (libOf true).scope }) := by
  obtain ⟨q₁, h1⟩ := lib_rest true
  obtain ⟨q₂, h2⟩ := lib_rest false
  let runs : Nat → ObjRun := fun i => if i = 0 then .reader else .writer (libHead false ++ q₂)
  obtain ⟨s, hs, e1, e2, -⟩ := C117_violated_reading (runs := runs) (q₁ := q₁) (p₂ := libHead false) (lib_head true) h2 rfl (by simp [libHead]) (rest_ne h2) rfl rfl
  have hsame : ∀ m : Module Text, SameModule m m := fun m => ⟨fun _ => Iff.rfl, rfl⟩
  exact ⟨_, _, runs, s, ⟨libOf true, hsame _, by simp [libOf], mixed_enc (lib_head true) h1⟩, ⟨libOf false, hsame _, by simp [libOf], mixed_enc (lib_head false) h2⟩,
    rfl, rfl, hs, e2, e1⟩

end Verif.Object.Examples
