import Verif.Object.Props
import Verif.Object.Writes
/-
Concrete object files.
-/
namespace Verif.Object.Examples
open Verif.Ast Verif.Loader Verif.Sheet Verif.Cache Verif.Object
open Verif.Cell hiding Target

/-- A format for the external types: texts as texts, addresses and the like as numbers. -/
def X : Ext where
  f64 := Object.text
  date := Object.text
  addr := ctor (fun x => ⟨x.1, x.2⟩) (pair (le 8) (le 8))
  column := le 8
  row := le 8
  a1 := Object.text
  version := le 8
  f64_lawful := text_lawful
  date_lawful := text_lawful
  addr_lawful := ctor_lawful _ (pair_lawful (le_lawful 8) (le_lawful 8))
  column_lawful := le_lawful 8
  row_lawful := le_lawful 8
  a1_lawful := text_lawful
  version_lawful := le_lawful 8

/-- `foo(-1, bar)`. -/
def tree : Ast := .call ['f', 'o', 'o'] [.int false (some .negative) (-1), .ref ['b', 'a', 'r']]

/-- The definition `x := foo(-1, bar)`. -/
def defs : Text → Option Ast := fun k => if k = ['x'] then some tree else none

/-- A module with the definition, and the cell `=x` in the sheet. -/
def m : Module Text :=
  ⟨1, [[['b']]], ⟨fun _ => none, defs, [['x']]⟩, ⟨[⟨{ lock := true }, some ⟨none, 0⟩, [⟨some (.ref ['x']), ⟨⟨0, 0⟩, ['=', 'x'], [⟨0, 0⟩, ⟨0, 1⟩]⟩, ['=', 'x'], { note := some ['é'] }⟩]⟩], false⟩,
    ['a', ',', 'b'], false, true⟩

theorem tree_fits : FitsAst X tree := by
  refine .call (by unfold FitsText; decide) (by decide) ?_
  simp only [List.forall_mem_cons]
  exact ⟨.int (by unfold FitsInt; decide), .ref (by unfold FitsText; decide), by simp⟩

theorem m_fits : FitsModule X m := by
  refine ⟨.le (by decide), ⟨⟨[], ⟨by decide, by simp [m]⟩, by decide, by simp⟩, ⟨[(['x'], tree)], ⟨by simp, ?_⟩, by simp, ?_⟩, by decide, ?_⟩, ⟨by decide, ?_⟩, ⟨by decide, ?_⟩, ?_⟩
  · intro k v
    show _ ↔ (if k = ['x'] then some tree else none) = some v
    by_cases hk : k = ['x']
    · simp [hk, eq_comm]
    · simp [hk]
  · simp only [List.forall_mem_cons]
    exact ⟨⟨by unfold FitsText; decide, tree_fits⟩, by simp⟩
  · simp only [m, List.forall_mem_cons]
    exact ⟨by unfold FitsText; decide, by simp⟩
  · simp only [m, List.forall_mem_cons]
    refine ⟨⟨⟨by decide, ?_⟩, ?_, ⟨(by intro a h; cases h), (by intro a h; cases h), (by intro a h; cases h), (by intro a h; cases h)⟩⟩, by simp⟩
    · simp only [List.forall_mem_cons]
      refine ⟨⟨(by intro a h; cases h; exact .ref (by unfold FitsText; decide)), .ctor (0, 0) rfl ((Writes.le (by decide)).pair (.le (by decide))), by unfold FitsText; decide,
        ⟨by decide, by decide⟩, by unfold FitsText; decide, ⟨(by intro a h; cases h), (by intro a h; cases h), (by intro a h; cases h; unfold FitsText; decide), (by intro a h; cases h)⟩⟩, by simp⟩
    · intro a h; cases h; exact ⟨(by intro a h; cases h), .le (by decide)⟩
  · simp only [m, List.forall_mem_cons]
    exact ⟨⟨by decide, by simp only [List.forall_mem_cons]; exact ⟨by unfold FitsText; decide, by simp⟩⟩, by simp⟩
  · exact ⟨by unfold FitsText; decide, by decide, by decide, by decide, (by intro a h; cases h), by unfold FitsText; decide⟩

/-- The module can be written, and what is written is read back. -/
example : ∃ b m', ObjectFile X m b ∧ readObject X b = some m' ∧ SameModule m m' := by
  obtain ⟨b, h⟩ := C90_writes m_fits
  obtain ⟨m', h1, h2⟩ := C90_roundtrip h []
  rw [List.append_nil] at h1
  exact ⟨b, m', h, h1, h2⟩

/-- The bytes of a tree: the variant 7 (a reference), and the name with its length. -/
example : (ast X).enc (.ref ['h', 'i']) [7, 0, 0, 0, 2, 0, 0, 0, 0, 0, 0, 0, 104, 105] :=
  ⟨1, 7, _, [7, 0, 0, 0], [2, 0, 0, 0, 0, 0, 0, 0, 104, 105], rfl, ⟨by decide, by decide⟩, ⟨_, rfl, [2, 0, 0, 0, 0, 0, 0, 0], ⟨by decide, by decide⟩, by decide⟩, rfl⟩

/-- Without the last byte it cannot be read. -/
example : (ast X).dec [7, 0, 0, 0, 2, 0, 0, 0, 0, 0, 0, 0, 104] = none := by decide +kernel

/-- The compiler is stopped in the middle of the second object file: the first is read, the second is not. -/
example (d : Dir) : ∃ d' m', Writing (ObjectFile X) 5 d [([['a']], m), ([['b']], m)] d' ∧ SameModule m m' ∧ (d'.read X).obj [['a']] = some (m', 5) ∧ (d'.read X).obj [['b']] = none := by
  obtain ⟨b, h⟩ := C90_writes m_fits
  obtain ⟨m', h1, h2⟩ := C90_roundtrip h []
  rw [List.append_nil] at h1
  have hb : ([] : Bytes) ≠ b := by
    rintro rfl
    rw [show readObject X [] = none by decide +kernel] at h1
    cases h1
  refine ⟨_, m', .next h (.within [] h (List.nil_prefix)), h2, ?_, ?_⟩
  · rw [read_put, if_neg (by decide), read_put, if_pos rfl, h1]
    rfl
  · rw [read_put, if_pos rfl, C90_cut_off h List.nil_prefix hb]
    rfl

end Verif.Object.Examples
