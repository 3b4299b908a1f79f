import Verif.Cli.Options
import Verif.Cli.MeaningExample
import Verif.Cli.SafetyExample
/-
A concrete case of C108: an option of a row written in its cells, other names and another order.
-/
namespace Verif.Cli
open Verif.Ast Verif.Loader Verif.Sheet Verif.Cache Verif.Csvp.Spec
open Verif.Cell hiding Target
open Verif.Target hiding MPath
open Lib

def rowOptions : Text := "x := 1\n---\n![[lock]]a,[[c=fff]]b\n".toList
def cellOptions : Text := "x := 1\n---\n[[l]]a,[[color=#FFFFFF / lock]]b\n".toList

def rowOptionsRow : RowSrc := ⟨[.inl .lock], [([], ['a']), ([.color ⟨255, 255, 255⟩], ['b'])]⟩
def cellOptionsRow : RowSrc := ⟨[], [([.lock], ['a']), ([.color ⟨255, 255, 255⟩, .lock], ['b'])]⟩

theorem rowOptions_row (E : Env) : RowText E ["![[lock]]a".toList, "[[c=fff]]b".toList] rowOptionsRow := by
  refine RowText.mk ?_ (.cons ⟨[], ['b'], W_nil, Solid_cons rfl _, noList_one (by decide) (by decide) _, rfl,
    .inr ⟨[], "[[c=fff]]".toList, W_nil, ⟨[], "c=fff".toList, [], W_nil, W_nil, .one (.setting ?_), rfl⟩, rfl⟩⟩ .nil)
  · exact FirstText.row (w := []) (l := "![[lock]]".toList) (es' := []) W_nil ⟨[], "lock".toList, [], W_nil, W_nil, .one (.setting (.lock ⟨"lock", by simp, rfl⟩)), rfl⟩
      (.cell ⟨[], ['a'], W_nil, Solid_cons rfl _, noList_one (by decide) (by decide) _, rfl, .inl ⟨rfl, rfl⟩⟩)
  · exact OptText.color (n := "c".toList) (q := "=".toList) (v := "fff".toList) ⟨"c", by simp, rfl⟩ ⟨[], [], W_nil, W_nil, rfl⟩
      (ColorText.short (h := []) (n1 := 15) (n2 := 15) (n3 := 15) (.inl rfl) (.inr rfl) (.inr rfl) (.inr rfl) rfl)

theorem cellOptions_row (E : Env) : RowText E ["[[l]]a".toList, "[[color=#FFFFFF / lock]]b".toList] cellOptionsRow := by
  refine RowText.mk (.cell ⟨[], ['a'], W_nil, Solid_cons rfl _, noList_one (by decide) (by decide) _, rfl,
    .inr ⟨[], "[[l]]".toList, W_nil, ⟨[], "l".toList, [], W_nil, W_nil, .one (.setting (.lock ⟨"l", by simp, rfl⟩)), rfl⟩, rfl⟩⟩)
    (.cons ⟨[], ['b'], W_nil, Solid_cons rfl _, noList_one (by decide) (by decide) _, rfl,
    .inr ⟨[], "[[color=#FFFFFF / lock]]".toList, W_nil, ⟨[], "color=#FFFFFF / lock".toList, [], W_nil, W_nil, ?_, rfl⟩, rfl⟩⟩ .nil)
  refine Entries.cons (t := "color=#FFFFFF".toList) (sep := " / ".toList) (r := "lock".toList) (.setting ?_) (.inr ⟨[' '], [' '], by unfold W; decide, by unfold W; decide, rfl⟩)
    (.one (.setting (.lock ⟨"lock", by simp, rfl⟩)))
  exact OptText.color (n := "color".toList) (q := "=".toList) (v := "#FFFFFF".toList) ⟨"color", by simp, rfl⟩ ⟨[], [], W_nil, W_nil, rfl⟩
      (ColorText.long (h := ['#']) (n1 := 15) (n2 := 15) (n3 := 15) (n4 := 15) (n5 := 15) (n6 := 15) (.inr rfl) (.inl rfl) (.inl rfl) (.inl rfl) (.inl rfl) (.inl rfl) (.inl rfl) rfl)

theorem options_same (E : Env) : SameRow E rowOptionsRow cellOptionsRow := by
  refine ⟨rfl, rfl, .cons ⟨.inl rfl, C108_order (.refl _) ?_⟩ (.cons ⟨.inl rfl, C108_order (.swap _ _ _) ?_⟩ .nil)⟩
  · intro k _ _
    cases k <;> decide
  · intro k _ _
    cases k <;> decide

theorem rowOptions_sections : Sections "x := 1".toList "![[lock]]a,[[c=fff]]b".toList rowOptions :=
  ⟨⟨by decide, by decide +kernel⟩, by decide, "![[lock]]a,[[c=fff]]b\n".toList, .inl (by decide), by decide +kernel⟩

theorem cellOptions_sections : Sections "x := 1".toList "[[l]]a,[[color=#FFFFFF / lock]]b".toList cellOptions :=
  ⟨⟨by decide, by decide +kernel⟩, by decide, "[[l]]a,[[color=#FFFFFF / lock]]b\n".toList, .inl (by decide), by decide +kernel⟩

/-- With `csv++ --backup -o out.xlsx -n Main sheet.csvpp`, the two files give the same workbook (and backup). -/
example (E : Env) (version : Nat) (den : Text → DateVal) (files : Files (Option Workbook)) (e : Option Exit) (states : List (Files (Option Workbook))) :
    (∃ w, MainExcel E version ["1".toList] (fun _ => []) [] den backupArgs (exampleFs rowOptions) files e states w) ↔
    ∃ w, MainExcel E version ["1".toList] (fun _ => []) [] den backupArgs (exampleFs cellOptions) files e states w := by
  refine (C108_program (E := E) (rs := [rowOptionsRow]) (rs' := [cellOptionsRow]) (mp := ["sheet".toList]) (fs := exampleFs rowOptions) (fs' := exampleFs cellOptions) rowOptions_sections
    ⟨⟨[["![[lock]]a".toList, "[[c=fff]]b".toList]], by decide +kernel, .cons (rowOptions_row E) .nil⟩, ?_⟩ cellOptions_sections
    ⟨⟨[["[[l]]a".toList, "[[color=#FFFFFF / lock]]b".toList]], by decide +kernel, .cons (cellOptions_row E) .nil⟩, ?_⟩ (.cons (options_same E) .nil)
    ⟨⟨7, rfl, rfl, by intro o t h; cases h⟩, fun q hq => ?_, rfl⟩ (backupSetup E).main version _).2.1 _ _ den files e states
  · intro r hr c hc h
    rw [List.mem_singleton.mp hr] at hc
    rcases List.mem_cons.mp hc with rfl | hc
    · cases h
    · rw [List.mem_singleton.mp hc] at h; cases h
  · intro r hr c hc h
    rw [List.mem_singleton.mp hr] at hc
    rcases List.mem_cons.mp hc with rfl | hc
    · cases h
    · rw [List.mem_singleton.mp hc] at h; cases h
  · rw [exampleFs, exampleFs]
    simp only [if_neg hq]

end Verif.Cli
