import Verif.Cli.Compiled
import Verif.Cache.Sessions
/-
Compiling again after an edit is like compiling from scratch (C86).
-/
namespace Verif.Cli
open Verif.Ast Verif.Loader Verif.Sheet Verif.Cache Verif.Csvp.Spec
open Verif.Cell hiding Target
open Verif.Target hiding MPath
open Verif.Parser (Stmt Line codeText stmts)

/-! ## Specification -/

/-- The same source files without any object files. -/
def clean {C : Type} (fs : FS C) : FS C := ⟨fs.src, fun _ => none⟩

/-! ## Proofs -/

section
variable {E : Env} {version : Nat} {fs : FS Text} {clock t : Nat} {mp : MPath} {kv : Text → Option Ast}
  {ls : List Line} {csv src : Text} {rs : List RowSrc} {lib : List (MPath × List Stmt)}

theorem session_program (hI : SessionInv (parseModule E) version (lib.map (·.1)) fs clock) (hfiles : ∀ e ∈ lib, LibFile E fs e.1 e.2)
    (hmp : mp ∉ lib.map (·.1)) {main : List Stmt} (honce : (usedBy main).Nodup) (huse : ∀ q ∈ usedBy main, q ∈ lib.map (·.1)) (noCache : Bool) :
    Program E version fs noCache mp main lib := by
  have hreq : ∀ e ∈ lib, ∃ c tm m, fs.src e.1 = some (c, tm) ∧ parseModule E c = .ok m ∧ m.required = usedBy e.2 := by
    intro e he
    obtain ⟨ls, csv, src, tm, rs, h1, h2, h3, h4⟩ := hfiles e he
    obtain ⟨sc, rows, e1, -⟩ := h1.parse h3
    exact ⟨src, tm, _, h4, e1, by rw [← h2]⟩
  obtain ⟨rank, hr⟩ := hI.library.acyclic
  refine ⟨hfiles, fun _ e he => hI.objects _ (List.mem_map.mpr ⟨e, he, rfl⟩), fun q hq => ?_, honce, fun p => if p = mp then ((usedBy main).map rank).sum + 1 else rank p,
    fun q hq => ?_, fun e he q hq => ?_⟩
  · have : q ∈ lib.map (·.1) := by
      rcases hq with hq | ⟨e, he, hq⟩
      · exact huse q hq
      · obtain ⟨c, tm, m, e1, e2, e3⟩ := hreq e he
        obtain ⟨c', tm', m', f1, f2, f3⟩ := hI.library.sources e.1 (List.mem_map.mpr ⟨e, he, rfl⟩)
        rw [e1] at f1; cases f1
        rw [e2] at f2; cases f2
        exact f3 q (e3 ▸ hq)
    obtain ⟨e, he, rfl⟩ := List.mem_map.mp this
    exact ⟨e.2, he⟩
  · have hqm : q ≠ mp := by rintro rfl; exact hmp (huse _ hq)
    simp only [hqm, if_false, if_true]
    have : ∀ (l : List MPath), q ∈ l → rank q ≤ (l.map rank).sum := by
      intro l
      induction l with
      | nil => simp
      | cons a l ih =>
        intro h
        simp only [List.map_cons, List.sum_cons]
        rcases List.mem_cons.mp h with rfl | h
        · omega
        · have := ih h; omega
    have := this _ hq
    omega
  · obtain ⟨c, tm, m, e1, e2, e3⟩ := hreq e he
    have hel : e.1 ∈ lib.map (·.1) := List.mem_map.mpr ⟨e, he, rfl⟩
    obtain ⟨c', tm', m', f1, f2, f3⟩ := hI.library.sources e.1 hel
    rw [e1] at f1; cases f1
    rw [e2] at f2; cases f2
    have hqm : q ≠ mp := by rintro rfl; exact hmp (f3 _ (e3 ▸ hq))
    have hem : e.1 ≠ mp := fun h => hmp (h ▸ hel)
    simp only [hqm, hem, if_false]
    exact hr e.1 hel c tm m e1 e2 q (e3 ▸ hq)

/-- C86.  In a directory in which the files that use a library have been edited and compiled before, a file is saved and compiled.  If the program is as
described in C84, every compilation, with or without `--no-cache`, succeeds with one and the same sheet; it is the sheet that compiling the same source
files without any object files gives. -/
theorem C86_incremental_partial (hv : ∃ l kvs, Parser.parseKeyValues E.uni E.f64 kvs = some l ∧ kv = collect l)
    (hses : Session (parseModule E) version (lib.map (·.1)) fs clock) (hfiles : ∀ e ∈ lib, LibFile E fs e.1 e.2) (hmp : mp ∉ lib.map (·.1)) (ht : clock < t)
    (hsrc : ModuleFile E ls csv src) (hc : CellsSection E csv rs) (honce : (usedBy (stmts ls)).Nodup) (huse : ∀ q ∈ usedBy (stmts ls), q ∈ lib.map (·.1)) :
    ∃ fetch main rows, IsModule (stmts ls) main ∧ (∀ e ∈ lib, ∃ m, fetch e.1 = .ok m ∧ IsModule e.2 m) ∧ AreRows E rs rows ∧
      ∀ s₁ K order isParam, evalFills ⟨rows, false⟩ = some s₁ → IsUnion fetch main K → Tidy K none order isParam →
        AllClear (effective K kv s₁) rows → AllSeen fetch main K kv s₁ rows →
        ∃ s, SheetMeans (effective K kv s₁) rows s ∧ ∀ noCache,
          (∃ w, Compile (parseModule E) version (!noCache) kv (fs.edit t mp src) mp (.ok s) w) ∧
          (∀ o w, Compile (parseModule E) version (!noCache) kv (fs.edit t mp src) mp o w → o = .ok s) ∧
          ∀ o w, Compile (parseModule E) version (!noCache) kv (clean (fs.edit t mp src)) mp o w → o = .ok s := by
  obtain ⟨scm, rows, hpm, him, hrows⟩ := hsrc.parse hc
  have hI := session_inv (Session.edit hses ht hmp (c := src) (by
    intro m hm
    rw [hpm] at hm; cases hm
    exact ⟨honce, huse⟩))
  have hfiles' : ∀ e ∈ lib, LibFile E (fs.edit t mp src) e.1 e.2 := by
    intro e he
    obtain ⟨ls, csv, src', tm, rs, h1, h2, h3, h4⟩ := hfiles e he
    have hem : e.1 ≠ mp := fun h => hmp (h ▸ List.mem_map.mpr ⟨e, he, rfl⟩)
    exact ⟨ls, csv, src', tm, rs, h1, h2, h3, by simp [FS.edit, hem, h4]⟩
  have hfresh : Fresh (fs.edit t mp src) mp src := by
    refine ⟨t, by simp [FS.edit], fun o t' ho => ?_⟩
    have := (session_inv hses).objTimes mp o t' ho
    omega
  have hfresh' : Fresh (clean (fs.edit t mp src)) mp src := ⟨t, by simp [FS.edit, clean], by rintro o t' ⟨⟩⟩
  refine ⟨fetchOf (parseModule E) version false (fs.edit t mp src), mainMod ⟨usedBy (stmts ls), scm, ⟨rows, false⟩⟩, rows, him, fun e he => ?_, hrows, ?_⟩
  · obtain ⟨m, e1, e2, -⟩ := (hfiles' e he).fetch (version := version)
    exact ⟨m, e1, e2⟩
  intro s₁ K order isParam hs₁ hu hT hclear hseen
  have h1 := fun noCache => program_sheets hv hsrc.lines hpm him hrows hfresh (session_program hI hfiles' hmp honce huse noCache) s₁ K order isParam hs₁ hu hT hclear hseen
  have hP : ∀ noCache, Program E version (clean (fs.edit t mp src)) noCache mp (stmts ls) lib := fun noCache => by
    have := session_program hI hfiles' hmp honce huse noCache
    exact ⟨this.files, fun _ e _ o t ho => (by cases ho), this.closed, this.once, this.acyclic⟩
  have h2 := fun noCache => program_sheets hv hsrc.lines hpm him hrows hfresh' (hP noCache) s₁ K order isParam hs₁ hu hT hclear hseen
  obtain ⟨⟨s, w, hsw⟩, hall⟩ := h1 false
  obtain ⟨-, _, sc, e, hg, hev⟩ := hall _ _ hsw
  cases e
  refine ⟨s, sheet_means hs₁ hg hev, fun noCache => ⟨?_, fun o w h => ?_, fun o w h => ?_⟩⟩
  · obtain ⟨⟨s', w', hsw'⟩, hall'⟩ := h1 noCache
    obtain ⟨-, _, sc', e, hg', hev'⟩ := hall' _ _ hsw'
    cases e
    exact ⟨w', by rw [sheet_one hs₁ hg hg' hev hev']; exact hsw'⟩
  · obtain ⟨-, s', sc', rfl, hg', hev'⟩ := (h1 noCache).2 o w h
    rw [sheet_one hs₁ hg hg' hev hev']
  · obtain ⟨-, s', sc', rfl, hg', hev'⟩ := (h2 noCache).2 o w h
    rw [sheet_one hs₁ hg hg' hev hev']

end
end Verif.Cli
