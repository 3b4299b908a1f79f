import Verif.Cli.Inline
import Verif.Cli.Workbook
/-
Programs whose main files are parsed to the same definitions and to cells that show the same: they run alike, whatever the target and the modules they use (used
for C108).
-/
namespace Verif.Cli
open Verif.Ast Verif.Loader Verif.Sheet Verif.Cache Verif.Csvp.Spec
open Verif.Cell hiding Target
open Verif.Target hiding MPath

/-- The rows have the same name and the same fill, and cells that show the same. -/
structure AlikeRow (r r' : Row) : Prop where
  name : r'.opts.var = r.opts.var
  fill : r'.fill = r.fill
  cells : r'.cells.map visible = r.cells.map visible

theorem AlikeRow.symm {r r' : Row} (h : AlikeRow r r') : AlikeRow r' r := ⟨h.name.symm, h.fill.symm, h.cells.symm⟩

section
variable {rows rows' : List Row} (h : List.Forall₂ AlikeRow rows rows')
include h

theorem multipleInfinite_alike (b : Bool) : multipleInfinite b rows' = multipleInfinite b rows := by
  induction h generalizing b with
  | nil => rfl
  | cons h _ ih =>
    rename_i r r' rs rs' _
    rw [multipleInfinite.eq_def, multipleInfinite.eq_def b (r :: rs)]
    simp only [h.fill, ih]

theorem rowsLeftOver_alike : rowsLeftOver rows' = rowsLeftOver rows := by
  have : ∀ n, rows'.foldl (fun acc r => acc + rowCount r) n = rows.foldl (fun acc r => acc + rowCount r) n := by
    induction h with
    | nil => intro n; rfl
    | cons h _ ih => intro n; rw [List.foldl_cons, List.foldl_cons, ih, rowCount, rowCount, h.fill]
  rw [rowsLeftOver, rowsLeftOver, this]

theorem expandLoop_alike (n y : Nat) : List.Forall₂ AlikeRow (expandLoop n y rows) (expandLoop n y rows') := by
  induction h generalizing y with
  | nil => exact .nil
  | cons h _ ih =>
    rename_i r r' rs rs' _
    rw [expandLoop, expandLoop, h.fill]
    cases e : r.fill with
    | none => exact .cons h (ih _)
    | some f => exact List.rel_append (forall₂_replicate ⟨h.name, rfl, h.cells⟩ _) (ih _)

theorem insertions_alike (y : Nat) : insertions y rows' = insertions y rows := by
  induction h generalizing y with
  | nil => rfl
  | cons h _ ih =>
    rename_i r r' rs rs' _
    rw [insertions, insertions, ih, rowVar, rowVar, h.name, h.fill]
    congr 2
    have hc := h.cells
    revert hc
    generalize 0 = x, r'.cells = A, r.cells = B
    intro hc
    induction B generalizing A x with
    | nil =>
      cases A with
      | nil => rfl
      | cons c cs => cases hc
    | cons c cs ih' =>
      cases A with
      | nil => cases hc
      | cons c' cs' =>
        rw [List.map_cons, List.map_cons, List.cons.injEq] at hc
        rw [cellVars, cellVars, ih' _ _ hc.2, cellVar, cellVar, (seen_parts hc.1).1]

/-- The expanded sheets. -/
theorem fills_alike : (evalFills ⟨rows, false⟩ = none ∧ evalFills ⟨rows', false⟩ = none) ∨ ∃ s₁ t₁, evalFills ⟨rows, false⟩ = some s₁ ∧
    evalFills ⟨rows', false⟩ = some t₁ ∧ List.Forall₂ AlikeRow s₁.rows t₁.rows ∧ sheetVars t₁ = sheetVars s₁ := by
  simp only [evalFills, Bool.false_eq_true, if_false, multipleInfinite_alike h, rowsLeftOver_alike h]
  split
  · exact .inl ⟨rfl, rfl⟩
  · have he := expandLoop_alike h (rowsLeftOver rows) 0
    refine .inr ⟨_, _, rfl, rfl, he, ?_⟩
    simp only [sheetVars]
    rw [insertions_alike he]

/-- The evaluated sheets show the same. -/
theorem sheet_alike {sc : Scope} {ext : Text → Option Ast} {o : Out Sheet} (he : EvalSheet sc ext ⟨rows, false⟩ o) :
    ∃ o', EvalSheet sc ext ⟨rows', false⟩ o' ∧ OutRel (fun s t => List.Forall₂ Seen s.rows t.rows) o o' := by
  obtain ⟨h1, h2, s₁, o1, h3, h4, rfl⟩ := evalSheet_iff.mp he
  rcases fills_alike h with ⟨e1, e2⟩ | ⟨s, t₁, e1, e2, e3, e4⟩
  · rw [e1] at h3; cases h3
  · rw [e1] at h3; cases h3
    have ht : effective sc ext t₁ = effective sc ext s₁ := by rw [effective, effective, e4]
    obtain ⟨o2, g1, g2⟩ := evalRows_seen (L := effective sc ext t₁) h4 e3.length_eq.symm fun y r r' k1 k2 => by
      obtain ⟨r'', k3, k4⟩ := forall₂_get e3 k1
      rw [k2] at k3; cases k3
      refine ⟨by simpa using congrArg List.length k4.cells, fun x c c' m1 m2 => ?_⟩
      obtain ⟨c'', m3, m4⟩ := visible_get k4.cells m1
      rw [m2] at m3; cases m3
      obtain ⟨n1, n2, n3⟩ := seen_parts m4
      refine ⟨n1, ?_⟩
      cases e : c.ast with
      | none => exact .inl ⟨rfl, n2.trans e, n3 e⟩
      | some f => exact .inr ⟨f, f, rfl, n2.trans e, fun o => by rw [ht]⟩
    exact ⟨_, evalSheet_iff.mpr ⟨h1, h2, t₁, o2, e2, g1, rfl⟩, g2.map fun _ _ h => h⟩

end

/-- The files are the same but for the text of the main file, which is newer than its object file (if there is one). -/
structure Respelled (fs fs' : FS Text) (mp : MPath) (src src' : Text) : Prop where
  main : ∃ t, fs.src mp = some (src, t) ∧ fs'.src mp = some (src', t) ∧ ∀ o t', fs.obj mp = some (o, t') → t' < t
  others : ∀ q, q ≠ mp → fs'.src q = fs.src q
  objects : fs'.obj = fs.obj

theorem Respelled.symm {fs fs' : FS Text} {mp : MPath} {src src' : Text} (h : Respelled fs fs' mp src src') : Respelled fs' fs mp src' src := by
  obtain ⟨⟨t, h1, h2, h3⟩, h4, h5⟩ := h
  exact ⟨⟨t, h2, h1, by rw [h5]; exact h3⟩, fun q hq => (h4 q hq).symm, h5.symm⟩

/-- The two files are both rejected, or parsed to the same definitions, the same used modules and rows that are alike. -/
inductive ParsedAlike (E : Env) (src src' : Text) : Prop
  | bad {e e'} : parseModule E src = .error e → parseModule E src' = .error e' → ParsedAlike E src src'
  | good {req sc rows rows'} : parseModule E src = .ok ⟨req, sc, ⟨rows, false⟩⟩ → parseModule E src' = .ok ⟨req, sc, ⟨rows', false⟩⟩ →
      List.Forall₂ AlikeRow rows rows' → ParsedAlike E src src'

theorem ParsedAlike.symm {E : Env} {src src' : Text} (h : ParsedAlike E src src') : ParsedAlike E src' src := by
  cases h with
  | bad h1 h2 => exact .bad h2 h1
  | good h1 h2 h3 => exact .good h2 h1 (h3.flip.imp fun _ _ h => h.symm)

/-- The outcomes show the same. -/
inductive OutAlike : COut → COut → Prop
  | ok {s t} : List.Forall₂ Seen s.rows t.rows → OutAlike (.ok s) (.ok t)
  | error : OutAlike .error .error
  | panic : OutAlike .panic .panic
  | stuck : OutAlike .stuck .stuck

theorem OutAlike.refl_failure {lo : LOut} {o : COut} (h : LOut.failure lo = some o) : OutAlike o o := by
  cases lo <;> cases h <;> constructor

section
variable {E : Env} {version : Nat} {useCache : Bool} {kv : Text → Option Ast} {fs fs' : FS Text} {mp : MPath} {src src' : Text}

/-- What the loader reads of the other modules, and of the main module if they use it. -/
theorem fetch_alike (h : Respelled fs fs' mp src src') {req : List MPath} {sc : Scope} {sh sh' : Sheet} (hp : parseModule E src = .ok ⟨req, sc, sh⟩)
    (hp' : parseModule E src' = .ok ⟨req, sc, sh'⟩) : fetchOf (parseModule E) version useCache fs' = fetchOf (parseModule E) version useCache fs := by
  obtain ⟨⟨t, h1, h2, h3⟩, h4, h5⟩ := h
  funext q
  by_cases hq : q = mp
  · subst hq
    have hc : ∀ m t', checkDirty version fs' q m t' = checkDirty version fs q m t' := by
      intro m t'
      rw [checkDirty, checkDirty, h1, h2]
    have hl : (loadSource (parseModule E) version fs' q).map Module.toMod = (loadSource (parseModule E) version fs q).map Module.toMod := by
      simp only [loadSource, h1, h2, hp, hp']; rfl
    rw [fetchOf, fetchOf, loadDep, loadDep]
    cases useCache with
    | false => exact hl
    | true =>
      simp only [if_true, loadCached, h5]
      cases fs.obj q with
      | none => exact hl
      | some x => simp only [hc]
  · have e : fs'.src q = fs.src q := h4 q hq
    rw [fetchOf, fetchOf, loadDep, loadDep, loadCached, loadCached, loadSource, loadSource, e, h5]
    congr 2
    cases fs.obj q with
    | none => rfl
    | some x => simp only [checkDirty, e]

/-- Compilations. -/
theorem compile_alike (h : Respelled fs fs' mp src src') (hp : ParsedAlike E src src') {o : COut} {w : List (MPath × Module Text)}
    (hc : Compile (parseModule E) version useCache kv fs mp o w) : ∃ o' w', Compile (parseModule E) version useCache kv fs' mp o' w' ∧ OutAlike o o' := by
  have hfr : Fresh fs mp src := by obtain ⟨⟨t, h1, -, h3⟩, -⟩ := h; exact ⟨t, h1, h3⟩
  have hfr' : Fresh fs' mp src' := by obtain ⟨⟨t, h1, -, h3⟩, -⟩ := h.symm; exact ⟨t, h1, h3⟩
  have hl := load_fresh (parse := parseModule E) (version := version) hfr
  have hl' := load_fresh (parse := parseModule E) (version := version) hfr'
  cases hp with
  | bad h1 h2 =>
    rw [h1] at hl; rw [h2] at hl'
    simp only at hl hl'
    cases hc with
    | main => exact ⟨_, _, .main hl', .error⟩
    | deps k1 => rw [hl] at k1; cases k1
    | cached k1 => rw [hl] at k1; cases k1
    | fills k1 => rw [hl] at k1; cases k1
    | cell k1 => rw [hl] at k1; cases k1
    | eval k1 => rw [hl] at k1; cases k1
  | @good req sc rows rows' h1 h2 h3 =>
    have hf := fetch_alike (version := version) (useCache := useCache) h h1 h2
    rw [h1] at hl; rw [h2] at hl'
    simp only at hl hl'
    cases hc with
    | main k1 => rw [hl] at k1; cases k1
    | deps k1 k2 k3 =>
      rw [hl] at k1; cases k1
      exact ⟨_, _, .deps hl' (by rw [hf]; exact k2) k3, .refl_failure k3⟩
    | cached k1 k2 k3 => rw [hl] at k1; cases k1; cases k3
    | fills k1 k2 k3 k4 =>
      rw [hl] at k1; cases k1
      rcases fills_alike h3 with ⟨-, e2⟩ | ⟨s, t, e1, -⟩
      · exact ⟨_, _, .fills hl' (by rw [hf]; exact k2) rfl e2, .error⟩
      · rw [show evalFills ⟨rows, false⟩ = none from k4] at e1; cases e1
    | cell k1 k2 k3 k4 =>
      rw [hl] at k1; cases k1
      obtain ⟨o', g1, g2⟩ := sheet_alike h3 k4
      cases g2
      exact ⟨_, _, .cell hl' (by rw [hf]; exact k2) rfl g1, .error⟩
    | eval k1 k2 k3 k4 k5 k6 k7 k8 k9 =>
      rw [hl] at k1; cases k1
      obtain ⟨o', g1, g2⟩ := sheet_alike h3 ⟨_, _, _, _, _, _, k4, k5, k6, k7, k8, k9, rfl⟩
      cases g2 with
      | ok g2 =>
        obtain ⟨s₁, sheet, own, e, own', o', q4, q5, q6, q7, q8, q9, ho⟩ := g1
        cases o' with
        | ok rows => cases ho; exact ⟨_, _, .eval hl' (by rw [hf]; exact k2) rfl q4 q5 q6 q7 q8 q9, .ok g2⟩
        | err => cases ho
        | panic => cases ho

/-- Runs: the same end and the same states of the target on the way. -/
theorem main_alike {C : Type} {ts : List Text} {partials : C → List C} {out : Path → Output} {write : Config → Sheet → Option C → WriteOut C} {a : Args}
    {files : Files C} (hw : ∀ c s t, List.Forall₂ Seen s.rows t.rows → write c t = write c s) (h : Respelled fs fs' mp src src')
    (hm : mainModulePath a.inputFilename = some mp) (hp : ParsedAlike E src src') {e : Option Exit} {states : List (Files C)} {w : List (MPath × Module Text)}
    (hr : MainFile E version ts partials out write a fs files e states w) : ∃ w', MainFile E version ts partials out write a fs' files e states w' := by
  cases hr with
  | badArgs h1 => exact ⟨_, .badArgs h1⟩
  | noName h1 h2 => exact ⟨_, .noName h1 h2⟩
  | failed h1 h2 h3 h4 =>
    rw [hm] at h2; cases h2
    obtain ⟨o', w', k1, k2⟩ := compile_alike h hp h3
    cases k2; exact ⟨_, .failed h1 hm k1 h4⟩
  | panics h1 h2 h3 =>
    rw [hm] at h2; cases h2
    obtain ⟨o', w', k1, k2⟩ := compile_alike h hp h3
    cases k2; exact ⟨_, .panics h1 hm k1⟩
  | hangs h1 h2 h3 =>
    rw [hm] at h2; cases h2
    obtain ⟨o', w', k1, k2⟩ := compile_alike h hp h3
    cases k2; exact ⟨_, .hangs h1 hm k1⟩
  | @compiled kv c p mp w sheet h1 h2 h3 =>
    rw [hm] at h2; cases h2
    obtain ⟨o', w', k1, k2⟩ := compile_alike h hp h3
    cases k2 with
    | @ok _ t k2 =>
      have : run ts partials c.backup p (some sheet) (write c) files = run ts partials c.backup p (some t) (write c) files := by
        simp only [run, hw c sheet t k2]
      rw [this]
      exact ⟨_, .compiled h1 hm k1⟩

end
end Verif.Cli
