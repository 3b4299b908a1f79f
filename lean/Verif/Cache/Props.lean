import Verif.Cache.Model
import Verif.Loader.Examples
import Verif.Sheet.Formula
/-
C37 (object files are not stale), C38 (--no-cache), C56 (recompiling).
-/
namespace Verif.Cache
open Verif.Ast Verif.Loader Verif.Sheet

/-! ### The loader with object files is the loader -/

theorem evalDepsW_iff {order : List MPath} {loaded : List (MPath × Mod)} {scopes : List (MPath × Scope)} {o : DepsOut} :
    (∃ w, EvalDepsW order loaded scopes w o) ↔ EvalDeps order loaded scopes o := by
  constructor
  · rintro ⟨w, h⟩
    induction h with
    | nil => exact .nil
    | skip h _ ih => exact .skip h ih
    | evaled h1 h2 _ ih => exact .evaled h1 h2 ih
    | missing h1 h2 h3 => exact .missing h1 h2 h3
    | err h1 h2 h3 h4 => exact .err h1 h2 h3 h4
    | panic h1 h2 h3 h4 => exact .panic h1 h2 h3 h4
    | eval h1 h2 h3 h4 _ ih => exact .eval h1 h2 h3 h4 ih
  · intro h
    induction h with
    | nil => exact ⟨_, .nil⟩
    | skip h _ ih => obtain ⟨w, hw⟩ := ih; exact ⟨w, .skip h hw⟩
    | evaled h1 h2 _ ih => obtain ⟨w, hw⟩ := ih; exact ⟨w, .evaled h1 h2 hw⟩
    | missing h1 h2 h3 => exact ⟨_, .missing h1 h2 h3⟩
    | err h1 h2 h3 h4 => exact ⟨_, .err h1 h2 h3 h4⟩
    | panic h1 h2 h3 h4 => exact ⟨_, .panic h1 h2 h3 h4⟩
    | eval h1 h2 h3 h4 _ ih => obtain ⟨w, hw⟩ := ih; exact ⟨_, .eval h1 h2 h3 h4 hw⟩

theorem loadMainW_iff {fetch : MPath → Except LoadError Mod} {mainPath : MPath} {main : Mod} {o : LOut} :
    (∃ w, LoadMainW fetch mainPath main w o) ↔ LoadMain fetch mainPath main o := by
  constructor
  · rintro ⟨w, h⟩
    cases h with
    | stuck h1 h2 h3 h4 => exact ⟨_, _, h1, h2, .stuck h3 h4⟩
    | eval h1 h2 h3 h4 h5 h6 h7 =>
      have h6 := evalDepsW_iff.mp ⟨_, h6⟩
      cases h7 with
      | err => exact ⟨_, _, h1, h2, .evalError h3 h4 h5 h6⟩
      | panic => exact ⟨_, _, h1, h2, .evalPanic h3 h4 h5 h6 (Or.inl rfl)⟩
      | missing => exact ⟨_, _, h1, h2, .evalPanic h3 h4 h5 h6 (Or.inr rfl)⟩
      | failures h => exact ⟨_, _, h1, h2, .failures h3 h4 h5 h6 h⟩
      | unwrapNone h h' => exact ⟨_, _, h1, h2, .unwrapNone h3 h4 h5 h6 h h'⟩
      | ok h h' => exact ⟨_, _, h1, h2, .ok h3 h4 h5 h6 h h'⟩
  · rintro ⟨n, s, h1, h2, h⟩
    cases h with
    | stuck h3 h4 => exact ⟨_, .stuck h1 h2 h3 h4⟩
    | evalError h3 h4 h5 h6 => obtain ⟨w, h6⟩ := evalDepsW_iff.mpr h6; exact ⟨w, .eval h1 h2 h3 h4 h5 h6 .err⟩
    | evalPanic h3 h4 h5 h6 h7 =>
      obtain ⟨w, h6⟩ := evalDepsW_iff.mpr h6
      rcases h7 with rfl | rfl
      · exact ⟨w, .eval h1 h2 h3 h4 h5 h6 .panic⟩
      · exact ⟨w, .eval h1 h2 h3 h4 h5 h6 .missing⟩
    | failures h3 h4 h5 h6 h => obtain ⟨w, h6⟩ := evalDepsW_iff.mpr h6; exact ⟨w, .eval h1 h2 h3 h4 h5 h6 (.failures h)⟩
    | unwrapNone h3 h4 h5 h6 h h' => obtain ⟨w, h6⟩ := evalDepsW_iff.mpr h6; exact ⟨w, .eval h1 h2 h3 h4 h5 h6 (.unwrapNone h h')⟩
    | ok h3 h4 h5 h6 h h' => obtain ⟨w, h6⟩ := evalDepsW_iff.mpr h6; exact ⟨w, .eval h1 h2 h3 h4 h5 h6 (.ok h h')⟩

section
variable {C : Type} {parse : C → Except LoadError Parsed}

/-! ### What is in an object file -/

theorem writeAll_append (fs : FS C) (t : Nat) (w w' : List (MPath × Module C)) :
    fs.writeAll t (w ++ w') = (fs.writeAll t w).writeAll t w' := by
  simp [FS.writeAll, List.foldl_append]

theorem writeAll_src (fs : FS C) (t : Nat) (w : List (MPath × Module C)) : (fs.writeAll t w).src = fs.src := by
  induction w generalizing fs with
  | nil => rfl
  | cons e w ih => exact ih _

theorem writeAll_obj (fs : FS C) (t : Nat) (w : List (MPath × Module C)) (p : MPath) (h : p ∉ w.map (·.1)) :
    (fs.writeAll t w).obj p = fs.obj p := by
  induction w generalizing fs with
  | nil => rfl
  | cons e w ih =>
    simp only [List.map_cons, List.mem_cons, not_or] at h
    show ((fs.writeObj t e).writeAll t w).obj p = _
    rw [ih _ h.2]
    simp [FS.writeObj, h.1]

/-- The object file of the main module is used, if it is not older than the source and was not written by a newer version,
whatever the values given with `-k`, whatever the dependencies are, and even with `--no-cache`. -/
theorem main_object {version : Nat} {useCache : Bool} {kv : Text → Option Ast} {fs : FS C} {mainPath : MPath} {s : Sheet}
    {w : List (MPath × Module C)} {m : Module C} {c : C} {t t' : Nat} (ho : fs.obj mainPath = some (m, t))
    (hs : fs.src mainPath = some (c, t')) (ht : t' ≤ t) (hv : m.version ≤ version) (hn : m.needsEval = false)
    (h : Compile parse version useCache kv fs mainPath (.ok s) w) : s = m.sheet := by
  have hload : loadMainModule parse version fs mainPath = .ok { m with dirty := false } := by
    have : ¬ t' > t := by omega
    have hv' : ¬ version < m.version := by omega
    simp only [loadMainModule, ho, checkDirty, hs, this, if_false, hv', decide_false]
    rfl
  cases h with
  | cached h1 _ _ => rw [hload] at h1; cases h1; rfl
  | eval h1 _ h3 => rw [hload] at h1; cases h1; rw [hn] at h3; cases h3
  | @deps _ _ lo _ _ _ h => cases lo <;> simp [LOut.failure] at h

/-- C37 is violated: after the first compilation of a main module (with object files), every later successful compilation
gives the same sheet as long as the source of the main module has no later time than its object file: whatever has become
of the sources of the other modules (and of the main module, before the object file was written), of the values given
with `-k` and of the version of the compiler (unless it is an older one), and with or without `--no-cache`. -/
theorem C37_violated {v v' : Nat} {useCache : Bool} {kv kv' : Text → Option Ast} {fs : FS C} {mainPath : MPath} {s s' : Sheet}
    {w w' : List (MPath × Module C)} {t t' : Nat} {c' : C} {src' : MPath → Option (C × Nat)}
    (hfirst : fs.obj mainPath = none) (h : Compile parse v true kv fs mainPath (.ok s) w)
    (hsrc : src' mainPath = some (c', t')) (ht : t' ≤ t) (hv : v ≤ v')
    (h' : Compile parse v' useCache kv' ⟨src', (fs.writeAll t w).obj⟩ mainPath (.ok s') w') : s' = s := by
  have hload : loadMainModule parse v fs mainPath = loadSource parse v fs mainPath := by simp only [loadMainModule, hfirst]
  cases h with
  | @deps _ _ lo _ _ _ h => cases lo <;> simp [LOut.failure] at h
  | cached h1 _ h3 =>
    rw [hload, loadSource] at h1
    split at h1
    · cases h1
    · split at h1
      · cases h1
      · cases h1; cases h3
  | @eval main w0 sc s₁ sheet own e own' rows h1 _ _ _ _ _ _ _ _ =>
    have hver : main.version = v := by
      rw [hload, loadSource] at h1
      split at h1
      · cases h1
      · split at h1
        · cases h1
        · cases h1; rfl
    refine main_object (m := ⟨main.version, main.required, evalScope sc sheet own e own', ⟨rows, s₁.expanded⟩, main.source, false, false⟩)
      (t := t) (c := c') (t' := t') ?_ hsrc ht (by simp only; omega) rfl h'
    show (FS.writeAll fs t _).obj mainPath = _
    rw [writeAll_append]
    simp [FS.writeAll, FS.writeObj]

/-- C56: compiling again without any change gives the same sheet. -/
theorem C56_recompile {v : Nat} {useCache : Bool} {kv : Text → Option Ast} {fs : FS C} {mainPath : MPath} {s s' : Sheet}
    {w w' : List (MPath × Module C)} {t : Nat} (hfirst : fs.obj mainPath = none)
    (hclock : ∀ c t', fs.src mainPath = some (c, t') → t' ≤ t)
    (h : Compile parse v true kv fs mainPath (.ok s) w)
    (h' : Compile parse v useCache kv (fs.writeAll t w) mainPath (.ok s') w') : s' = s := by
  cases hs : fs.src mainPath with
  | none =>
    exfalso
    have hload : loadMainModule parse v fs mainPath = .error [] := by simp only [loadMainModule, hfirst, loadSource, hs]
    cases h with
    | @deps _ _ lo _ _ _ h => cases lo <;> simp [LOut.failure] at h
    | cached h1 => rw [hload] at h1; cases h1
    | eval h1 => rw [hload] at h1; cases h1
  | some x =>
    obtain ⟨c, t'⟩ := x
    refine C37_violated (src' := fs.src) hfirst h hs (hclock c t' hs) (Nat.le_refl v) (kv' := kv) (useCache := useCache) (w' := w') ?_
    rw [← writeAll_src fs t w]; exact h'

/-- C37 is violated: the definitions of a directly used module come from its object file, even if its source is newer. -/
theorem C37_violated_dependency {v : Nat} {fs : FS C} {mainPath p : MPath} {main : Mod} {sc : Scope} {m : Module C} {c : C} {t t' : Nat}
    {k : Text} {a : Ast} {i : Nat} (h : LoadMain (fetchOf parse v true fs) mainPath main (.ok sc))
    (ho : fs.obj p = some (m, t)) (hs : fs.src p = some (c, t'))
    (hown : main.scope.variables k = none) (hp : main.required[i]? = some p) (hk : k ∈ m.scope.exports) (ha : m.scope.variables k = some a)
    (hfirst : ∀ (j : Nat) q m', j < i → main.required[j]? = some q → fetchOf parse v true fs q = .ok m' → k ∉ m'.scope.exports) :
    ∃ b, sc.variables k = some b ∧ Evaluated a b := by
  by_cases hlt : t' > t
  · have hf : fetchOf parse v true fs p = .ok (Module.toMod { m with dirty := true, needsEval := true }) := by
      simp only [fetchOf, loadDep, if_true, loadCached, ho, checkDirty, hs, hlt]; rfl
    exact C35_first_variable h hown hp hf hk ha hfirst
  · have hf : fetchOf parse v true fs p = .ok (Module.toMod { m with dirty := decide (v < m.version) }) := by
      simp only [fetchOf, loadDep, if_true, loadCached, ho, checkDirty, hs, hlt, if_false]; rfl
    exact C35_first_variable h hown hp hf hk ha hfirst

/-- And the object file written for it then counts as up to date. -/
theorem C37_violated_dependency_clean {v : Nat} {fs : FS C} {p : MPath} {sc : Scope} {m : Module C} {c : C} {t t' now : Nat}
    (ho : fs.obj p = some (m, t)) (hs : fs.src p = some (c, t')) (hold : t' > t) (hnow : t' ≤ now) (hv : m.version ≤ v) :
    written parse v true fs (p, sc) = [(p, ⟨m.version, m.required, sc, m.sheet, m.source, true, true⟩)] ∧
    loadCached parse v (fs.writeAll now (written parse v true fs (p, sc))) p =
      .ok ⟨m.version, m.required, sc, m.sheet, m.source, false, true⟩ := by
  have hw : written parse v true fs (p, sc) = [(p, ⟨m.version, m.required, sc, m.sheet, m.source, true, true⟩)] := by
    simp only [written, if_true, loadDep, loadCached, ho, checkDirty, hs, hold]
  refine ⟨hw, ?_⟩
  rw [hw]
  have h1 : ¬ t' > now := by omega
  have h2 : ¬ v < m.version := by omega
  simp only [loadCached, FS.writeAll, List.foldl_cons, List.foldl_nil, FS.writeObj, if_true, checkDirty, hs, h1, if_false, h2, decide_false]

/-! ### C38 -/

/-- C38: with `--no-cache` nothing is written. -/
theorem C38_writes_nothing {v : Nat} {kv : Text → Option Ast} {fs : FS C} {mainPath : MPath} {o : COut} {w : List (MPath × Module C)}
    (h : Compile parse v false kv fs mainPath o w) : w = [] := by
  have hw : ∀ l : List (MPath × Scope), l.flatMap (written parse v false fs) = [] := by
    intro l
    rw [List.flatMap_eq_nil_iff]
    intro e _
    simp [written]
  cases h <;> simp [hw]

/-- C38: with `--no-cache` the object files of the other modules do not matter. -/
theorem C38_other_objects {v : Nat} {kv : Text → Option Ast} {fs fs' : FS C} {mainPath : MPath} {o : COut}
    {w : List (MPath × Module C)} (hsrc : fs.src = fs'.src) (hobj : fs.obj mainPath = fs'.obj mainPath)
    (h : Compile parse v false kv fs mainPath o w) : Compile parse v false kv fs' mainPath o w := by
  have hls : ∀ p, loadSource parse v fs p = loadSource parse v fs' p := by
    intro p; simp only [loadSource, hsrc]
  have hf : fetchOf parse v false fs = fetchOf parse v false fs' := by
    funext p
    simp only [fetchOf, loadDep, Bool.false_eq_true, if_false, hls]
  have hm : loadMainModule parse v fs mainPath = loadMainModule parse v fs' mainPath := by
    simp only [loadMainModule, hobj, hls, checkDirty, hsrc]
  have hw : written parse v false fs = written parse v false fs' := by
    funext e; simp [written]
  cases h with
  | main h1 => exact .main (hm ▸ h1)
  | deps h1 h2 h3 => rw [hw]; exact .deps (hm ▸ h1) (hf ▸ h2) h3
  | cached h1 h2 h3 => rw [hw]; exact .cached (hm ▸ h1) (hf ▸ h2) h3
  | fills h1 h2 h3 h4 => rw [hw]; exact .fills (hm ▸ h1) (hf ▸ h2) h3 h4
  | cell h1 h2 h3 h4 => rw [hw]; exact .cell (hm ▸ h1) (hf ▸ h2) h3 h4
  | eval h1 h2 h3 h4 h5 h6 h7 h8 h9 => rw [hw]; exact .eval (hm ▸ h1) (hf ▸ h2) h3 h4 h5 h6 h7 h8 h9

/-- C38: with `--no-cache`, if the main module has no object file or an older one than its source, the compilation is one
without any object files. -/
theorem C38_partial {v : Nat} {kv : Text → Option Ast} {fs : FS C} {mainPath : MPath} {o : COut} {w : List (MPath × Module C)}
    (hold : ∀ m t, fs.obj mainPath = some (m, t) → ∃ c t', fs.src mainPath = some (c, t') ∧ t < t')
    (h : Compile parse v false kv fs mainPath o w) : Compile parse v false kv ⟨fs.src, fun _ => none⟩ mainPath o w := by
  have h' : Compile parse v false kv ⟨fs.src, fun p => if p = mainPath then none else fs.obj p⟩ mainPath o w := by
    have hls : ∀ p, loadSource parse v fs p = loadSource parse v ⟨fs.src, fun p => if p = mainPath then none else fs.obj p⟩ p := by
      intro p; simp only [loadSource]
    have hf : fetchOf parse v false fs = fetchOf parse v false ⟨fs.src, fun p => if p = mainPath then none else fs.obj p⟩ := by
      funext p
      simp only [fetchOf, loadDep, Bool.false_eq_true, if_false, hls]
    have hm : loadMainModule parse v fs mainPath = loadMainModule parse v ⟨fs.src, fun p => if p = mainPath then none else fs.obj p⟩ mainPath := by
      have hr : loadMainModule parse v ⟨fs.src, fun p => if p = mainPath then none else fs.obj p⟩ mainPath = loadSource parse v fs mainPath := by
        simp only [loadMainModule, if_true]; rfl
      rw [hr, loadMainModule]
      cases ho : fs.obj mainPath with
      | none => rfl
      | some x =>
        obtain ⟨m, t⟩ := x
        obtain ⟨c, t', hs, hlt⟩ := hold m t ho
        simp only [checkDirty, hs, hlt, gt_iff_lt, if_true]
    have hw : written parse v false fs = written parse v false ⟨fs.src, fun p => if p = mainPath then none else fs.obj p⟩ := by
      funext e; simp [written]
    cases h with
    | main h1 => exact .main (hm ▸ h1)
    | deps h1 h2 h3 => rw [hw]; exact .deps (hm ▸ h1) (hf ▸ h2) h3
    | cached h1 h2 h3 => rw [hw]; exact .cached (hm ▸ h1) (hf ▸ h2) h3
    | fills h1 h2 h3 h4 => rw [hw]; exact .fills (hm ▸ h1) (hf ▸ h2) h3 h4
    | cell h1 h2 h3 h4 => rw [hw]; exact .cell (hm ▸ h1) (hf ▸ h2) h3 h4
    | eval h1 h2 h3 h4 h5 h6 h7 h8 h9 => rw [hw]; exact .eval (hm ▸ h1) (hf ▸ h2) h3 h4 h5 h6 h7 h8 h9
  exact C38_other_objects (fs := ⟨fs.src, fun p => if p = mainPath then none else fs.obj p⟩) (fs' := ⟨fs.src, fun _ => none⟩) rfl (by simp) h'

end
end Verif.Cache
