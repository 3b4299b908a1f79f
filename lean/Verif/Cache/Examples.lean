import Verif.Cache.History
/-
A concrete history with a stale object file: a main module `m` with the formula `=x` uses `b`, which defines `x`.
-/
namespace Verif.Cache.Examples
open Verif.Ast Verif.Loader Verif.Sheet Verif.Cell Verif.Loader.Examples

/-- Contents of files, in the form they are parsed to. -/
def parse : Parsed → Except LoadError Parsed := .ok

/-- A sheet with one cell with a formula. -/
def sheet (a : Ast) : Sheet := ⟨[⟨{}, none, [⟨some a, ⟨⟨0, 0⟩, [], []⟩, [], {}⟩]⟩], false⟩

/-- A sheet with one cell with an evaluated formula. -/
def done (a : Ast) : Sheet := ⟨[⟨{}, none, [⟨some a, ⟨⟨0, 0⟩, [], []⟩, [], {}⟩]⟩], true⟩

/-- The main module `m`: `use b` and the formula `=x`. -/
def mFile : Parsed := ⟨[pB], Scope.empty, sheet (.ref x)⟩

/-- The module `b`: `x := n`. -/
def bScope (n : Int) : Scope := ⟨fun _ => none, single x (.int false none n), [x]⟩
def bFile (n : Int) : Parsed := ⟨[], bScope n, ⟨[], false⟩⟩

def noKv : Text → Option Ast := fun _ => none

theorem evalB (n : Int) : EvalScope (bScope n) (.ok (bScope n)) := by
  refine .ok (sc' := bScope n) (single_enum x _) ?_ empty_enum .nil
  have : bScope n = ⟨(bScope n).functions, fun k => if k = x then some (.int false none n) else (bScope n).variables k, (bScope n).exports⟩ :=
    Scope.ext' (fun _ => rfl) (fun k => by by_cases h : k = x <;> simp [h, bScope, single]) rfl
  refine .cons (b := .int false none n) (Verif.Loader.Examples.eval_leaf (by simp [fnRefs, varRefs])) ?_
  rw [← this]; exact .nil

/-- Loading the dependency. -/
theorem load_b {fetch : MPath → Except LoadError Mod} {n : Int} {d : Bool} {main : Mod} (hm : main.required = [pB])
    (hf : fetch pB = .ok ⟨[], bScope n, d, true⟩) :
    LoadMainW fetch pMain main [(pB, bScope n)] (.ok (main.scope.merge (bScope n) (bScope n).exports)) := by
  have hreach : ∀ p, Reach fetch main p ↔ p ∈ [pB] := by
    intro p
    constructor
    · intro h
      induction h with
      | direct h => rw [hm] at h; exact h
      | @indirect p q m _ hm' hp ih =>
        simp only [List.mem_cons, List.not_mem_nil, or_false] at ih
        subst ih
        rw [hf] at hm'; cases hm'; cases hp
    · intro h; exact .direct (by rw [hm]; exact h)
  obtain ⟨k, s, h1, h2, h3, h4⟩ := load_exists (fetch := fetch) (main := main) [pB] hreach [(pB, ⟨[], bScope n, d, true⟩)] [] (by simp) (by simp) (by
      intro p m
      simp only [List.mem_cons, Prod.mk.injEq, List.not_mem_nil, or_false]
      constructor
      · rintro ⟨rfl, rfl⟩; exact ⟨rfl, hf⟩
      · rintro ⟨rfl, h⟩; rw [hf] at h; cases h; exact ⟨rfl, rfl⟩) (by
      intro p e
      simp only [List.mem_cons, List.not_mem_nil, or_false, false_iff, not_and]
      rintro rfl h
      rw [hf] at h; cases h)
  have hg : dependencyGraph pMain main.required [(pB, ⟨[], bScope n, d, true⟩)] = ⟨[pMain, pB], [(0, 1)]⟩ := by rw [hm]; rfl
  refine .eval (order := [1, 0]) h1 h2 h3 ?_ ?_ (d := .ok (setScope [(pB, ⟨[], bScope n, d, true⟩)] pB (bScope n))) ?_ (.ok (List.nil_perm.mp h4) ?_)
  · refine C39_violated (by rw [hm]; simp) (by rw [hm]; simp [pMain, pB]) rfl (by simp) ?_
    intro d' m _ _ q m' hq
    rw [List.lookup_cons] at hq
    split at hq
    · cases hq; simp
    · cases hq
  · rw [hg]
    refine ⟨by decide, fun i j h _ _ => ?_⟩
    simp only [List.mem_cons, Prod.mk.injEq, List.not_mem_nil, or_false] at h
    rcases h with ⟨rfl, rfl⟩; decide
  · rw [hg]
    show EvalDepsW [pB, pMain] _ _ _ _
    exact .eval (m := ⟨[], bScope n, d, true⟩) (sc := bScope n) (sc' := bScope n) rfl rfl rfl (evalB n) (.skip rfl .nil)
  · rw [hm]; rfl

/-- Evaluating `=x`. -/
theorem eval_x {sc : Scope} {pos : Option Addr} {n : Int} (hx : sc.variables x = some (.int false none n)) :
    Eval sc pos (.ref x) (.ok (.int false none n)) := by
  have hv : varRefs sc (.ref x) = [x] := by simp [varRefs, hx]
  have hf : fnRefs sc (.ref x) = [] := by simp [fnRefs]
  have hs : ¬ Stops sc ⟨[], []⟩ (.ref x) := by
    rintro (h | h)
    · have := h.2; simp [refsOf, hv] at this
    · have := (h.2 x).mp (by simp [refsOf, hv]); simp at this
  refine .again hs ⟨[x], [], ⟨by simp, by simp [hv]⟩, ⟨by simp, by simp [hf]⟩, ?_⟩ (.stop (.inl ⟨by simp [refsOf, fnRefs], by simp [refsOf, varRefs]⟩))
  simp [round, resolveVars, hx, resolve, evalFns, replaceSeq, replaceVar]

/-- The scope of the main module. -/
def mScope (n : Int) : Scope := mFile.scope.merge (bScope n) (bScope n).exports

theorem mScope_eq (n : Int) : mScope n = ⟨fun _ => none, single x (.int false none n), []⟩ := by
  refine Scope.ext' (fun k => ?_) (fun k => ?_) ?_
  · rw [mScope, (merge_exports_spec _ _ k).2.1]
    by_cases hk : k = x <;> simp [mFile, Scope.empty, offersFn, bScope, hk]
  · rw [mScope, (merge_exports_spec _ _ k).1]
    by_cases hk : k = x <;> simp [mFile, Scope.empty, offersVar, bScope, single, hk]
  · rw [mScope, (merge_exports_spec _ _ []).2.2]; rfl

/-- The object file of the main module. -/
def mObj (n : Int) : Module Parsed :=
  ⟨1, [pB], evalScope (mScope n) [] [(x, .int false none n)] [] [(x, .int false none n)], done (.int false none n), mFile, false, false⟩

/-- Compiling the main module from its source gives the value of `x` that the loader finds. -/
theorem compile_m {fs : FS Parsed} {n : Int} {d : Bool} {useCache : Bool} {t : Nat} (ho : fs.obj pMain = none) (hs : fs.src pMain = some (mFile, t))
    (hf : fetchOf parse 1 useCache fs pB = .ok ⟨[], bScope n, d, true⟩) :
    Compile parse 1 useCache noKv fs pMain (.ok (done (.int false none n)))
      ([(pB, bScope n)].flatMap (written parse 1 useCache fs) ++ if useCache then [(pMain, mObj n)] else []) := by
  have hload : loadMainModule parse 1 fs pMain = .ok ⟨1, [pB], Scope.empty, sheet (.ref x), mFile, false, true⟩ := by
    simp only [loadMainModule, ho, loadSource, hs, parse]; rfl
  have hen : IsEnum [(x, .int false none n)] (mScope n).variables := by rw [mScope_eq]; exact single_enum x _
  have hm : (mergeVariables (mScope n) [] [(x, .int false none n)]).variables = single x (.int false none n) := by
    funext k
    simp [mergeVariables, collect, single]
  have hsv : sheetVars ⟨[⟨{}, none, [⟨some (.ref x), ⟨⟨0, 0⟩, [], []⟩, [], {}⟩]⟩], true⟩ = fun _ => none := by
    funext k
    simp [sheetVars, insertions, rowVar, cellVars, Verif.Sheet.cellVar, collect]
  refine .eval (s₁ := ⟨[⟨{}, none, [⟨some (.ref x), ⟨⟨0, 0⟩, [], []⟩, [], {}⟩]⟩], true⟩) (sheet := []) (own := [(x, .int false none n)]) (e := [])
    (own' := [(x, .int false none n)]) hload (load_b rfl hf) rfl ?_ ?_ hen empty_enum ?_ ?_
  · rfl
  · rw [hsv]; exact empty_enum
  · have := single_enum x (.int false none n)
    rw [← hm] at this; exact this
  · refine .ok (.cons ⟨_, .formula rfl (eval_x ?_) .nil, rfl⟩ .nil)
    simp [evalScope, mergeVariables, collect]

theorem done_inj (a b : Int) (h : done (.int false none a) = done (.int false none b)) : a = b := by
  simp only [done, Sheet.mk.injEq, List.cons.injEq, Row.mk.injEq, Cell.mk.injEq, Option.some.injEq, Ast.int.injEq] at h
  simpa using h

/-- The directory before the first compilation. -/
def fs0 (n : Int) : FS Parsed := ⟨fun p => if p = pMain then some (mFile, 0) else if p = pB then some (bFile n, 0) else none, fun _ => none⟩

theorem fetch_source (n : Int) (t : Nat) (useCache : Bool) (fs : FS Parsed) (ho : fs.obj pB = none) (hs : fs.src pB = some (bFile n, t)) :
    fetchOf parse 1 useCache fs pB = .ok ⟨[], bScope n, false, true⟩ := by
  cases useCache
  · simp only [fetchOf, loadDep, loadSource, hs, parse]; rfl
  · simp only [fetchOf, loadDep, if_true, loadCached, ho, loadSource, hs, parse]; rfl

/-- The directory after the first compilation, at time 1, and an edit of `b` at time 2. -/
def fs1 : FS Parsed :=
  ((fs0 1).writeAll 1 ([(pB, bScope 1)].flatMap (written parse 1 true (fs0 1)) ++ if true then [(pMain, mObj 1)] else [])).edit 2 pB (bFile 2)

/-- C37, a concrete violation: `m` is compiled; `b` is edited; `m` is compiled again and gives the old sheet, while compiling
without object files gives another. -/
theorem C37_stale : ∃ (w w' w'' : List (MPath × Module Parsed)) (s new : Sheet) (fs1 : FS Parsed),
    Compile parse 1 true noKv (fs0 1) pMain (.ok s) w ∧
    fs1 = ((fs0 1).writeAll 1 w).edit 2 pB (bFile 2) ∧
    Compile parse 1 true noKv fs1 pMain (.ok s) w' ∧
    Compile parse 1 true noKv ⟨fs1.src, fun _ => none⟩ pMain (.ok new) w'' ∧ s ≠ new := by
  have h1 := compile_m (fs := fs0 1) (n := 1) (useCache := true) (t := 0) rfl rfl (fetch_source 1 0 true _ rfl rfl)
  have h2 : Compile parse 1 true noKv fs1 pMain (.ok (done (.int false none 1))) ([(pB, bScope 1)].flatMap (written parse 1 true fs1)) :=
    .cached (main := mObj 1) rfl (load_b (n := 1) (d := true) rfl rfl) rfl
  have h3 : Compile parse 1 true noKv ⟨fs1.src, fun _ => none⟩ pMain (.ok (done (.int false none 2))) _ :=
    compile_m (t := 0) rfl rfl (fetch_source 2 2 true _ rfl rfl)
  refine ⟨_, _, _, _, _, fs1, h1, rfl, h2, h3, ?_⟩
  intro h
  have := done_inj 1 2 h
  omega

/-- A history for `C37_alone_partial`: a file is saved, compiled and saved again. -/
example : ∃ (fs : FS Parsed) (clock : Nat) (s : Sheet) (w : List (MPath × Module Parsed)),
    History parse 1 noKv pMain (Alone parse) fs clock ∧ Compile parse 1 true noKv fs pMain (.ok s) w ∧ fs.obj pMain ≠ none := by
  have hc : ∀ (fs : FS Parsed) (a : Ast) (t : Nat), loadMainModule parse 1 fs pMain = .ok ⟨1, [], Scope.empty, sheet a, ⟨[], Scope.empty, sheet a⟩, false, true⟩ →
      a = .bool true ∨ a = .bool false → ∃ m, Compile parse 1 true noKv fs pMain (.ok (done a)) [(pMain, m)] := by
    intro fs a t hload ha
    have hl : LoadMainW (fetchOf parse 1 true fs) pMain ⟨[], Scope.empty, false, true⟩ [] (.ok Scope.empty) := by
      refine .eval (n := 0) (order := [0]) (it := []) (d := .ok []) .refl (by intro t ht; cases ht) (List.Perm.refl _) ?_ ⟨by decide, ?_⟩ (.skip rfl .nil) (.ok rfl rfl)
      · rintro p ⟨_, _, _, _, _, _, h, _⟩; cases h
      · intro i j h; cases h
    refine ⟨_, Compile.eval (s₁ := ⟨[⟨{}, none, [⟨some a, ⟨⟨0, 0⟩, [], []⟩, [], {}⟩]⟩], true⟩) (sheet := []) (own := []) (e := []) (own' := []) hload hl rfl ?_ ?_ empty_enum empty_enum ?_ ?_⟩
    · rfl
    · have hsv : sheetVars ⟨[⟨{}, none, [⟨some a, ⟨⟨0, 0⟩, [], []⟩, [], {}⟩]⟩], true⟩ = fun _ => none := by
        funext k
        simp [sheetVars, insertions, rowVar, cellVars, Verif.Sheet.cellVar, collect]
      rw [hsv]; exact empty_enum
    · exact empty_enum
    · refine .ok (.cons ⟨_, .formula rfl (.stop (.inl ?_)) .nil, rfl⟩ .nil)
      rcases ha with rfl | rfl <;> exact ⟨by simp [refsOf, fnRefs], by simp [refsOf, varRefs]⟩
  let c1 : Parsed := ⟨[], Scope.empty, sheet (.bool true)⟩
  let c2 : Parsed := ⟨[], Scope.empty, sheet (.bool false)⟩
  let fsA : FS Parsed := ⟨fun p => if p = pMain then some (c1, 0) else none, fun _ => none⟩
  obtain ⟨m1, h1⟩ := hc fsA (.bool true) 0 rfl (Or.inl rfl)
  have hA : History parse 1 noKv pMain (Alone parse) fsA 0 := .start (fun _ => rfl) (by
    intro p c t h
    simp only [fsA] at h
    split at h
    · cases h; exact Nat.le_refl _
    · cases h) (by
    intro c t h
    cases h
    intro m hm; cases hm; rfl)
  have hB := (hA.compile (Nat.zero_le 1) h1).edit (t := 2) (p := pMain) (c := c2) (by omega) (by
    intro _ m hm; cases hm; rfl)
  obtain ⟨m2, h2⟩ := hc ((fsA.writeAll 1 [(pMain, m1)]).edit 2 pMain c2) (.bool false) 0 rfl (Or.inr rfl)
  exact ⟨_, _, _, _, hB, h2, by simp [FS.edit, FS.writeAll, FS.writeObj]⟩

end Verif.Cache.Examples
