import Verif.Loader.Dirty
/-
Concrete programs: they meet the hypotheses of the theorems, and violate C34 and C35.
-/
namespace Verif.Loader.Examples
open Verif.Ast Verif.Loader

theorem load_exists {fetch : MPath → Except LoadError Mod} {main : Mod} (modules : List MPath)
    (hfin : ∀ p, Reach fetch main p ↔ p ∈ modules) (L : List (MPath × Mod)) (F : List (MPath × LoadError))
    (hL : L.Nodup) (hF : F.Nodup) (hL' : ∀ p m, (p, m) ∈ L ↔ p ∈ modules ∧ fetch p = .ok m)
    (hF' : ∀ p e, (p, e) ∈ F ↔ p ∈ modules ∧ fetch p = .error e) :
    ∃ n s, Steps fetch (init main) n s ∧ Finished s ∧ L.Perm s.loaded ∧ F.Perm s.failed := by
  obtain ⟨k, s, h1, h2⟩ := C33_ends fetch main modules (fun p hp => (hfin p).mp hp) 0 _ .refl
  obtain ⟨h3, h4⟩ := C33_result fetch main _ s h1 h2
  obtain ⟨_, _, n1, n2⟩ := C32_once fetch main _ s h1
  refine ⟨_, s, h1, h2, (List.perm_ext_iff_of_nodup hL n1.of_map).mpr fun ⟨p, m⟩ => ?_,
    (List.perm_ext_iff_of_nodup hF n2.of_map).mpr fun ⟨p, m⟩ => ?_⟩
  · rw [hL', h3, hfin]
  · rw [hF', h4, hfin]

/-- One definition. -/
def single (n : Text) (a : Ast) : Text → Option Ast := fun k => if k = n then some a else none

theorem single_enum (n : Text) (a : Ast) : IsEnum [(n, a)] (single n a) := by
  refine ⟨by simp, fun k v => ?_⟩
  simp only [single, List.mem_singleton, Prod.mk.injEq]
  by_cases h : k = n <;> simp [h, eq_comm]

theorem empty_enum : IsEnum [] (fun _ => none) := ⟨by simp, by simp⟩

theorem eval_leaf {sc : Scope} {a : Ast} (h : fnRefs sc a = [] ∧ varRefs sc a = []) : Eval sc none a (.ok a) := .stop (.inl h)

def pMain : MPath := [['m']]
def pA : MPath := [['a']]
def pB : MPath := [['b']]
def x : Text := ['x']
def one : Ast := .int false none 1
def two : Ast := .int false none 2

/-! A module `a` that defines the function `x` and uses `b`, which defines the variable `x`. -/

def modA : Mod := ⟨[pB], ⟨single x (.fn x [] one), fun _ => none, [x]⟩, false, true⟩
def modB : Mod := ⟨[], ⟨fun _ => none, single x two, [x]⟩, false, true⟩
def main : Mod := ⟨[pA], Scope.empty, false, true⟩
def fetchLeak (p : MPath) : Except LoadError Mod := if p = pA then .ok modA else if p = pB then .ok modB else .error []

theorem reach_leak (p : MPath) : Reach fetchLeak main p ↔ p ∈ [pA, pB] := by
  constructor
  · intro h
    induction h with
    | direct h => simp [main] at h; simp [h]
    | @indirect p q m _ hm hp ih =>
      simp only [List.mem_cons, List.not_mem_nil, or_false] at ih
      rcases ih with rfl | rfl
      · have : fetchLeak pA = .ok modA := rfl
        rw [this] at hm; cases hm; simp [modA] at hp; simp [hp]
      · have : fetchLeak pB = .ok modB := rfl
        rw [this] at hm; cases hm; simp [modB] at hp
  · intro h
    simp only [List.mem_cons, List.not_mem_nil, or_false] at h
    rcases h with rfl | rfl
    · exact .direct (by simp [main])
    · exact .indirect (q := pA) (m := modA) (.direct (by simp [main])) rfl (by simp [modA])

/-- The scope of `a` after its evaluation. -/
def scA : Scope := ⟨single x (.fn x [] one), single x two, [x]⟩

theorem mergeA {scopes : List (MPath × Scope)} (h : scopes.lookup pB = some modB.scope) :
    mergeReqs scopes modA.scope modA.required.reverse = some scA := by
  have : modA.required.reverse = [pB] := rfl
  rw [this]
  simp only [mergeReqs, h, Option.some.injEq]
  refine Scope.ext' (fun k => ?_) (fun k => ?_) rfl
  · rw [(merge_exports_spec _ _ k).2.1]
    by_cases hk : k = x <;> simp [modA, modB, offersFn, scA, hk]
  · rw [(merge_exports_spec _ _ k).1]
    by_cases hk : k = x <;> simp [modA, modB, offersVar, scA, single, hk]

theorem evalB : EvalScope modB.scope (.ok modB.scope) := by
  refine .ok (sc' := modB.scope) (single_enum x two) ?_ empty_enum .nil
  have : modB.scope = ⟨modB.scope.functions, fun k => if k = x then some two else modB.scope.variables k, modB.scope.exports⟩ :=
    Scope.ext' (fun _ => rfl) (fun k => by by_cases h : k = x <;> simp [h, modB, single]) rfl
  refine .cons (b := two) (eval_leaf (by simp [two, fnRefs, varRefs])) ?_
  rw [← this]; exact .nil

theorem evalA : EvalScope scA (.ok scA) := by
  have h1 : scA = ⟨scA.functions, fun k => if k = x then some two else scA.variables k, scA.exports⟩ :=
    Scope.ext' (fun _ => rfl) (fun k => by by_cases h : k = x <;> simp [h, scA, single]) rfl
  have h2 : scA = ⟨fun k => if k = x then some (.fn x [] one) else scA.functions k, scA.variables, scA.exports⟩ :=
    Scope.ext' (fun k => by by_cases h : k = x <;> simp [h, scA, single]) (fun _ => rfl) rfl
  refine .ok (sc' := scA) (single_enum x two) ?_ (single_enum x (.fn x [] one)) ?_
  · refine .cons (b := two) (eval_leaf (by simp [two, fnRefs, varRefs])) ?_
    rw [← h1]; exact .nil
  · refine .cons (b := .fn x [] one) (eval_leaf (by simp [one, fnRefs, varRefs])) ?_
    rw [← h2]; exact .nil

/-- The main module sees `a`'s variable `x`, which is `b`'s. -/
theorem leak : ∃ sc, LoadMain fetchLeak pMain main (.ok sc) ∧ sc.variables x = some two := by
  obtain ⟨n, s, h1, h2, h3, h4⟩ := load_exists (fetch := fetchLeak) (main := main) [pA, pB] reach_leak
    [(pA, modA), (pB, modB)] [] (by
      rw [List.nodup_cons]; refine ⟨?_, by simp⟩
      simp [pA, pB]) (by simp) (by
      intro p m
      simp only [List.mem_cons, Prod.mk.injEq, List.not_mem_nil, or_false]
      constructor
      · rintro (⟨rfl, rfl⟩ | ⟨rfl, rfl⟩)
        · exact ⟨Or.inl rfl, rfl⟩
        · exact ⟨Or.inr rfl, rfl⟩
      · rintro ⟨(rfl | rfl), h⟩
        · have e : fetchLeak pA = .ok modA := rfl
          rw [e] at h; cases h; exact Or.inl ⟨rfl, rfl⟩
        · have e : fetchLeak pB = .ok modB := rfl
          rw [e] at h; cases h; exact Or.inr ⟨rfl, rfl⟩) (by
      intro p e
      simp only [List.not_mem_nil, List.mem_cons, or_false, false_iff, not_and]
      rintro (rfl | rfl)
      · have e : fetchLeak pA = .ok modA := rfl
        rw [e]; simp
      · have e : fetchLeak pB = .ok modB := rfl
        rw [e]; simp)
  have hg : dependencyGraph pMain main.required [(pA, modA), (pB, modB)] = ⟨[pMain, pA, pB], [(0, 1), (1, 2)]⟩ := by rfl
  have hmark : ∀ p, ¬ Marked (dependencyGraph pMain main.required [(pA, modA), (pB, modB)]) [(pA, modA), (pB, modB)] p := by
    rintro p ⟨_, q, m, _, _, _, hl, hd, _⟩
    simp only [List.lookup_cons, List.lookup_nil] at hl
    split at hl
    · cases hl; cases hd
    · split at hl
      · cases hl; cases hd
      · cases hl
  have ht : Tarjan (dependencyGraph pMain main.required [(pA, modA), (pB, modB)]) [2, 1, 0] := by
    rw [hg]
    refine ⟨by decide, fun i j h _ _ => ?_⟩
    simp only [List.mem_cons, Prod.mk.injEq, List.not_mem_nil, or_false] at h
    rcases h with ⟨rfl, rfl⟩ | ⟨rfl, rfl⟩ <;> decide
  let L1 := setScope [(pA, modA), (pB, modB)] pB modB.scope
  have hd : EvalDeps ([2, 1, 0].filterMap ((dependencyGraph pMain main.required [(pA, modA), (pB, modB)]).nodes[·]?))
      [(pA, modA), (pB, modB)] ([(pA, modA), (pB, modB)].map fun e => (e.1, e.2.scope)) (.ok (setScope L1 pA scA)) := by
    rw [hg]
    show EvalDeps [pB, pA, pMain] _ _ _
    refine .eval (m := modB) (sc := modB.scope) (sc' := modB.scope) rfl rfl rfl evalB ?_
    refine .eval (m := modA) (sc := scA) (sc' := scA) rfl rfl (mergeA rfl) evalA ?_
    exact .skip rfl .nil
  refine ⟨main.scope.merge scA scA.exports, ⟨n, s, h1, h2, .ok h3 hmark ht hd (List.nil_perm.mp h4) rfl⟩, ?_⟩
  rw [(merge_exports_spec _ _ _).1]
  rfl

/-- C35 is violated: a variable of a module that is not used directly is visible, under the name of a function of a
module that is. -/
theorem C35_violated : ∃ (fetch : MPath → Except LoadError Mod) (mainPath : MPath) (main : Mod) (sc : Scope) (k : Text) (a : Ast),
    LoadMain fetch mainPath main (.ok sc) ∧ sc.variables k = some a ∧ main.scope.variables k = none ∧
    ∀ p ∈ main.required, ∀ m, fetch p = .ok m → m.scope.variables k = none := by
  obtain ⟨sc, h1, h2⟩ := leak
  refine ⟨fetchLeak, pMain, main, sc, x, two, h1, h2, rfl, fun p hp m hm => ?_⟩
  simp only [main, List.mem_singleton] at hp
  subst hp
  have e : fetchLeak pA = .ok modA := rfl
  rw [e] at hm; cases hm; rfl

/-! `b` cannot be loaded; `a` uses it, and so does the main module in `mainBoth`.  -/

def fetchFail (p : MPath) : Except LoadError Mod := if p = pA then .ok modA else .error []

theorem reach_fail (p : MPath) : Reach fetchFail main p ↔ p ∈ [pA, pB] := by
  constructor
  · intro h
    induction h with
    | direct h => simp [main] at h; simp [h]
    | @indirect p q m _ hm hp ih =>
      simp only [List.mem_cons, List.not_mem_nil, or_false] at ih
      rcases ih with rfl | rfl
      · have : fetchFail pA = .ok modA := rfl
        rw [this] at hm; cases hm; simp [modA] at hp; simp [hp]
      · have : fetchFail pB = .error [] := rfl
        rw [this] at hm; cases hm
  · intro h
    simp only [List.mem_cons, List.not_mem_nil, or_false] at h
    rcases h with rfl | rfl
    · exact .direct (by simp [main])
    · exact .indirect (q := pA) (m := modA) (.direct (by simp [main])) rfl (by simp [modA])

/-- C34: a run in which a module cannot be loaded ends in a panic, not in the report. -/
theorem C34_panic : LoadMain fetchFail pMain main .panic ∧ Reach fetchFail main pB ∧ fetchFail pB = .error [] := by
  refine ⟨?_, (reach_fail pB).mpr (by simp), rfl⟩
  obtain ⟨n, s, h1, h2, h3, h4⟩ := load_exists (fetch := fetchFail) (main := main) [pA, pB] reach_fail
    [(pA, modA)] [(pB, [])] (by simp) (by simp) (by
      intro p m
      simp only [List.mem_cons, Prod.mk.injEq, List.not_mem_nil, or_false]
      constructor
      · rintro ⟨rfl, rfl⟩
        exact ⟨Or.inl rfl, rfl⟩
      · rintro ⟨(rfl | rfl), h⟩
        · have e : fetchFail pA = .ok modA := rfl
          rw [e] at h; cases h; exact ⟨rfl, rfl⟩
        · have e : fetchFail pB = .error [] := rfl
          rw [e] at h; cases h) (by
      intro p e
      simp only [List.mem_cons, Prod.mk.injEq, List.not_mem_nil, or_false]
      constructor
      · rintro ⟨rfl, rfl⟩; exact ⟨Or.inr rfl, rfl⟩
      · rintro ⟨(rfl | rfl), h⟩
        · have e : fetchFail pA = .ok modA := rfl
          rw [e] at h; cases h
        · have e : fetchFail pB = .error [] := rfl
          rw [e] at h; cases h; exact ⟨rfl, rfl⟩)
  have hg : dependencyGraph pMain main.required [(pA, modA)] = ⟨[pMain, pA, pB], [(0, 1), (1, 2)]⟩ := by rfl
  have hmark : ∀ p, ¬ Marked (dependencyGraph pMain main.required [(pA, modA)]) [(pA, modA)] p := by
    rintro p ⟨_, q, m, _, _, _, hl, hd, _⟩
    simp only [List.lookup_cons, List.lookup_nil] at hl
    split at hl
    · cases hl; cases hd
    · cases hl
  have ht : Tarjan (dependencyGraph pMain main.required [(pA, modA)]) [2, 1, 0] := by
    rw [hg]
    refine ⟨by decide, fun i j h _ _ => ?_⟩
    simp only [List.mem_cons, Prod.mk.injEq, List.not_mem_nil, or_false] at h
    rcases h with ⟨rfl, rfl⟩ | ⟨rfl, rfl⟩ <;> decide
  have hd : EvalDeps ([2, 1, 0].filterMap ((dependencyGraph pMain main.required [(pA, modA)]).nodes[·]?))
      [(pA, modA)] ([(pA, modA)].map fun e => (e.1, e.2.scope)) .missing := by
    rw [hg]
    show EvalDeps [pB, pA, pMain] _ _ _
    exact .skip rfl (.missing (m := modA) rfl rfl rfl)
  exact ⟨n, s, h1, h2, .evalPanic h3 hmark ht hd (Or.inr rfl)⟩

/-- The main module alone uses the module that cannot be loaded. -/
def mainFail : Mod := ⟨[pB], Scope.empty, false, true⟩

/-- C34: then it is reported. -/
theorem reported : ∃ f, LoadMain fetchFail pMain mainFail (.loadErrors f) ∧ f = [(pB, [])] := by
  have hreach : ∀ p, Reach fetchFail mainFail p ↔ p ∈ [pB] := by
    intro p
    constructor
    · intro h
      induction h with
      | direct h => exact h
      | @indirect p q m _ hm hp ih =>
        simp only [List.mem_cons, List.not_mem_nil, or_false] at ih
        subst ih
        have : fetchFail pB = .error [] := rfl
        rw [this] at hm; cases hm
    · intro h; exact .direct h
  obtain ⟨n, s, h1, h2, h3, h4⟩ := load_exists (fetch := fetchFail) (main := mainFail) [pB] hreach [] [(pB, [])] (by simp) (by simp) (by
      intro p m
      simp only [List.mem_cons, List.not_mem_nil, or_false, false_iff, not_and]
      rintro rfl h
      have e : fetchFail pB = .error [] := rfl
      rw [e] at h; cases h) (by
      intro p e
      simp only [List.mem_cons, Prod.mk.injEq, List.not_mem_nil, or_false]
      constructor
      · rintro ⟨rfl, rfl⟩; exact ⟨rfl, rfl⟩
      · rintro ⟨rfl, h⟩
        have e : fetchFail pB = .error [] := rfl
        rw [e] at h; cases h; exact ⟨rfl, rfl⟩)
  have hs : s.failed = [(pB, [])] := List.perm_singleton.mp h4.symm
  refine ⟨s.failed, ⟨n, s, h1, h2, ?_⟩, hs⟩
  refine .failures (it := []) (order := [1, 0]) (loaded := []) h3 ?_ ?_ ?_ (by rw [hs]; simp)
  · rintro p ⟨_, q, m, _, _, _, hl, _⟩
    cases hl
  · have hg : dependencyGraph pMain mainFail.required [] = ⟨[pMain, pB], [(0, 1)]⟩ := by rfl
    rw [hg]
    refine ⟨by decide, fun i j h _ _ => ?_⟩
    simp only [List.mem_cons, Prod.mk.injEq, List.not_mem_nil, or_false] at h
    rcases h with ⟨rfl, rfl⟩; decide
  · exact .skip rfl (.skip rfl .nil)

/-- A module that uses itself, through another: loading it ends, with each module read once. -/
def modCycle (p : MPath) : Mod := ⟨[p, pMain], Scope.empty, false, true⟩

def fetchCycle (p : MPath) : Except LoadError Mod :=
  if p = pA then .ok (modCycle pB) else if p = pB then .ok (modCycle pA) else if p = pMain then .ok main else .error []

example : ∃ n s, Steps fetchCycle (init main) n s ∧ Finished s ∧ n ≤ 9 := by
  have hfin : ∀ p, Reach fetchCycle main p → p ∈ [pA, pB, pMain] := by
    intro p h
    induction h with
    | direct h => simp [main] at h; simp [h]
    | @indirect p q m _ hm hp ih =>
      simp only [List.mem_cons, List.not_mem_nil, or_false] at ih
      rcases ih with rfl | rfl | rfl
      · have : fetchCycle pA = .ok (modCycle pB) := rfl
        rw [this] at hm; cases hm; simp [modCycle] at hp; rcases hp with rfl | rfl <;> simp
      · have : fetchCycle pB = .ok (modCycle pA) := rfl
        rw [this] at hm; cases hm; simp [modCycle] at hp; rcases hp with rfl | rfl <;> simp
      · have : fetchCycle pMain = .ok main := rfl
        rw [this] at hm; cases hm; simp [main] at hp; simp [hp]
  obtain ⟨k, s, h1, h2⟩ := C33_ends fetchCycle main [pA, pB, pMain] hfin 0 _ .refl
  exact ⟨_, s, h1, h2, C33_terminates fetchCycle main [pA, pB, pMain] hfin _ s h1⟩

/-- `b` has changed, and is used through `a`: the path is marked. -/
example : Marked (dependencyGraph pMain [pA] [(pA, modA), (pB, { modB with dirty := true })]) [(pA, modA), (pB, { modB with dirty := true })] pA := by
  refine (C39_marked_iff (by simp) (by simp [pMain, pA]) rfl pA).mpr ⟨[pA], pB, { modB with dirty := true }, by simp, ⟨by simp [pMain, pA], by simp [pA, pB], ?_⟩, rfl, rfl, by simp⟩
  exact ⟨Or.inl ⟨rfl, by simp⟩, Or.inr ⟨modA, by simp, by simp [modA]⟩, trivial⟩

/-- `b` has changed, and only the main module uses it: nothing is marked. -/
example (p : MPath) : ¬ Marked (dependencyGraph pMain [pB] [(pB, { modB with dirty := true })]) [(pB, { modB with dirty := true })] p := by
  refine C39_violated (by simp) (by simp [pMain, pB]) rfl (by simp) ?_ p
  intro d m _ _ q m' hq
  rw [List.lookup_cons] at hq
  split at hq
  · cases hq; simp [modB]
  · cases hq

/-- The modules of the program above do not use each other in a circle. -/
theorem acyclic_leak (p : MPath) : ¬ Relation.TransGen (Needs pMain main.required [(pA, modA), (pB, modB)]) p p := by
  let rank : MPath → Nat := fun p => if p = pMain then 2 else if p = pA then 1 else 0
  have h1 : ∀ p q, Needs pMain main.required [(pA, modA), (pB, modB)] p q → rank q < rank p := by
    rintro p q (⟨rfl, hq⟩ | ⟨m, hm, hq⟩)
    · simp only [main, List.mem_singleton] at hq
      subst hq; decide
    · simp only [List.mem_cons, Prod.mk.injEq, List.not_mem_nil, or_false] at hm
      rcases hm with ⟨rfl, rfl⟩ | ⟨rfl, rfl⟩
      · simp only [modA, List.mem_singleton] at hq
        subst hq; decide
      · simp [modB] at hq
  have h2 : ∀ p q, Relation.TransGen (Needs pMain main.required [(pA, modA), (pB, modB)]) p q → rank q < rank p := by
    intro p q h
    induction h with
    | single h => exact h1 _ _ h
    | tail _ h ih => exact Nat.lt_trans (h1 _ _ h) ih
  exact fun h => absurd (h2 p p h) (Nat.lt_irrefl _)

end Verif.Loader.Examples
