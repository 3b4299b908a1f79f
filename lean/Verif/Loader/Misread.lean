import Verif.Loader.Examples
import Verif.Loader.Program
/-
Programs whose modules are loaded, but whose formulas do not get the meaning that the definitions have together.
-/
namespace Verif.Loader.Linking
open Verif.Ast Verif.Loader Verif.Loader.Examples

/-- The formula `f` of the main module is evaluated to `b'`, although it means `b` with the definitions `K` of all modules, all of which are different names. -/
structure Misread (fetch : MPath → Except LoadError Mod) (mainPath : MPath) (main : Mod) (K : Scope) (f b b' : Ast) : Prop where
  loadable : Loadable fetch mainPath main
  union : IsUnion fetch main K
  /-- the modules are loaded without an error -/
  loads : ∃ sc, LoadMain fetch mainPath main (.ok sc) ∧ Eval sc none f (.ok b')
  /-- the main module sees what the formula uses -/
  seen : ∀ n, Uses f n → Sees fetch main n
  means : Means K none f b
  differ : b' ≠ b

def tf : Text := ['f']
def tg : Text := ['g']
def tn : Text := ['n']
def tx : Text := ['x']
def int (v : Int) : Ast := .int false none v
def call3 : Ast := .call tf [int 3]

/-! ## Runs -/

/-- Loading a main module that uses one library. -/
theorem one_library {lib main : Mod} {sc' : Scope} {fetch : MPath → Except LoadError Mod} (hf : fetch pA = .ok lib) (hm : main.required = [pA])
    (hl : lib.required = []) (hd : lib.dirty = false) (hn : lib.needsEval = true) (he : EvalScope lib.scope (.ok sc')) :
    LoadMain fetch pMain main (.ok (main.scope.merge sc' sc'.exports)) := by
  have hreach : ∀ p, Reach fetch main p ↔ p ∈ [pA] := by
    intro p
    constructor
    · intro h
      induction h with
      | direct h => rw [hm] at h; exact h
      | indirect _ h2 h3 ih => obtain rfl := List.mem_singleton.mp ih; rw [hf] at h2; cases h2; rw [hl] at h3; cases h3
    · intro h; exact .direct (by rw [hm]; exact h)
  obtain ⟨n, s, h1, h2, h3, h4⟩ := load_exists (fetch := fetch) (main := main) [pA] hreach [(pA, lib)] [] (by simp) (by simp) (by
      intro p m
      simp only [List.mem_singleton, Prod.mk.injEq]
      constructor
      · rintro ⟨rfl, rfl⟩; exact ⟨rfl, hf⟩
      · rintro ⟨rfl, h⟩; rw [hf] at h; cases h; exact ⟨rfl, rfl⟩) (by
      intro p e
      simp only [List.not_mem_nil, List.mem_singleton, false_iff, not_and]
      rintro rfl; rw [hf]; simp)
  have hg : dependencyGraph pMain main.required [(pA, lib)] = ⟨[pMain, pA], [(0, 1)]⟩ := by
    rw [hm]
    obtain ⟨r, sc, d, ne⟩ := lib
    cases hl
    rfl
  have hmark : ∀ p, ¬ Marked (dependencyGraph pMain main.required [(pA, lib)]) [(pA, lib)] p := by
    rintro p ⟨_, q, m, _, _, _, hlk, hd', _⟩
    simp only [List.lookup_cons, List.lookup_nil] at hlk
    split at hlk
    · cases hlk; rw [hd] at hd'; cases hd'
    · cases hlk
  have ht : Tarjan (dependencyGraph pMain main.required [(pA, lib)]) [1, 0] := by
    rw [hg]
    refine ⟨by decide, fun i j h _ _ => ?_⟩
    obtain ⟨rfl, rfl⟩ := Prod.mk.inj (List.mem_singleton.mp h)
    decide
  have hdeps : EvalDeps ([1, 0].filterMap ((dependencyGraph pMain main.required [(pA, lib)]).nodes[·]?))
      [(pA, lib)] ([(pA, lib)].map fun e => (e.1, e.2.scope)) (.ok [(pA, { lib with scope := sc' })]) := by
    rw [hg]
    show EvalDeps [pA, pMain] _ _ _
    refine .eval (m := lib) (sc := lib.scope) (sc' := sc') rfl hn (by rw [hl]; rfl) he ?_
    have : setScope [(pA, lib)] pA sc' = [(pA, { lib with scope := sc' })] := rfl
    rw [this]
    exact .skip rfl .nil
  exact ⟨n, s, h1, h2, .ok h3 hmark ht hdeps (List.nil_perm.mp h4) (by rw [hm]; rfl)⟩

/-! ## A parameter with the name of a variable of its library -/

/-- `fn f(x) x * 2` -/
def fnX : Ast := .fn tf [tx] (.infix (.ref tx) ['*'] (int 2))
/-- `x := 5` and the function. -/
def libX : Mod := ⟨[], ⟨single tf fnX, single tx (.var tx (int 5)), [tf, tx]⟩, false, true⟩
def mainX : Mod := ⟨[pA], Scope.empty, false, true⟩
def fetchX (p : MPath) : Except LoadError Mod := if p = pA then .ok libX else .error []
/-- The function after the evaluation of the library. -/
def fnX' : Ast := .fn tf [tx] (.infix (int 5) ['*'] (int 2))
def scX : Scope := ⟨single tf fnX', single tx (.var tx (int 5)), [tf, tx]⟩

theorem order_one {l : List Text} {x : Text} (h : ∀ y, y ∈ l ↔ y = x) : IsOrder [x] l := ⟨by simp, fun y => by rw [List.mem_singleton, h]⟩
theorem order_nil : IsOrder [] [] := ⟨by simp, by simp⟩

theorem evalX : EvalScope libX.scope (.ok scX) := by
  have h1 : libX.scope = ⟨libX.scope.functions, fun k => if k = tx then some (.var tx (int 5)) else libX.scope.variables k, libX.scope.exports⟩ :=
    Scope.ext' (fun _ => rfl) (fun k => by by_cases h : k = tx <;> simp [h, libX, single]) rfl
  have h2 : scX = ⟨fun k => if k = tf then some fnX' else libX.scope.functions k, libX.scope.variables, libX.scope.exports⟩ :=
    Scope.ext' (fun k => by by_cases h : k = tf <;> simp [h, scX, libX, single]) (fun _ => rfl) rfl
  refine .ok (sc' := libX.scope) (single_enum tx _) ?_ (single_enum tf fnX) ?_
  · refine .cons (b := .var tx (int 5)) (eval_leaf (by simp [int, fnRefs, varRefs])) ?_
    rw [← h1]; exact .nil
  · refine .cons (b := fnX') (.again ?_ ⟨[tx], [], order_one ?_, ?_, ?_⟩ (.stop (.inl ?_))) ?_
    · simp [Stops, Refs.Empty, Refs.Same, refsOf, varRefs, fnX, libX, single, fnRefs, int]
    · intro y; simp [varRefs, fnX, libX, single, int]
    · simp [fnRefs, fnX, int, order_nil]
    · rfl
    · simp [Refs.Empty, refsOf, fnX', fnRefs, varRefs, int]
    · rw [← h2]; exact .nil

theorem reach_one {fetch : MPath → Except LoadError Mod} {main lib : Mod} (hf : fetch pA = .ok lib) (hm : main.required = [pA]) (hl : lib.required = [])
    {p : MPath} (h : Reach fetch main p) : p = pA := by
  induction h with
  | direct h => rw [hm] at h; exact List.mem_singleton.mp h
  | indirect _ h2 h3 ih => subst ih; rw [hf] at h2; cases h2; rw [hl] at h3; cases h3

theorem loadable_one {fetch : MPath → Except LoadError Mod} {main lib : Mod} (hf : fetch pA = .ok lib) (hm : main.required = [pA]) (hl : lib.required = [])
    (hd : lib.dirty = false) (hn : lib.needsEval = true) : Loadable fetch pMain main := by
  refine ⟨fun p hp => ?_, ⟨[pA], fun p hp => ?_⟩, by rw [hm]; simp, fun p => if p = pA then 0 else 1, fun q hq => ?_, fun p m h1 h2 q hq => ?_⟩
  · obtain rfl := reach_one hf hm hl hp; exact ⟨lib, hf, hd, hn⟩
  · obtain rfl := reach_one hf hm hl hp; exact List.mem_singleton.mpr rfl
  · rw [hm] at hq; obtain rfl := List.mem_singleton.mp hq; decide
  · obtain rfl := reach_one hf hm hl h1; rw [hf] at h2; cases h2; rw [hl] at hq; cases hq

/-- All definitions are in the library. -/
theorem union_one {fetch : MPath → Except LoadError Mod} {main lib : Mod} (hf : fetch pA = .ok lib) (hm : main.required = [pA]) (hl : lib.required = [])
    (hs : main.scope = Scope.empty) : IsUnion fetch main lib.scope := by
  have hin : InProgram fetch main lib := .inr ⟨pA, .direct (by rw [hm]; simp), hf⟩
  refine ⟨fun x d => ⟨fun h => ⟨lib, hin, h⟩, ?_⟩, fun x d => ⟨fun h => ⟨lib, hin, h⟩, ?_⟩⟩ <;>
  · rintro ⟨m, rfl | ⟨p, h1, h2⟩, h3⟩
    · rw [hs] at h3; cases h3
    · obtain rfl := reach_one hf hm hl h1; rw [hf] at h2; cases h2; exact h3

theorem uses_call3 {n : Name} (h : Uses call3 n) : n = .f tf := by
  cases n <;> simp [Uses, call3, refNames, refNamesL, callNames, callNamesL, int] at h
  rw [h]

/-- A call of `f` with 3. -/
theorem eval_call3 {sc : Scope} {p : Text} {body : Ast} (hf : sc.functions tf = some (.fn tf [p] body)) {o : Outcome}
    (h : Loop sc none (refsOf sc call3) (replaceSeq [(p, int 3)] body) o) : Eval sc none call3 o := by
  have hr : refsOf sc call3 = ⟨[tf], []⟩ := by simp [refsOf, call3, fnRefs, fnRefsL, varRefs, varRefsL, int, hf]
  refine .again ?_ ⟨[], [tf], ?_, order_one ?_, ?_⟩ h
  · simp [Stops, hr, Refs.Empty, Refs.Same]
  · simp [varRefs, varRefsL, call3, int, order_nil]
  · intro y; simp [fnRefs, fnRefsL, call3, int, hf]
  · simp [Ast.round, resolveVars, evalFns, hf, replaceSeq, call3, callFn]

/-- C82 is violated: a library's variable is put in place of a parameter of the same name of a function of the library.
With `x := 5` and `fn f(x) x * 2` in the library, `f(3)` becomes `5 * 2`. -/
theorem C82_violated_param : Misread fetchX pMain mainX libX.scope call3 (.infix (int 3) ['*'] (int 2)) (.infix (int 5) ['*'] (int 2)) := by
  have hf : fetchX pA = .ok libX := rfl
  refine ⟨loadable_one hf rfl rfl rfl rfl, union_one hf rfl rfl rfl, ⟨_, one_library hf rfl rfl rfl rfl evalX, ?_⟩, fun n hn => ?_, ?_, ?_⟩
  · refine eval_call3 (p := tx) (body := .infix (int 5) ['*'] (int 2)) ?_ (.stop (.inl ?_))
    · rw [(merge_exports_spec _ _ _).2.1]; rfl
    · simp [Refs.Empty, refsOf, replaceSeq, replaceVar, int, fnRefs, varRefs]
  · rw [uses_call3 hn]
    exact .used (List.mem_singleton.mpr rfl) hf (List.mem_cons_self ..) (.own rfl)
  · refine .body (nm := tf) (ps := [tx]) (body := .infix (.ref tx) ['*'] (int 2)) rfl rfl (.leaf fun m => ?_)
    cases m <;> simp [subst, Ast.bind, Uses, refNames, callNames, int]
  · simp [int]

/-! ## A function that calls a function of a module that only its library uses -/

/-- `fn f(n) g(n)` -/
def fnCall : Ast := .fn tf [tn] (.call tg [.ref tn])
/-- `fn g(n) n * 2` -/
def fnDouble : Ast := .fn tg [tn] (.infix (.ref tn) ['*'] (int 2))
def outer : Mod := ⟨[pB], ⟨single tf fnCall, fun _ => none, [tf]⟩, false, true⟩
def inner : Mod := ⟨[], ⟨single tg fnDouble, fun _ => none, [tg]⟩, false, true⟩
def fetchD (p : MPath) : Except LoadError Mod := if p = pA then .ok outer else if p = pB then .ok inner else .error []
/-- The definitions of both. -/
def scD : Scope := ⟨fun k => if k = tf then some fnCall else if k = tg then some fnDouble else none, fun _ => none, [tf]⟩

theorem eval_double (sc : Scope) (h : sc.variables = fun _ => none) : Eval sc none fnDouble (.ok fnDouble) :=
  eval_leaf (by simp [fnDouble, fnRefs, varRefs, int, h])

/-- The body of a function is not evaluated. -/
theorem eval_fnCall (sc : Scope) (h : sc.variables = fun _ => none) (hg : (sc.functions tg).isSome) : Eval sc none fnCall (.ok fnCall) := by
  have hr : refsOf sc fnCall = ⟨[tg], []⟩ := by simp [refsOf, fnCall, fnRefs, fnRefsL, varRefs, varRefsL, hg, h]
  obtain ⟨d, hd⟩ := Option.isSome_iff_exists.mp hg
  refine .again ?_ ⟨[], [tg], ?_, order_one ?_, ?_⟩ (.stop (.inr ?_))
  · simp [Stops, hr, Refs.Empty, Refs.Same]
  · simp [varRefs, varRefsL, fnCall, h, order_nil]
  · intro y; simp [fnRefs, fnRefsL, fnCall, hg]
  · simp [Ast.round, resolveVars, evalFns, hd, replaceSeq, fnCall, callFn]
  · exact ⟨fun _ => Iff.rfl, fun _ => Iff.rfl⟩

theorem eval_inner : EvalScope inner.scope (.ok inner.scope) := by
  have h2 : inner.scope = ⟨fun k => if k = tg then some fnDouble else inner.scope.functions k, inner.scope.variables, inner.scope.exports⟩ :=
    Scope.ext' (fun k => by by_cases h : k = tg <;> simp [h, inner, single]) (fun _ => rfl) rfl
  refine .ok (sc' := inner.scope) empty_enum .nil (single_enum tg fnDouble) (.cons (eval_double _ rfl) ?_)
  rw [← h2]; exact .nil

theorem enumD : IsEnum [(tf, fnCall), (tg, fnDouble)] scD.functions := by
  refine ⟨by decide, fun k v => ?_⟩
  simp only [List.mem_cons, Prod.mk.injEq, List.not_mem_nil, or_false, scD]
  have hne : tg ≠ tf := by decide
  by_cases h1 : k = tf
  · subst h1; simp [hne.symm, eq_comm]
  · by_cases h2 : k = tg
    · subst h2; simp [hne, eq_comm]
    · simp [h1, h2]

theorem evalD : EvalScope scD (.ok scD) := by
  have h1 : scD = ⟨fun k => if k = tf then some fnCall else scD.functions k, scD.variables, scD.exports⟩ :=
    Scope.ext' (fun k => by by_cases h : k = tf <;> simp [h, scD]) (fun _ => rfl) rfl
  have h2 : scD = ⟨fun k => if k = tg then some fnDouble else scD.functions k, scD.variables, scD.exports⟩ :=
    Scope.ext' (fun k => by
      by_cases h : k = tg
      · subst h; simp [scD, show tg ≠ tf by decide]
      · simp [h]) (fun _ => rfl) rfl
  refine .ok (sc' := scD) empty_enum .nil enumD (.cons (eval_fnCall _ rfl rfl) ?_)
  rw [← h1]
  refine .cons (eval_double _ rfl) ?_
  rw [← h2]; exact .nil

theorem mergeD {scopes : List (MPath × Scope)} (h : scopes.lookup pB = some inner.scope) : mergeReqs scopes outer.scope outer.required.reverse = some scD := by
  have : outer.required.reverse = [pB] := rfl
  rw [this]
  simp only [mergeReqs, h, Option.some.injEq]
  refine Scope.ext' (fun k => ?_) (fun k => ?_) rfl
  · rw [(merge_exports_spec _ _ k).2.1]
    by_cases h1 : k = tf
    · simp [h1, outer, scD, single]
    · by_cases h2 : k = tg
      · subst h2; rfl
      · simp [h1, h2, outer, inner, offersFn, scD, single]
  · rw [(merge_exports_spec _ _ k).1]
    by_cases h2 : k = tg
    · subst h2; rfl
    · simp [outer, inner, offersVar, scD]

theorem reachD (p : MPath) : Reach fetchD mainX p ↔ p ∈ [pA, pB] := by
  constructor
  · intro h
    induction h with
    | direct h => obtain rfl := List.mem_singleton.mp h; simp
    | @indirect p q m _ hm hp ih =>
      simp only [List.mem_cons, List.not_mem_nil, or_false] at ih
      rcases ih with rfl | rfl
      · have : fetchD pA = .ok outer := rfl
        rw [this] at hm; cases hm; obtain rfl := List.mem_singleton.mp hp; simp
      · have : fetchD pB = .ok inner := rfl
        rw [this] at hm; cases hm; cases hp
  · intro h
    simp only [List.mem_cons, List.not_mem_nil, or_false] at h
    rcases h with rfl | rfl
    · exact .direct (List.mem_singleton.mpr rfl)
    · exact .indirect (q := pA) (m := outer) (.direct (List.mem_singleton.mpr rfl)) rfl (List.mem_singleton.mpr rfl)

theorem loadD : LoadMain fetchD pMain mainX (.ok (Scope.empty.merge scD scD.exports)) := by
  obtain ⟨n, s, h1, h2, h3, h4⟩ := load_exists (fetch := fetchD) (main := mainX) [pA, pB] reachD
    [(pA, outer), (pB, inner)] [] (by
      rw [List.nodup_cons]; refine ⟨?_, by simp⟩
      simp [pA, pB]) (by simp) (by
      intro p m
      simp only [List.mem_cons, Prod.mk.injEq, List.not_mem_nil, or_false]
      constructor
      · rintro (⟨rfl, rfl⟩ | ⟨rfl, rfl⟩)
        · exact ⟨Or.inl rfl, rfl⟩
        · exact ⟨Or.inr rfl, rfl⟩
      · rintro ⟨(rfl | rfl), h⟩
        · have e : fetchD pA = .ok outer := rfl
          rw [e] at h; cases h; exact Or.inl ⟨rfl, rfl⟩
        · have e : fetchD pB = .ok inner := rfl
          rw [e] at h; cases h; exact Or.inr ⟨rfl, rfl⟩) (by
      intro p e
      simp only [List.not_mem_nil, List.mem_cons, or_false, false_iff, not_and]
      rintro (rfl | rfl)
      · have e : fetchD pA = .ok outer := rfl
        rw [e]; simp
      · have e : fetchD pB = .ok inner := rfl
        rw [e]; simp)
  have hg : dependencyGraph pMain mainX.required [(pA, outer), (pB, inner)] = ⟨[pMain, pA, pB], [(0, 1), (1, 2)]⟩ := by rfl
  have hmark : ∀ p, ¬ Marked (dependencyGraph pMain mainX.required [(pA, outer), (pB, inner)]) [(pA, outer), (pB, inner)] p := by
    rintro p ⟨_, q, m, _, _, _, hl, hd, _⟩
    simp only [List.lookup_cons, List.lookup_nil] at hl
    split at hl
    · cases hl; cases hd
    · split at hl
      · cases hl; cases hd
      · cases hl
  have ht : Tarjan (dependencyGraph pMain mainX.required [(pA, outer), (pB, inner)]) [2, 1, 0] := by
    rw [hg]
    refine ⟨by decide, fun i j h _ _ => ?_⟩
    simp only [List.mem_cons, Prod.mk.injEq, List.not_mem_nil, or_false] at h
    rcases h with ⟨rfl, rfl⟩ | ⟨rfl, rfl⟩ <;> decide
  have hd : EvalDeps ([2, 1, 0].filterMap ((dependencyGraph pMain mainX.required [(pA, outer), (pB, inner)]).nodes[·]?))
      [(pA, outer), (pB, inner)] ([(pA, outer), (pB, inner)].map fun e => (e.1, e.2.scope))
      (.ok (setScope (setScope [(pA, outer), (pB, inner)] pB inner.scope) pA scD)) := by
    rw [hg]
    show EvalDeps [pB, pA, pMain] _ _ _
    refine .eval (m := inner) (sc := inner.scope) (sc' := inner.scope) rfl rfl rfl eval_inner ?_
    refine .eval (m := outer) (sc := scD) (sc' := scD) rfl rfl (mergeD rfl) evalD ?_
    exact .skip rfl .nil
  exact ⟨n, s, h1, h2, .ok h3 hmark ht hd (List.nil_perm.mp h4) rfl⟩

/-- C82 is violated: a function that calls a function of a module that only its library uses is left calling it.
`g` is defined in the module that the library uses: `f(3)` becomes `g(3)`, a call of a function that no spreadsheet has. -/
theorem C82_violated_indirect : Misread fetchD pMain mainX scD call3 (.infix (int 3) ['*'] (int 2)) (.call tg [int 3]) := by
  have ha : fetchD pA = .ok outer := rfl
  have hb : fetchD pB = .ok inner := rfl
  have hin : ∀ m, InProgram fetchD mainX m ↔ m = mainX ∨ m = outer ∨ m = inner := by
    intro m
    constructor
    · rintro (rfl | ⟨p, h1, h2⟩)
      · exact .inl rfl
      · have := (reachD p).mp h1
        simp only [List.mem_cons, List.not_mem_nil, or_false] at this
        rcases this with rfl | rfl
        · rw [ha] at h2; cases h2; exact .inr (.inl rfl)
        · rw [hb] at h2; cases h2; exact .inr (.inr rfl)
    · rintro (rfl | rfl | rfl)
      · exact .inl rfl
      · exact .inr ⟨pA, (reachD pA).mpr (by simp), ha⟩
      · exact .inr ⟨pB, (reachD pB).mpr (by simp), hb⟩
  refine ⟨⟨fun p hp => ?_, ⟨[pA, pB], fun p hp => (reachD p).mp hp⟩, by simp [mainX], fun p => if p = pB then 0 else if p = pA then 1 else 2, fun q hq => ?_,
      fun p m h1 h2 q hq => ?_⟩, ⟨fun x d => ?_, fun g d => ?_⟩, ⟨_, loadD, ?_⟩, fun n hn => ?_, ?_, ?_⟩
  · have := (reachD p).mp hp
    simp only [List.mem_cons, List.not_mem_nil, or_false] at this
    rcases this with rfl | rfl
    · exact ⟨_, ha, rfl, rfl⟩
    · exact ⟨_, hb, rfl, rfl⟩
  · obtain rfl := List.mem_singleton.mp hq; decide
  · have := (reachD p).mp h1
    simp only [List.mem_cons, List.not_mem_nil, or_false] at this
    rcases this with rfl | rfl
    · rw [ha] at h2; cases h2; obtain rfl := List.mem_singleton.mp hq; decide
    · rw [hb] at h2; cases h2; cases hq
  · constructor
    · intro h; cases h
    · rintro ⟨m, h1, h2⟩
      rcases (hin m).mp h1 with rfl | rfl | rfl <;> cases h2
  · constructor
    · intro h
      simp only [scD] at h
      split at h
      · subst g; exact ⟨outer, (hin _).mpr (.inr (.inl rfl)), by cases h; rfl⟩
      · split at h
        · subst g; exact ⟨inner, (hin _).mpr (.inr (.inr rfl)), by cases h; rfl⟩
        · cases h
    · rintro ⟨m, h1, h2⟩
      rcases (hin m).mp h1 with rfl | rfl | rfl
      · cases h2
      · simp only [outer, single] at h2
        split at h2
        · subst g; cases h2; rfl
        · cases h2
      · simp only [inner, single] at h2
        split at h2
        · subst g; cases h2; rfl
        · cases h2
  · refine eval_call3 (p := tn) (body := .call tg [.ref tn]) ?_ (.stop (.inl ?_))
    · rw [(merge_exports_spec _ _ _).2.1]; rfl
    · have hg : (Scope.empty.merge scD scD.exports).functions tg = none := by rw [(merge_exports_spec _ _ _).2.1]; rfl
      simp [Refs.Empty, refsOf, replaceSeq, replaceVar, replaceVars, int, fnRefs, fnRefsL, varRefs, varRefsL, hg]
  · rw [uses_call3 hn]
    exact .used (List.mem_singleton.mpr rfl) ha (List.mem_singleton.mpr rfl) (.own rfl)
  · refine .body (nm := tf) (ps := [tn]) (body := .call tg [.ref tn]) rfl rfl ?_
    refine .body (nm := tg) (ps := [tn]) (body := .infix (.ref tn) ['*'] (int 2)) rfl rfl (.leaf fun m => ?_)
    cases m <;> simp [subst, substL, Ast.bind, Uses, refNames, callNames, int]
  · simp

/-! ## A function of the main module with the name of a function that a library calls -/

/-- `fn g(n) n * 2` and `fn f(n) g(n)`. -/
def libC : Mod := ⟨[], { scD with exports := [tf, tg] }, false, true⟩
def fetchC (p : MPath) : Except LoadError Mod := if p = pA then .ok libC else .error []
/-- The main module with `fn g(n) n + 1`. -/
def mainC : Mod := ⟨[pA], ⟨single tg (.fn tg [tn] (.infix (.ref tn) ['+'] (int 1))), fun _ => none, [tg]⟩, false, true⟩

theorem evalC : EvalScope libC.scope (.ok libC.scope) := by
  have h1 : libC.scope = ⟨fun k => if k = tf then some fnCall else libC.scope.functions k, libC.scope.variables, libC.scope.exports⟩ :=
    Scope.ext' (fun k => by by_cases h : k = tf <;> simp [h, scD, libC]) (fun _ => rfl) rfl
  have h2 : libC.scope = ⟨fun k => if k = tg then some fnDouble else libC.scope.functions k, libC.scope.variables, libC.scope.exports⟩ :=
    Scope.ext' (fun k => by
      by_cases h : k = tg
      · subst h; simp [scD, libC, show tg ≠ tf by decide]
      · simp [h]) (fun _ => rfl) rfl
  refine .ok (sc' := libC.scope) empty_enum .nil enumD (.cons (eval_fnCall _ rfl rfl) ?_)
  rw [← h1]
  refine .cons (eval_double _ rfl) ?_
  rw [← h2]; exact .nil

/-- `f(3)` where `f` calls `g`. -/
theorem eval_calls {sc : Scope} {op : Text} {v : Int} (h1 : sc.functions tf = some fnCall)
    (h2 : sc.functions tg = some (.fn tg [tn] (.infix (.ref tn) op (int v)))) : Eval sc none call3 (.ok (.infix (int 3) op (int v))) := by
  refine eval_call3 (p := tn) (body := .call tg [.ref tn]) h1 ?_
  have e : replaceSeq [(tn, int 3)] (.call tg [.ref tn]) = .call tg [int 3] := by simp [replaceSeq, replaceVar, replaceVars]
  have hr : refsOf sc (.call tg [int 3]) = ⟨[tg], []⟩ := by simp [refsOf, fnRefs, fnRefsL, varRefs, varRefsL, int, h2]
  have hr' : refsOf sc call3 = ⟨[tf], []⟩ := by simp [refsOf, call3, fnRefs, fnRefsL, varRefs, varRefsL, int, h1]
  rw [e]
  refine .again ?_ ⟨[], [tg], ?_, order_one ?_, ?_⟩ (.stop (.inl ?_)) (a' := .infix (int 3) op (int v))
  · rw [Stops, hr, hr']
    rintro (⟨h, -⟩ | ⟨h, -⟩)
    · cases h
    · exact absurd ((h tg).mp (List.mem_singleton.mpr rfl)) (by decide)
  · simp [varRefs, varRefsL, int, order_nil]
  · intro y; simp [fnRefs, fnRefsL, int, h2]
  · simp [Ast.round, resolveVars, evalFns, h2, replaceSeq, callFn, replaceVar, int]
  · simp [Refs.Empty, refsOf, int, fnRefs, varRefs]

/-- C82 is violated: a function of a library calls the main module's function in place of its own library's function of that name.
`f(3)`, where the library defines `f` and `g`, becomes `3 * 2`, and `3 + 1` when the main module has a `g` of its own. -/
theorem C82_violated_capture :
    (∃ sc, LoadMain fetchC pMain mainX (.ok sc) ∧ Eval sc none call3 (.ok (.infix (int 3) ['*'] (int 2)))) ∧
    ∃ sc, LoadMain fetchC pMain mainC (.ok sc) ∧ Eval sc none call3 (.ok (.infix (int 3) ['+'] (int 1))) := by
  refine ⟨⟨_, one_library (lib := libC) rfl rfl rfl rfl rfl evalC, eval_calls ?_ ?_⟩,
    ⟨_, one_library (lib := libC) rfl rfl rfl rfl rfl evalC, eval_calls ?_ ?_⟩⟩ <;>
  · rw [(merge_exports_spec _ _ _).2.1]; rfl

end Verif.Loader.Linking
