import Verif.Loader.Main
/-
C34 (failures are reported), C35 (visible names), C36 (repeated use), C54 (evaluation of the dependencies).
-/
namespace Verif.Loader
open Verif.Ast
variable {fetch : MPath → Except LoadError Mod} {mainPath : MPath} {main : Mod}

/-! ### C34 -/

/-- C34: the loader never succeeds if a module that is needed cannot be loaded. -/
theorem C34_never_ok {sc : Scope} (h : LoadMain fetch mainPath main (.ok sc)) :
    ∀ p, Reach fetch main p → ∃ m, fetch p = .ok m := by
  obtain ⟨n, s, h1, h2, h3⟩ := h
  cases h3 with
  | ok hp _ _ _ hfail _ =>
    intro p hr
    cases h : fetch p with
    | ok m => exact ⟨m, rfl⟩
    | error e =>
      have := ((C33_result fetch main n s h1 h2).2 p e).mpr ⟨hr, h⟩
      rw [hfail] at this; cases this

/-- C34: the report is never empty and names exactly the modules that cannot be loaded, each once, with its error. -/
theorem C34_report_exact {f : List (MPath × LoadError)} (h : LoadMain fetch mainPath main (.loadErrors f)) :
    f ≠ [] ∧ (f.map (·.1)).Nodup ∧ ∀ p e, (p, e) ∈ f ↔ Reach fetch main p ∧ fetch p = .error e := by
  obtain ⟨n, s, h1, h2, h3⟩ := h
  cases h3 with
  | failures hp _ _ _ hfail =>
    exact ⟨hfail, (C32_once fetch main n s h1).2.2.2, (C33_result fetch main n s h1 h2).2⟩

/-- C34, for the failures of modules that only the main module uses: the failure is reported, unless the
loader does not get to it, because a module is marked for reloading, or because evaluating another module fails. -/
theorem C34_reported_partial {o : LOut} {p : MPath} {e : LoadError} (hr : Reach fetch main p) (he : fetch p = .error e)
    (honly : ∀ q m, Reach fetch main q → fetch q = .ok m → ∀ r ∈ m.required, ∃ m', fetch r = .ok m')
    (h : LoadMain fetch mainPath main o) :
    (∃ f, o = .loadErrors f ∧ (p, e) ∈ f) ∨ o = .stuck ∨ (∃ sc e', o = .err e' ∧ EvalScope sc (.err e')) ∨
    (o = .panic ∧ ∃ sc, EvalScope sc .panic) := by
  obtain ⟨n, s, h1, h2, h3⟩ := h
  have hmem : (p, e) ∈ s.failed := ((C33_result fetch main n s h1 h2).2 p e).mpr ⟨hr, he⟩
  cases h3 with
  | stuck => exact Or.inr (Or.inl rfl)
  | @evalError it order e' hp _ _ hd =>
    refine Or.inr (Or.inr (Or.inl ?_))
    have key : ∀ {order loaded scopes o}, EvalDeps order loaded scopes o → ∀ e', o = .err e' → ∃ sc, EvalScope sc (.err e') := by
      intro order loaded scopes o h
      induction h with
      | nil => rintro _ ⟨⟩
      | skip _ _ ih => exact ih
      | evaled _ _ _ ih => exact ih
      | missing => rintro _ ⟨⟩
      | err _ _ _ hs => rintro _ ⟨⟩; exact ⟨_, hs⟩
      | panic => rintro _ ⟨⟩
      | eval _ _ _ _ _ ih => exact ih
    obtain ⟨sc, hs⟩ := key hd e' rfl
    exact ⟨sc, e', rfl, hs⟩
  | @evalPanic it order o hp _ _ hd ho =>
    rcases ho with rfl | rfl
    · refine Or.inr (Or.inr (Or.inr ⟨rfl, ?_⟩))
      have key : ∀ {order loaded scopes o}, EvalDeps order loaded scopes o → o = .panic → ∃ sc, EvalScope sc .panic := by
        intro order loaded scopes o h
        induction h with
        | nil => rintro ⟨⟩
        | skip _ _ ih => exact ih
        | evaled _ _ _ ih => exact ih
        | missing => rintro ⟨⟩
        | err => rintro ⟨⟩
        | panic _ _ _ hs => rintro ⟨⟩; exact ⟨_, hs⟩
        | eval _ _ _ _ _ ih => exact ih
      exact key hd rfl
    · exfalso
      obtain ⟨q, m, h4, _, r, h5, h6⟩ := evalDeps_missing hd rfl (by
        intro x hx
        rw [lookup_scopes] at hx
        simpa using hx)
      obtain ⟨hq, hm⟩ := (loaded_lookup h1 h2 hp q m).mp h4
      obtain ⟨m', hm'⟩ := honly q m hq hm r h5
      have := (loaded_lookup h1 h2 hp r m').mpr ⟨.indirect hq hm h5, hm'⟩
      rw [h6] at this; cases this
  | failures => exact Or.inl ⟨_, rfl, hmem⟩
  | unwrapNone _ _ _ _ hf => rw [hf] at hmem; cases hmem
  | ok _ _ _ _ hf => rw [hf] at hmem; cases hmem

/-- C34 is violated for every module that another module uses: if a module that is not the main one (and was not
read evaluated from its object file) uses a module that cannot be loaded, the failure is never reported. -/
theorem C34_violated {o : LOut} {p q : MPath} {m : Mod} {e : LoadError} (hq : Reach fetch main q) (hm : fetch q = .ok m)
    (hn : m.needsEval = true) (hpq : p ∈ m.required) (he : fetch p = .error e) (h : LoadMain fetch mainPath main o) :
    ∀ f, o ≠ .loadErrors f := by
  rintro f rfl
  obtain ⟨n, s, h1, h2, h3⟩ := h
  cases h3 with
  | @failures it order loaded hp _ ht hd _ =>
    have hlq := (loaded_lookup h1 h2 hp q m).mpr ⟨hq, hm⟩
    have hn' : (it.map (·.1)).Nodup := (hp.map (·.1)).nodup_iff.mpr (C32_once fetch main n s h1).2.2.1
    have hmem : q ∈ order.filterMap ((dependencyGraph mainPath main.required it).nodes[·]?) :=
      (order_mem ht).mpr (graph_loaded mainPath main.required it (q, m) ((lookup_of_mem hn').mp hlq))
    obtain ⟨m', hm'⟩ := evalDeps_required hd loaded rfl (by
      intro x hx
      rw [lookup_scopes, hx]; rfl) q hmem m hlq hn p hpq
    have := ((loaded_lookup h1 h2 hp p m').mp hm').2
    rw [he] at this; cases this

/-! ### C35 -/

/-- The modules the main module uses, as they are when they are merged into it. -/
theorem merged {sc : Scope} (h : LoadMain fetch mainPath main (.ok sc)) :
    main.required.Nodup ∧ ∃ ms : List (Mod × Mod), ms.length = main.required.length ∧
      (∀ (i : Nat) p, main.required[i]? = some p → ∃ m m', ms[i]? = some (m, m') ∧ fetch p = .ok m ∧ ModEvaluated m m') ∧
      (∀ k, sc.variables k = (main.scope.variables k).or (ms.findSome? fun m => offersVar k m.2.scope)) ∧
      ∀ k, sc.functions k = (main.scope.functions k).or (ms.findSome? fun m => offersFn k m.2.scope) := by
  obtain ⟨n, s, h1, h2, h3⟩ := h
  cases h3 with
  | @ok it order loaded sc hp _ ht hd hfail hmerge =>
    obtain ⟨hn, ms, g1, g2, g3, g4⟩ := mergeDirect_spec hmerge
    refine ⟨hn, ?_⟩
    have hspec := evalDeps_spec hd loaded rfl
    have key : ∀ (ps : List MPath) (ms : List Mod), ps.map (loaded.lookup ·) = ms.map some →
        ∃ ms' : List (Mod × Mod), ms'.map (·.2) = ms ∧ ms'.length = ps.length ∧
          ∀ (i : Nat) p, ps[i]? = some p → ∃ m m', ms'[i]? = some (m, m') ∧ fetch p = .ok m ∧ ModEvaluated m m' := by
      intro ps
      induction ps with
      | nil =>
        intro ms hms
        cases ms with
        | nil => exact ⟨[], rfl, rfl, by simp⟩
        | cons => simp at hms
      | cons p ps ih =>
        intro ms hms
        cases ms with
        | nil => simp at hms
        | cons m' ms =>
          rw [List.map_cons, List.map_cons, List.cons.injEq] at hms
          obtain ⟨ms', e1, e2, e3⟩ := ih ms hms.2
          obtain ⟨k1, k2⟩ := hspec p
          cases hit : it.lookup p with
          | none => rw [k1 hit] at hms; cases hms.1
          | some m =>
            obtain ⟨m'', e4, e5⟩ := k2 m hit
            rw [hms.1] at e4; cases e4
            refine ⟨(m, m') :: ms', by simp [e1], by simp [e2], fun i q hq => ?_⟩
            cases i with
            | zero =>
              rw [List.getElem?_cons_zero] at hq
              cases hq
              exact ⟨m, m', rfl, ((loaded_lookup h1 h2 hp p m).mp hit).2, e5⟩
            | succ i => exact e3 i q hq
    obtain ⟨ms', e1, e2, e3⟩ := key main.required ms g1
    refine ⟨ms', e2, e3, fun k => ?_, fun k => ?_⟩
    · rw [g3, ← e1, List.findSome?_map]; rfl
    · rw [g4, ← e1, List.findSome?_map]; rfl

/-- C35: the definitions of the main module win. -/
theorem C35_own {sc : Scope} (h : LoadMain fetch mainPath main (.ok sc)) (k : Text) (a : Ast) :
    (main.scope.variables k = some a → sc.variables k = some a) ∧ (main.scope.functions k = some a → sc.functions k = some a) := by
  obtain ⟨_, ms, _, _, h3, h4⟩ := merged h
  exact ⟨fun h => by rw [h3, h]; rfl, fun h => by rw [h4, h]; rfl⟩

theorem findSome?_first {α β : Type} {f : α → Option β} {l : List α} {i : Nat} {x : α} {b : β} (hx : l[i]? = some x)
    (hb : f x = some b) (hn : ∀ (j : Nat) y, j < i → l[j]? = some y → f y = none) : l.findSome? f = some b := by
  induction l generalizing i with
  | nil => simp at hx
  | cons a l ih =>
    rw [List.findSome?_cons]
    cases i with
    | zero => rw [List.getElem?_cons_zero] at hx; cases hx; rw [hb]
    | succ i =>
      rw [hn 0 a (by omega) rfl]
      exact ih (i := i) (by simpa using hx) fun j y hj hy => hn (j + 1) y (by omega) (by simpa using hy)

/-- C35: a variable the main module does not define is the one of the first module in the order of the `use`s that
exports the name and defines such a variable, as it was evaluated in that module. -/
theorem C35_first_variable {sc : Scope} (h : LoadMain fetch mainPath main (.ok sc)) {k : Text} {a : Ast} {i : Nat} {p : MPath} {m : Mod}
    (hown : main.scope.variables k = none) (hp : main.required[i]? = some p) (hm : fetch p = .ok m) (hk : k ∈ m.scope.exports)
    (ha : m.scope.variables k = some a)
    (hfirst : ∀ (j : Nat) q m', j < i → main.required[j]? = some q → fetch q = .ok m' → k ∉ m'.scope.exports) :
    ∃ b, sc.variables k = some b ∧ Evaluated a b := by
  obtain ⟨_, ms, h1, h2, h3, _⟩ := merged h
  obtain ⟨m1, m', e1, e2, e3⟩ := h2 i p hp
  rw [hm] at e2; cases e2
  obtain ⟨b, hb, hb'⟩ := e3.vars k a ha
  refine ⟨b, ?_, hb'⟩
  rw [h3, hown]
  show ms.findSome? _ = some b
  refine findSome?_first e1 (by simp only [offersVar, e3.exports, hk, if_true, hb]) fun j y hj hy => ?_
  have hlen : j < main.required.length := by
    rw [← h1]; exact (List.getElem?_eq_some_iff.mp hy).1
  obtain ⟨m2, m2', f1, f2, f3⟩ := h2 j _ (List.getElem?_eq_getElem hlen)
  rw [hy] at f1; cases f1
  have := hfirst j _ m2 hj (List.getElem?_eq_getElem hlen) f2
  simp only [offersVar, f3.exports, this, if_false]

/-- C35: the same for functions. -/
theorem C35_first_function {sc : Scope} (h : LoadMain fetch mainPath main (.ok sc)) {k : Text} {a : Ast} {i : Nat} {p : MPath} {m : Mod}
    (hown : main.scope.functions k = none) (hp : main.required[i]? = some p) (hm : fetch p = .ok m) (hk : k ∈ m.scope.exports)
    (ha : m.scope.functions k = some a)
    (hfirst : ∀ (j : Nat) q m', j < i → main.required[j]? = some q → fetch q = .ok m' → k ∉ m'.scope.exports) :
    ∃ b, sc.functions k = some b ∧ Evaluated a b := by
  obtain ⟨_, ms, h1, h2, _, h3⟩ := merged h
  obtain ⟨m1, m', e1, e2, e3⟩ := h2 i p hp
  rw [hm] at e2; cases e2
  obtain ⟨b, hb, hb'⟩ := e3.fns k a ha
  refine ⟨b, ?_, hb'⟩
  rw [h3, hown]
  show ms.findSome? _ = some b
  refine findSome?_first e1 (by simp only [offersFn, e3.exports, hk, if_true, hb]) fun j y hj hy => ?_
  have hlen : j < main.required.length := by
    rw [← h1]; exact (List.getElem?_eq_some_iff.mp hy).1
  obtain ⟨m2, m2', f1, f2, f3⟩ := h2 j _ (List.getElem?_eq_getElem hlen)
  rw [hy] at f1; cases f1
  have := hfirst j _ m2 hj (List.getElem?_eq_getElem hlen) f2
  simp only [offersFn, f3.exports, this, if_false]

/-- C35: nothing else is visible: a name that the main module does not define and that no module it uses
directly exports is not visible, whatever the modules they use export. -/
theorem C35_nothing_else {sc : Scope} (h : LoadMain fetch mainPath main (.ok sc)) {k : Text}
    (hno : ∀ p ∈ main.required, ∀ m, fetch p = .ok m → k ∉ m.scope.exports) :
    sc.variables k = main.scope.variables k ∧ sc.functions k = main.scope.functions k := by
  obtain ⟨_, ms, h1, h2, h3, h4⟩ := merged h
  have hnone : ∀ y ∈ ms, k ∉ y.2.scope.exports := by
    intro y hy
    obtain ⟨j, hj⟩ := List.mem_iff_getElem?.mp hy
    have hlen : j < main.required.length := by
      rw [← h1]; exact (List.getElem?_eq_some_iff.mp hj).1
    obtain ⟨m2, m2', f1, f2, f3⟩ := h2 j _ (List.getElem?_eq_getElem hlen)
    rw [hj] at f1; cases f1
    rw [f3.exports]
    exact hno _ (List.getElem_mem hlen) m2 f2
  constructor
  · rw [h3, List.findSome?_eq_none_iff.mpr fun y hy => by simp only [offersVar, hnone y hy, if_false], Option.or_none]
  · rw [h4, List.findSome?_eq_none_iff.mpr fun y hy => by simp only [offersFn, hnone y hy, if_false], Option.or_none]

/-! ### C36 -/

/-- C36 is violated for every main module with a repeated `use`: it never loads. -/
theorem C36_violated (hdup : ¬ main.required.Nodup) {o : LOut} (h : LoadMain fetch mainPath main o) : ∀ sc, o ≠ .ok sc := by
  rintro sc rfl
  exact hdup (merged h).1

/-- C36: what happens instead: if nothing else goes wrong, it is a panic. -/
theorem C36_panics (hdup : ¬ main.required.Nodup) (hall : ∀ p, Reach fetch main p → ∃ m, fetch p = .ok m) {o : LOut}
    (h : LoadMain fetch mainPath main o) : o = .panic ∨ o = .stuck ∨ ∃ e, o = .err e := by
  obtain ⟨n, s, h1, h2, h3⟩ := h
  cases h3 with
  | stuck => exact Or.inr (Or.inl rfl)
  | evalError => exact Or.inr (Or.inr ⟨_, rfl⟩)
  | evalPanic => exact Or.inl rfl
  | failures _ _ _ _ hf =>
    exfalso
    cases hfs : s.failed with
    | nil => exact hf hfs
    | cons x l =>
      obtain ⟨p, e⟩ := x
      obtain ⟨hr, he⟩ := ((C33_result fetch main n s h1 h2).2 p e).mp (by rw [hfs]; simp)
      obtain ⟨m, hm⟩ := hall p hr
      rw [he] at hm; cases hm
  | unwrapNone => exact Or.inl rfl
  | ok _ _ _ _ _ hm => exact absurd (mergeDirect_spec hm).1 hdup

/-- C36: the only panic after the evaluation is the one for a repeated `use`: a main module without repeated
`use`s never ends in it. -/
theorem C36_no_repeat {s : St} {n : Nat} (h1 : Steps fetch (init main) n s) (h2 : Finished s) (hn : main.required.Nodup)
    (hfail : s.failed = []) {it order loaded} (hp : it.Perm s.loaded) (hd : EvalDeps order it (it.map fun e => (e.1, e.2.scope)) (.ok loaded)) :
    ∃ sc, mergeDirect main.scope loaded main.required = some sc := by
  refine mergeDirect_some_iff.mpr ⟨hn, fun p hpr => ?_⟩
  cases h : fetch p with
  | error e =>
    have := ((C33_result fetch main n s h1 h2).2 p e).mpr ⟨.direct hpr, h⟩
    rw [hfail] at this; cases this
  | ok m =>
    have := (loaded_lookup h1 h2 hp p m).mpr ⟨.direct hpr, h⟩
    obtain ⟨m', hm', _⟩ := (evalDeps_spec hd loaded rfl p).2 m this
    exact ⟨m', hm'⟩

theorem merge_twice (sc d : Scope) (h : ∀ k, (∀ a, offersVar k d = some a → (sc.variables k).isSome) ∧
    ∀ a, offersFn k d = some a → (sc.functions k).isSome) : sc.merge d d.exports = sc := by
  refine Scope.ext' (fun k => ?_) (fun k => ?_) (merge_exports_spec d sc []).2.2
  · rw [(merge_exports_spec d sc k).2.1]
    cases h1 : offersFn k d with
    | none => simp
    | some a => cases h2 : sc.functions k with
      | none => have := (h k).2 a h1; rw [h2] at this; cases this
      | some b => rfl
  · rw [(merge_exports_spec d sc k).1]
    cases h1 : offersVar k d with
    | none => simp
    | some a => cases h2 : sc.variables k with
      | none => have := (h k).1 a h1; rw [h2] at this; cases this
      | some b => rfl

theorem mergeReqs_append {scopes : List (MPath × Scope)} {sc : Scope} (l l' : List MPath) :
    mergeReqs scopes sc (l ++ l') = (mergeReqs scopes sc l).bind fun sc' => mergeReqs scopes sc' l' := by
  induction l generalizing sc with
  | nil => rfl
  | cons p l ih =>
    rw [List.cons_append, mergeReqs, mergeReqs]
    split
    · rfl
    · exact ih

/-- C36 in the modules that are used: a repeated `use` is as good as one of them, the last. -/
theorem C36_dependency (scopes : List (MPath × Scope)) (sc : Scope) (l1 l2 l3 : List MPath) (p : MPath) :
    mergeReqs scopes sc (l1 ++ p :: l2 ++ p :: l3).reverse = mergeReqs scopes sc (l1 ++ l2 ++ p :: l3).reverse := by
  have e1 : (l1 ++ p :: l2 ++ p :: l3).reverse = (l3.reverse ++ [p] ++ l2.reverse) ++ [p] ++ l1.reverse := by simp
  have e2 : (l1 ++ l2 ++ p :: l3).reverse = (l3.reverse ++ [p] ++ l2.reverse) ++ l1.reverse := by simp
  rw [e1, e2, mergeReqs_append, mergeReqs_append (_ ++ _) [p], mergeReqs_append _ l1.reverse]
  cases h : mergeReqs scopes sc (l3.reverse ++ [p] ++ l2.reverse) with
  | none => rfl
  | some sc1 =>
    obtain ⟨ds, h1, _, h2, h3⟩ := mergeReqs_spec h
    have hp : scopes.lookup p ∈ ds.map some := by
      rw [← h1]; exact List.mem_map.mpr ⟨p, by simp, rfl⟩
    obtain ⟨d, hd, hd'⟩ := List.mem_map.mp hp
    have : mergeReqs scopes sc1 [p] = some sc1 := by
      have h0 : mergeReqs scopes sc1 [p] = some (sc1.merge d d.exports) := by simp only [mergeReqs, ← hd']
      rw [h0]
      refine congrArg some (merge_twice sc1 d fun k => ⟨fun a ha => ?_, fun a ha => ?_⟩)
      · rw [h2, Option.isSome_or]
        refine Bool.or_eq_true_iff.mpr (Or.inr ?_)
        rw [List.findSome?_isSome_iff]
        exact ⟨d, hd, by rw [ha]; rfl⟩
      · rw [h3, Option.isSome_or]
        refine Bool.or_eq_true_iff.mpr (Or.inr ?_)
        rw [List.findSome?_isSome_iff]
        exact ⟨d, hd, by rw [ha]; rfl⟩
    show (some sc1 >>= fun sc' => mergeReqs scopes sc' [p]) >>= _ = _
    simp only [Option.bind_eq_bind, Option.bind_some, this]

end Verif.Loader
