import Verif.Cache.UpToDate
import Mathlib.Data.List.Induction
/-
C86: the object files of a library stay up to date while the files that use it are edited and compiled.
-/
namespace Verif.Cache
open Verif.Ast Verif.Loader Verif.Sheet

/-! ## Specification -/

section
variable {C : Type}

/-- The source files of the modules `lib` can be parsed, use only modules in `lib`, and do not use each other in a circle. -/
structure LibrarySources (parse : C → Except LoadError Parsed) (lib : List MPath) (fs : FS C) : Prop where
  sources : ∀ q ∈ lib, ∃ c tm m, fs.src q = some (c, tm) ∧ parse c = .ok m ∧ ∀ r ∈ m.required, r ∈ lib
  acyclic : ∃ rank : MPath → Nat, ∀ q ∈ lib, ∀ c tm m, fs.src q = some (c, tm) → parse c = .ok m → ∀ r ∈ m.required, rank r < rank q

/-- A source file with these contents uses only modules in `lib`, each once. -/
def UsesOnce (parse : C → Except LoadError Parsed) (lib : List MPath) (c : C) : Prop :=
  ∀ m, parse c = .ok m → m.required.Nodup ∧ ∀ r ∈ m.required, r ∈ lib

/-- The histories of a directory with the library `lib`, which is not edited.  At the start there are no object files.  Then other files, which use the
library, are saved, at a later time than anything before, and compiled, with or without `--no-cache` and with any `-k` values, always by the same version
of the compiler; a compilation may be interrupted, so that only some of its object files are written.  Object files may be deleted. -/
inductive Session (parse : C → Except LoadError Parsed) (version : Nat) (lib : List MPath) : FS C → Nat → Prop
  | start {fs clock} : (∀ p, fs.obj p = none) → (∀ p c t, fs.src p = some (c, t) → t ≤ clock) → LibrarySources parse lib fs →
      (∀ p c t, p ∉ lib → fs.src p = some (c, t) → UsesOnce parse lib c) → Session parse version lib fs clock
  | edit {fs clock t p c} : Session parse version lib fs clock → clock < t → p ∉ lib → UsesOnce parse lib c → Session parse version lib (fs.edit t p c) t
  | compile {fs clock t useCache kv mp o w} (n : Nat) : Session parse version lib fs clock → clock ≤ t → mp ∉ lib →
      Compile parse version useCache kv fs mp o w → Session parse version lib (fs.writeAll t (w.take n)) t
  | delete {fs clock} (p : MPath) : Session parse version lib fs clock → Session parse version lib ⟨fs.src, fun q => if q = p then none else fs.obj q⟩ clock

end

/-! ## Proofs -/

/-- The definitions that are evaluated and written are results of the sources. -/
theorem deps_results {src : MPath → Except LoadError Mod} {ord : List MPath} {loaded : List (MPath × Mod)} {scopes w : List (MPath × Scope)} {d : DepsOut}
    (h : EvalDepsW ord loaded scopes w d) (hs : ∀ q, scopes.lookup q = (loaded.lookup q).map (·.scope)) (hn : ord.Nodup)
    (hb : ∀ l1 p l2, ord = l1 ++ p :: l2 → ∀ m, loaded.lookup p = some m → ∀ q ∈ m.required, q ∉ p :: l2)
    (hsrc : ∀ p ∈ ord, ∀ m', loaded.lookup p = some m' → ∃ m, src p = .ok m ∧ m'.required = m.required ∧ m'.needsEval = true ∧
      (m'.scope = m.scope ∨ Result src p m'.scope))
    (hdone : ∀ q, q ∉ ord → ∀ m', loaded.lookup q = some m' → Result src q m'.scope) : ∀ e ∈ w, Result src e.1 e.2 := by
  induction h with
  | nil => simp
  | @skip p ps loaded scopes w o hl _ ih =>
    rw [List.nodup_cons] at hn
    exact ih hs hn.2 (fun l1 q l2 e => hb (p :: l1) q l2 (by rw [e]; rfl)) (fun q hq => hsrc q (List.mem_cons_of_mem _ hq)) fun q hq m' hm => by
      by_cases hqp : q = p
      · subst hqp; rw [hl] at hm; cases hm
      · exact hdone q (by simp only [List.mem_cons, not_or]; exact ⟨hqp, hq⟩) m' hm
  | evaled hl hne =>
    obtain ⟨_, _, _, h, _⟩ := hsrc _ (by simp) _ hl
    rw [hne] at h; cases h
  | missing => simp
  | err => simp
  | panic => simp
  | @eval p ps loaded scopes m sc S w o hl hne hm he _ ih =>
    rw [List.nodup_cons] at hn
    obtain ⟨m₀, e1, e2, -, e4⟩ := hsrc p (by simp) m hl
    have hlook : ∀ r ∈ m.required, ∃ R, scopes.lookup r = some R := by
      intro r hr
      cases hx : scopes.lookup r with
      | some R => exact ⟨R, rfl⟩
      | none => rw [mergeReqs_none.mpr ⟨r, List.mem_reverse.mpr hr, hx⟩] at hm; cases hm
    have hR1 : ∀ r ∈ m₀.required, scopes.lookup r = some ((scopes.lookup r).getD Scope.empty) := by
      intro r hr
      obtain ⟨R, hR⟩ := hlook r (e2 ▸ hr)
      rw [hR]; rfl
    have hR2 : ∀ r ∈ m₀.required, Result src r ((scopes.lookup r).getD Scope.empty) := by
      intro r hr
      obtain ⟨R, hR⟩ := hlook r (e2 ▸ hr)
      have hR' := hR
      rw [hs] at hR'
      cases hx : loaded.lookup r with
      | none => rw [hx] at hR'; cases hR'
      | some m' =>
        rw [hx] at hR'; cases hR'
        rw [hR]
        exact hdone r (hb [] p ps rfl m hl r (e2 ▸ hr)) m' hx
    rw [e2] at hm
    have hres : Result src p S := by
      rcases e4 with e4 | e4
      · rw [e4] at hm
        exact .first _ e1 hR1 hR2 hm he
      · exact .again _ e1 e4 hR1 hR2 hm he
    have hneq : ∀ q, q ≠ p → (setScope loaded p S).lookup q = loaded.lookup q := by
      intro q hq
      rw [lookup_setScope]; simp [hq]
    have hp' : (setScope loaded p S).lookup p = some { m with scope := S } := by rw [lookup_setScope, hl]; simp
    have hrest := ih (by
        intro q
        rw [List.lookup_cons]
        by_cases hq : q = p
        · subst hq; rw [hp']; simp
        · have : (q == p) = false := by simp [hq]
          rw [this, hneq q hq]; exact hs q) hn.2 (by
        intro l1 q l2 e m' hm' r hr
        have hqp : q ≠ p := by
          rintro rfl
          exact hn.1 (by rw [e]; simp)
        rw [hneq q hqp] at hm'
        exact hb (p :: l1) q l2 (by rw [e]; rfl) m' hm' r hr) (by
        intro q hq m' hm'
        have hqp : q ≠ p := fun e => hn.1 (e ▸ hq)
        rw [hneq q hqp] at hm'
        exact hsrc q (List.mem_cons_of_mem _ hq) m' hm') (by
        intro q hq m' hm'
        by_cases hqp : q = p
        · subst hqp
          rw [hp'] at hm'; cases hm'
          exact hres
        · rw [hneq q hqp] at hm'
          exact hdone q (by simp only [List.mem_cons, not_or]; exact ⟨hqp, hq⟩) m' hm')
    intro e he
    rcases List.mem_cons.mp he with rfl | he
    · exact hres
    · exact hrest e he

theorem deps_all {ord : List MPath} {loaded : List (MPath × Mod)} {scopes w : List (MPath × Scope)} {d : DepsOut}
    (h : EvalDepsW ord loaded scopes w d) (hok : ∀ e, d ≠ .err e) (hp : d ≠ .panic) (hm : d ≠ .missing) :
    ∀ p ∈ ord, ∀ m, loaded.lookup p = some m → m.needsEval = true → p ∈ w.map (·.1) := by
  induction h with
  | nil => simp
  | @skip p ps loaded scopes w o hl _ ih =>
    intro q hq m hlq hn
    rcases List.mem_cons.mp hq with rfl | hq
    · rw [hl] at hlq; cases hlq
    · exact ih hok hp hm q hq m hlq hn
  | @evaled p ps loaded scopes w o m' hl hne _ ih =>
    intro q hq m hlq hn
    rcases List.mem_cons.mp hq with rfl | hq
    · rw [hl] at hlq; cases hlq; rw [hne] at hn; cases hn
    · exact ih hok hp hm q hq m hlq hn
  | missing => exact absurd rfl hm
  | err => exact absurd rfl (hok _)
  | panic => exact absurd rfl hp
  | @eval p ps loaded scopes m' sc S w o hl hne _ _ _ ih =>
    intro q hq m hlq hn
    by_cases hqp : q = p
    · subst hqp; simp
    · rcases List.mem_cons.mp hq with rfl | hq
      · exact absurd rfl hqp
      · exact List.mem_cons_of_mem _ (ih hok hp hm q hq m (by rw [lookup_setScope, hlq]; simp [hqp]) hn)

/-- A successful compilation of an edited file leaves object files for the modules that it uses. -/
theorem compile_objects {C : Type} {parse : C → Except LoadError Parsed} {version : Nat} {kv : Text → Option Ast} {fs : FS C} {mp : MPath} {s : Sheet}
    {w : List (MPath × Module C)} (h : Compile parse version true kv fs mp (.ok s) w) {main : Module C} (hm : loadMainModule parse version fs mp = .ok main)
    (hnd : main.required.Nodup) (hmp : mp ∉ main.required) {q : MPath} (hq : q ∈ main.required)
    (hn : ∀ m, loadDep parse version true fs q = .ok m → m.needsEval = true) (t : Nat) :
    ((fs.writeAll t w).obj q).isSome := by
  have hmem : ∀ (w : List (MPath × Module C)) (fs : FS C), q ∈ w.map (·.1) → ((fs.writeAll t w).obj q).isSome := by
    intro w
    induction w using List.reverseRecOn with
    | nil => simp
    | append_singleton w e ih =>
      intro fs hq
      rw [writeAll_append]
      simp only [FS.writeAll, List.foldl_cons, List.foldl_nil, FS.writeObj]
      split
      · rfl
      · rename_i hne
        refine ih fs ?_
        rw [List.map_append, List.mem_append] at hq
        rcases hq with hq | hq
        · exact hq
        · exact absurd (List.mem_singleton.mp hq) hne
  have hload : ∀ {w' sc}, LoadMainW (fetchOf parse version true fs) mp main.toMod w' (.ok sc) → q ∈ (w'.flatMap (written parse version true fs)).map (·.1) := by
    intro w' sc h
    cases h with
    | @eval n s it order _ d _ h1 h2 h3 _ h5 h6 h7 =>
      have hkeys : (it.map (·.1)).Nodup := (h3.map (·.1)).nodup_iff.mpr (C32_once _ main.toMod n s h1).2.2.1
      cases h7 with
      | @ok l _ hf hmd =>
        have hdone := (C33_result _ main.toMod n s h1 h2).1
        have hr : Reach (fetchOf parse version true fs) main.toMod q := .direct hq
        cases hd : loadDep parse version true fs q with
        | error e =>
          have hfail := (C33_result _ main.toMod n s h1 h2).2 q e
          rw [hf] at hfail
          have : fetchOf parse version true fs q = .error e := by simp only [fetchOf, hd]; rfl
          exact absurd (hfail.mpr ⟨hr, this⟩) (by simp)
        | ok m =>
          have hl : it.lookup q = some m.toMod := (loaded_lookup h1 h2 h3 q m.toMod).mpr ⟨hr, by simp only [fetchOf, hd]; rfl⟩
          obtain ⟨-, -, -, -, g5⟩ := graph_spec mp main.toMod.required it hnd hmp
          have hord := (order_mem h5).mpr (g5 (q, m.toMod) ((lookup_of_mem hkeys).mp hl))
          obtain ⟨e, he, rfl⟩ := List.mem_map.mp (deps_all h6 (by simp) (by simp) (by simp) q hord m.toMod hl (hn m hd))
          refine List.mem_map.mpr ⟨(e.1, { m with scope := e.2 }), List.mem_flatMap.mpr ⟨e, he, ?_⟩, rfl⟩
          simp only [written, if_true, hd, List.mem_singleton]
  cases h with
  | cached h1 h2 =>
    rw [hm] at h1; cases h1
    exact hmem _ fs (hload h2)
  | eval h1 h2 =>
    rw [hm] at h1; cases h1
    refine hmem _ fs ?_
    rw [List.map_append, List.mem_append]
    exact .inl (hload h2)
  | @deps _ _ lo _ _ _ h3 => cases lo <;> simp [LOut.failure] at h3

section
variable {C : Type} {parse : C → Except LoadError Parsed} {version : Nat} {lib : List MPath} {fs : FS C} {clock : Nat}

/-- Results depend on the sources of the library only. -/
theorem result_lib {src src' : MPath → Except LoadError Mod} (heq : ∀ q ∈ lib, src' q = src q) (hcl : ∀ q ∈ lib, ∀ m, src q = .ok m → ∀ r ∈ m.required, r ∈ lib)
    {q : MPath} {S : Scope} (h : Result src q S) : q ∈ lib → Result src' q S := by
  induction h with
  | @first q m sc S scopes R h1 h2 _ h4 h5 ih =>
    intro hq
    exact .first R (by rw [heq q hq]; exact h1) h2 (fun r hr => ih r hr (hcl q hq m h1 r hr)) h4 h5
  | @again q m own sc S scopes R h1 _ h2 _ h4 h5 iho ih =>
    intro hq
    exact .again R (by rw [heq q hq]; exact h1) (iho hq) h2 (fun r hr => ih r hr (hcl q hq m h1 r hr)) h4 h5

/-- What holds at every time. -/
structure SessionInv (parse : C → Except LoadError Parsed) (version : Nat) (lib : List MPath) (fs : FS C) (clock : Nat) : Prop where
  times : ∀ p c t, fs.src p = some (c, t) → t ≤ clock
  objTimes : ∀ p o t, fs.obj p = some (o, t) → t ≤ clock
  library : LibrarySources parse lib fs
  mains : ∀ p c t, p ∉ lib → fs.src p = some (c, t) → UsesOnce parse lib c
  objects : ∀ q ∈ lib, UpToDate parse version fs q
  used : ∀ p o t, p ∉ lib → fs.obj p = some (o, t) → o.required.Nodup ∧ ∀ r ∈ o.required, r ∈ lib

/-- How the library is read. -/
theorem SessionInv.read (hI : SessionInv parse version lib fs clock) {useCache : Bool} {q : MPath} (hq : q ∈ lib) :
    ∃ c tm m m', fs.src q = some (c, tm) ∧ parse c = .ok m ∧ (∀ r ∈ m.required, r ∈ lib) ∧ fetchOf parse version false fs q = .ok ⟨m.required, m.scope, false, true⟩ ∧
      loadDep parse version useCache fs q = .ok m' ∧ m'.version = version ∧ m'.required = m.required ∧ m'.dirty = false ∧
      m'.needsEval = true ∧ (m'.scope = m.scope ∨ Result (fetchOf parse version false fs) q m'.scope) := by
  obtain ⟨c, tm, m, h1, h2, h3⟩ := hI.library.sources q hq
  obtain ⟨m', h4⟩ := UpToDate.load (useCache := useCache) (fun _ => hI.objects q hq) h1 h2
  exact ⟨c, tm, m, m', h1, h2, h3, fetchOf_source h1 h2, h4⟩

/-- What is written when the library is loaded. -/
theorem SessionInv.load (hI : SessionInv parse version lib fs clock) {useCache : Bool} {mp : MPath} (hmp : mp ∉ lib) {main : Mod} (hn : main.required.Nodup)
    (hr : ∀ r ∈ main.required, r ∈ lib) {w : List (MPath × Scope)} {lo : LOut} (h : LoadMainW (fetchOf parse version useCache fs) mp main w lo) :
    ∀ e ∈ w, e.1 ∈ lib ∧ Result (fetchOf parse version false fs) e.1 e.2 := by
  have hreach : ∀ p, Reach (fetchOf parse version useCache fs) main p → p ∈ lib := by
    intro p hp
    induction hp with
    | direct h => exact hr _ h
    | @indirect p q m _ h2 h3 ih =>
      obtain ⟨c, tm, pm, m', e1, e2, e3, e4, e5, e6, e7, -⟩ := hI.read (useCache := useCache) ih
      simp only [fetchOf, e5] at h2
      cases h2
      exact e3 p (e7 ▸ h3)
  cases h with
  | stuck => simp
  | @eval n s it order w d o h1 h2 h3 h4 h5 h6 h7 =>
    have hkeys : (it.map (·.1)).Nodup := (h3.map (·.1)).nodup_iff.mpr (C32_once _ main n s h1).2.2.1
    have hlook : ∀ p m', it.lookup p = some m' → p ∈ lib ∧ ∃ c tm m, fs.src p = some (c, tm) ∧ parse c = .ok m ∧ m'.required = m.required ∧
        m'.needsEval = true ∧ (m'.scope = m.scope ∨ Result (fetchOf parse version false fs) p m'.scope) := by
      intro p m' hl
      obtain ⟨e1, e2⟩ := (loaded_lookup h1 h2 h3 p m').mp hl
      have hp := hreach p e1
      obtain ⟨c, tm, m, m'', f1, f2, f3, f4, f5, f6, f7, f8, f9, f10⟩ := hI.read (useCache := useCache) hp
      simp only [fetchOf, f5] at e2
      cases e2
      exact ⟨hp, c, tm, m, f1, f2, f7, f9, f10⟩
    obtain ⟨rank, hrank⟩ := hI.library.acyclic
    have hneeds : ∀ p q, Needs mp main.required it p q → q ∈ lib ∧ (p ∈ lib → rank q < rank p) := by
      rintro p q (⟨rfl, hq⟩ | ⟨m, hm, hq⟩)
      · exact ⟨hr q hq, fun h => absurd h hmp⟩
      · obtain ⟨hp, c, tm, m', e1, e2, e3, -⟩ := hlook p m ((lookup_of_mem hkeys).mpr hm)
        obtain ⟨c', tm', m'', f1, f2, f3⟩ := hI.library.sources p hp
        rw [e1] at f1; cases f1
        rw [e2] at f2; cases f2
        exact ⟨f3 q (e3 ▸ hq), fun _ => hrank p hp c tm m' e1 e2 q (e3 ▸ hq)⟩
    have hac : ∀ p, ¬ Relation.TransGen (Needs mp main.required it) p p := by
      intro p hp
      have key : ∀ q, Relation.TransGen (Needs mp main.required it) p q → q ∈ lib ∧ (p ∈ lib → rank q < rank p) := by
        intro q hq
        induction hq with
        | single h => exact hneeds _ _ h
        | tail _ h ih => exact ⟨(hneeds _ _ h).1, fun hp => Nat.lt_trans ((hneeds _ _ h).2 ih.1) (ih.2 hp)⟩
      exact Nat.lt_irrefl _ ((key p hp).2 (key p hp).1)
    obtain ⟨t1, t2, t3⟩ := tarjan_before mp main.required it order hkeys hn hac h5
    have hres := deps_results (src := fetchOf parse version false fs) h6 (lookup_scopes it) t1 t2 (fun p _ m hm => by
      obtain ⟨_, c, tm, m', e1, e2, e3⟩ := hlook p m hm
      exact ⟨_, fetchOf_source e1 e2, e3⟩) (fun q hq m' hm' => absurd (t3 q m' ((lookup_of_mem hkeys).mp hm')) hq)
    have hk : ∀ {ord : List MPath} {loaded : List (MPath × Mod)} {scopes w : List (MPath × Scope)} {d : DepsOut}, EvalDepsW ord loaded scopes w d →
        ∀ e ∈ w, (loaded.lookup e.1).isSome := by
      intro ord loaded scopes w d h
      induction h with
      | nil => simp
      | skip _ _ ih => exact ih
      | evaled _ _ _ ih => exact ih
      | missing => simp
      | err => simp
      | panic => simp
      | @eval p ps loaded scopes m sc sc' w o h1 _ _ _ _ ih =>
        intro e he
        rcases List.mem_cons.mp he with rfl | he
        · rw [h1]; rfl
        · have := ih e he
          rw [lookup_setScope, Option.isSome_map] at this
          exact this
    intro e he
    obtain ⟨m', hm'⟩ := Option.isSome_iff_exists.mp (hk h6 e he)
    exact ⟨(hlook _ _ hm').1, hres e he⟩

/-- What a compilation writes. -/
theorem SessionInv.compile (hI : SessionInv parse version lib fs clock) {useCache : Bool} {kv : Text → Option Ast} {mp : MPath} (hmp : mp ∉ lib) {o : COut}
    {w : List (MPath × Module C)} (h : Compile parse version useCache kv fs mp o w) :
    ∀ e ∈ w, (e.1 ∈ lib ∧ ∃ c tm m, fs.src e.1 = some (c, tm) ∧ parse c = .ok m ∧ e.2.version = version ∧ e.2.required = m.required ∧ e.2.needsEval = true ∧
        Result (fetchOf parse version false fs) e.1 e.2.scope) ∨
      e.1 ∉ lib ∧ e.2.required.Nodup ∧ ∀ r ∈ e.2.required, r ∈ lib := by
  have hsource : ∀ {main}, loadSource parse version fs mp = .ok main → main.required.Nodup ∧ ∀ r ∈ main.required, r ∈ lib := by
    intro main h
    rw [loadSource] at h
    split at h
    · cases h
    · rename_i c t hs
      split at h
      · cases h
      · rename_i pm hp
        cases h
        exact hI.mains mp c t hmp hs pm hp
  have hmain : ∀ {main}, loadMainModule parse version fs mp = .ok main → main.required.Nodup ∧ ∀ r ∈ main.required, r ∈ lib := by
    intro main h
    rw [loadMainModule] at h
    split at h
    · exact hsource h
    · rename_i m t ho
      split at h
      · cases h
      · rename_i m' hm'
        split at h
        · exact hsource h
        · cases h
          have : main.required = m.required := by
            rw [checkDirty] at hm'
            split at hm'
            · cases hm'
            · split at hm'
              · cases hm'; rfl
              · cases hm'; rfl
          rw [this]
          exact hI.used mp m t hmp ho
  have hdeps : ∀ {main : Module C} {w lo}, loadMainModule parse version fs mp = .ok main → LoadMainW (fetchOf parse version useCache fs) mp main.toMod w lo →
      ∀ e ∈ w.flatMap (written parse version useCache fs), e.1 ∈ lib ∧ ∃ c tm m, fs.src e.1 = some (c, tm) ∧ parse c = .ok m ∧ e.2.version = version ∧
        e.2.required = m.required ∧ e.2.needsEval = true ∧ Result (fetchOf parse version false fs) e.1 e.2.scope := by
    intro main w lo h1 h2 e he
    obtain ⟨x, hx, he⟩ := List.mem_flatMap.mp he
    obtain ⟨m1, m2⟩ := hmain h1
    obtain ⟨k1, k2⟩ := hI.load hmp (main := main.toMod) m1 m2 h2 x hx
    rw [written] at he
    split at he
    · obtain ⟨c, tm, m, m', e1, e2, e3, e4, e5, e6, e7, e8, e9, -⟩ := hI.read (useCache := useCache) k1
      rw [e5] at he
      simp only at he
      obtain rfl := List.mem_singleton.mp he
      exact ⟨k1, c, tm, m, e1, e2, e6, e7, e9, k2⟩
    · cases he
  cases h with
  | main => simp
  | deps h1 h2 => exact fun e he => .inl (hdeps h1 h2 e he)
  | cached h1 h2 => exact fun e he => .inl (hdeps h1 h2 e he)
  | fills h1 h2 => exact fun e he => .inl (hdeps h1 h2 e he)
  | cell h1 h2 => exact fun e he => .inl (hdeps h1 h2 e he)
  | eval h1 h2 =>
    intro e he
    rcases List.mem_append.mp he with he | he
    · exact .inl (hdeps h1 h2 e he)
    · split at he
      · obtain rfl := List.mem_singleton.mp he
        obtain ⟨k1, k2⟩ := hmain h1
        exact .inr ⟨hmp, k1, k2⟩
      · cases he

theorem writeAll_cases (t : Nat) (w : List (MPath × Module C)) {p : MPath} {o : Module C} {t' : Nat} (h : (fs.writeAll t w).obj p = some (o, t')) :
    ((p, o) ∈ w ∧ t' = t) ∨ fs.obj p = some (o, t') := by
  induction w generalizing fs with
  | nil => exact .inr h
  | cons e w ih =>
    rcases ih (fs := fs.writeObj t e) h with ⟨h1, h2⟩ | h
    · exact .inl ⟨List.mem_cons_of_mem _ h1, h2⟩
    · simp only [FS.writeObj] at h
      split at h
      · rename_i hp
        cases h
        subst hp
        exact .inl ⟨List.mem_cons_self .., rfl⟩
      · exact .inr h

theorem session_inv (h : Session parse version lib fs clock) : SessionInv parse version lib fs clock := by
  induction h with
  | start h1 h2 h3 h4 => exact ⟨h2, (fun q o t h => by rw [h1] at h; cases h), h3, h4, (fun q _ o t h => by rw [h1] at h; cases h), (fun p o t _ h => by rw [h1] at h; cases h)⟩
  | @edit fs clock t p c _ hlt hp hok ih =>
    have hlib : ∀ q ∈ lib, (fs.edit t p c).src q = fs.src q := by
      intro q hq
      have : q ≠ p := fun e => hp (e ▸ hq)
      simp [FS.edit, this]
    have hL : LibrarySources parse lib (fs.edit t p c) := by
      refine ⟨fun q hq => by rw [hlib q hq]; exact ih.library.sources q hq, ?_⟩
      obtain ⟨rank, hr⟩ := ih.library.acyclic
      exact ⟨rank, fun q hq => by rw [hlib q hq]; exact hr q hq⟩
    refine ⟨fun q c' t' hs => ?_, fun q o t' h => (by have := ih.objTimes q o t' h; omega), hL, fun q c' t' hq hs => ?_, fun q hq o t' ho => ?_, ih.used⟩
    · simp only [FS.edit] at hs
      split at hs
      · cases hs; exact Nat.le_refl _
      · have := ih.times q c' t' hs; omega
    · simp only [FS.edit] at hs
      split at hs
      · cases hs; exact hok
      · exact ih.mains q c' t' hq hs
    · obtain ⟨c', tm, m, h1, h2, h3, h4, h5, h6, h7⟩ := ih.objects q hq o t' ho
      refine ⟨c', tm, m, by rw [hlib q hq]; exact h1, h2, h3, h4, h5, h6, ?_⟩
      refine result_lib (lib := lib) (fun r hr => ?_) (fun r hr m' hm' => ?_) h7 hq
      · simp only [fetchOf, loadDep, loadSource, hlib r hr, Bool.false_eq_true, if_false]
      · obtain ⟨c'', tm'', m'', e1, e2, e3⟩ := ih.library.sources r hr
        rw [fetchOf_source e1 e2] at hm'; cases hm'
        exact e3
  | @compile fs clock t useCache kv mp o w n _ hle hmp hc ih =>
    have hsrc : (fs.writeAll t (w.take n)).src = fs.src := writeAll_src fs t _
    have hfetch : fetchOf parse version false (fs.writeAll t (w.take n)) = fetchOf parse version false fs := by
      funext q
      simp only [fetchOf, loadDep, loadSource, hsrc, Bool.false_eq_true, if_false]
    have hw := ih.compile hmp hc
    refine ⟨fun p c t' h => Nat.le_trans (ih.times p c t' (by rw [← hsrc]; exact h)) hle, fun p o t' h => ?_, ⟨?_, ?_⟩, ?_, fun q hq o t' ho => ?_, fun p o t' hp ho => ?_⟩
    · rcases writeAll_cases t _ h with ⟨-, rfl⟩ | h
      · exact Nat.le_refl _
      · exact Nat.le_trans (ih.objTimes p o t' h) hle
    · rw [hsrc]; exact ih.library.sources
    · rw [hsrc]; exact ih.library.acyclic
    · rw [hsrc]; exact ih.mains
    · rw [hfetch, hsrc]
      rcases writeAll_cases t _ ho with ⟨h1, rfl⟩ | h
      · rcases hw _ (List.mem_of_mem_take h1) with ⟨-, c, tm, m, e1, e2, e3⟩ | ⟨h, -⟩
        · exact ⟨c, tm, m, e1, Nat.le_trans (ih.times _ _ _ e1) hle, e2, e3⟩
        · exact absurd hq h
      · exact ih.objects q hq o t' h
    · rcases writeAll_cases t _ ho with ⟨h1, rfl⟩ | h
      · rcases hw _ (List.mem_of_mem_take h1) with ⟨h, -⟩ | ⟨-, h⟩
        · exact absurd h hp
        · exact h
      · exact ih.used p o t' hp h
  | @delete fs clock p _ ih =>
    have hfetch : fetchOf parse version false ⟨fs.src, fun q => if q = p then none else fs.obj q⟩ = fetchOf parse version false fs := rfl
    refine ⟨ih.times, fun q o t ho => ?_, ⟨ih.library.sources, ih.library.acyclic⟩, ih.mains, fun q hq o t ho => ?_, fun q o t hq ho => ?_⟩
    · simp only at ho
      split at ho
      · cases ho
      · exact ih.objTimes q o t ho
    · rw [hfetch]
      simp only at ho
      split at ho
      · cases ho
      · exact ih.objects q hq o t ho
    · simp only at ho
      split at ho
      · cases ho
      · exact ih.used q o t hq ho

/-- C86, object files.  While the files that use a library are edited and compiled, the object files of the library stay up to date. -/
theorem C86_up_to_date (h : Session parse version lib fs clock) : ∀ q ∈ lib, UpToDate parse version fs q := (session_inv h).objects

end
end Verif.Cache
