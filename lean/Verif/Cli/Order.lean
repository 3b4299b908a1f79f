import Verif.Cli.KeyValues
import Verif.Cli.ModulesExample
import Verif.Cache.History
import Verif.Loader.Merge
import Verif.Parser.Code
import Verif.Sheet.Unused
/-
C101: the order of the definitions, and of the values given on the command line, does not matter.
-/
namespace Verif.Cli
open Verif.Ast Verif.Loader Verif.Sheet Verif.Cache Verif.Parser

/-- The function a statement defines. -/
def fnName? : Stmt → Option Text
  | .fn n _ _ => some n
  | _ => none

/-- The variable a statement defines. -/
def varName? : Stmt → Option Text
  | .var n _ => some n
  | _ => none

/-- Two scopes that define the same. -/
def SameDefs (sc sc' : Scope) : Prop := sc.functions = sc'.functions ∧ sc.variables = sc'.variables ∧ ∀ n, n ∈ sc.exports ↔ n ∈ sc'.exports

theorem SameDefs.symm {sc sc' : Scope} (h : SameDefs sc sc') : SameDefs sc' sc := ⟨h.1.symm, h.2.1.symm, fun n => (h.2.2 n).symm⟩

/-- If every element with a key `n` is the only one, the elements with the key are at most one. -/
theorem length_le_one {α : Type} {key : α → Option Text} {l : List α} (h : (l.filterMap key).Nodup) (n : Text) {β : Type} {f : α → Option β}
    (hf : ∀ a b, f a = some b → key a = some n) : (l.filterMap f).length ≤ 1 := by
  induction l with
  | nil => simp
  | cons a l ih =>
    have hl : (l.filterMap key).Nodup := by
      rw [List.filterMap_cons] at h
      split at h
      · exact h
      · exact (List.nodup_cons.mp h).2
    rw [List.filterMap_cons]
    split
    · exact ih hl
    · rename_i b hb
      have hk := hf a b hb
      rw [List.filterMap_cons, hk] at h
      have hn := (List.nodup_cons.mp h).1
      have : l.filterMap f = [] := by
        rw [List.filterMap_eq_nil_iff]
        intro a' ha'
        cases hb' : f a' with
        | none => rfl
        | some b' => exact absurd (List.mem_filterMap.mpr ⟨a', ha', hf a' b' hb'⟩) hn
      rw [this]; simp

theorem getLast?_perm {β : Type} {l l' : List β} (h : l.Perm l') (hl : l.length ≤ 1) : l.getLast? = l'.getLast? := by
  match l, hl with
  | [], _ => rw [List.nil_perm.mp h]
  | [a], _ => rw [List.singleton_perm.mp h]

/-- C101 for the code section: two code sections with the same definitions in a different order (and the same `use` statements), in which no function and no
variable is defined twice, define the same. -/
theorem C101_code (u : Uni) (F : F64) {ls ls' : List Line} (h : ∀ l ∈ ls, l.Ok u F) (h' : ∀ l ∈ ls', l.Ok u F) (hu : UsesFirst (stmts ls)) (hu' : UsesFirst (stmts ls'))
    (hp : (stmts ls).Perm (stmts ls')) (hm : (stmts ls).filterMap Stmt.module? = (stmts ls').filterMap Stmt.module?)
    (hf : ((stmts ls).filterMap fnName?).Nodup) (hv : ((stmts ls).filterMap varName?).Nodup) :
    ∃ sc sc' ms, parseCode u F (codeText ls) = .ok (sc, ms) ∧ parseCode u F (codeText ls') = .ok (sc', ms) ∧ SameDefs sc sc' := by
  obtain ⟨sc, h1, h2, h3, h4⟩ := C48_code_section_partial u F ls h hu
  obtain ⟨sc', h1', h2', h3', h4'⟩ := C48_code_section_partial u F ls' h' hu'
  refine ⟨sc, sc', _, h1, by rw [hm]; exact h1', ?_, ?_, ?_⟩
  · funext n
    rw [h2, h2']
    refine getLast?_perm (hp.filterMap _) (length_le_one hf n ?_)
    intro s b hs
    cases s <;> simp only [Stmt.function?, reduceCtorEq] at hs
    split at hs
    · rename_i e; rw [← e]; rfl
    · cases hs
  · funext n
    rw [h3, h3']
    refine getLast?_perm (hp.filterMap _) (length_le_one hv n ?_)
    intro s b hs
    cases s <;> simp only [Stmt.variable?, reduceCtorEq] at hs
    split at hs
    · rename_i e; rw [← e]; rfl
    · cases hs
  · intro n
    rw [h4, h4']
    exact ⟨fun ⟨s, hs, e⟩ => ⟨s, hp.mem_iff.mp hs, e⟩, fun ⟨s, hs, e⟩ => ⟨s, hp.mem_iff.mpr hs, e⟩⟩

/-! ## The evaluation -/

theorem effective_exports (sc : Scope) (es : List Text) (ext : Text → Option Ast) (s : Sheet) :
    effective ⟨sc.functions, sc.variables, es⟩ ext s = ⟨(effective sc ext s).functions, (effective sc ext s).variables, es⟩ := rfl

/-- The exports of a scope do not matter for the evaluation of a formula. -/
theorem eval_sameDefs {sc sc' : Scope} (hf : sc.functions = sc'.functions) (hv : sc.variables = sc'.variables) {pos : Option Addr} {a : Ast} {o : Outcome} :
    Eval sc pos a o ↔ Eval sc' pos a o :=
  eval_sameBut_iff (U := fun _ => False) ⟨fun x _ => by rw [hv], fun g _ => by rw [hf], fun _ _ _ _ _ _ _ h => h.elim, fun _ d _ _ => by cases d <;> first | trivial | exact fun _ h => h.elim⟩
    (fun _ h => h.elim) o

theorem evalRows_sameDefs {sc sc' : Scope} (hf : sc.functions = sc'.functions) (hv : sc.variables = sc'.variables) {rs : List Cell.Row} {o : Out (List Cell.Row)}
    (h : EvalRows sc rs o) : EvalRows sc' rs o :=
  EvalRows.mono h fun _ _ _ _ _ _ _ _ h => (eval_sameDefs hf hv).mp h

theorem evalSheet_sameDefs {sc sc' : Scope} (h : SameDefs sc sc') {ext : Text → Option Ast} {s : Sheet} {o : Out Sheet} (he : EvalSheet sc ext s o) :
    EvalSheet sc' ext s o := by
  rw [evalSheet_iff] at he ⊢
  obtain ⟨h1, h2, s₁, o', h4, h5, h6⟩ := he
  refine ⟨h.2.1 ▸ h1, h2, s₁, o', h4, evalRows_sameDefs ?_ ?_ h5, h6⟩
  · exact h.1
  · funext k
    show (sc.variables k).or _ = (sc'.variables k).or _
    rw [h.2.1]

/-! ## The loader -/

theorem steps_congr {fetch fetch' : MPath → Except LoadError Mod} {main : Mod} (hfe : ∀ p, Reach fetch main p → fetch p = fetch' p) {n : Nat} {s : St}
    (h : Steps fetch (init main) n s) : Steps fetch' (init main) n s := by
  generalize hi : init main = i at h
  induction h with
  | refl => exact .refl
  | @tail t u n hst hs ih =>
    subst hi
    have hI := inv_steps inv_init hst
    refine .tail ih ?_
    cases hs with
    | @read i p hp =>
      have : Reach fetch main p := hI.reach p ((hI.attempted p).mpr (List.mem_map.mpr ⟨_, List.mem_of_getElem? hp, rfl⟩))
      rw [hfe p this]
      exact .read hp
    | fail hp => exact .fail hp
    | spawn hp => exact .spawn hp
    | insert hp hj => exact .insert hp hj

theorem merge_sameDefs {sc sc' : Scope} (h : SameDefs sc sc') (d : Scope) : SameDefs (sc.merge d d.exports) (sc'.merge d d.exports) := by
  have key : ∀ (es : List Text) (sc sc' : Scope), SameDefs sc sc' → SameDefs (sc.merge d es) (sc'.merge d es) := by
    intro es
    induction es with
    | nil => exact fun _ _ h => h
    | cons e es ih =>
      intro sc sc' h
      refine ih _ _ ?_
      obtain ⟨fs, vs, ex⟩ := sc
      obtain ⟨fs', vs', ex'⟩ := sc'
      obtain ⟨h1, h2, h3⟩ := h
      dsimp only at h1 h2
      subst h1 h2
      simp only [Scope.mergeOne]
      cases d.functions e <;> cases d.variables e <;> dsimp only <;> repeat' split
      all_goals exact ⟨rfl, rfl, h3⟩
  exact key _ _ _ h

theorem mergeDirect_sameDefs {sc sc' : Scope} (h : SameDefs sc sc') (loaded : List (MPath × Mod)) (ps : List MPath) :
    (mergeDirect sc loaded ps = none → mergeDirect sc' loaded ps = none) ∧
    ∀ r, mergeDirect sc loaded ps = some r → ∃ r', mergeDirect sc' loaded ps = some r' ∧ SameDefs r r' := by
  induction ps generalizing sc sc' loaded with
  | nil => exact ⟨(fun h => by cases h), fun r hr => ⟨sc', rfl, by cases hr; exact h⟩⟩
  | cons p ps ih =>
    simp only [mergeDirect]
    cases loaded.lookup p with
    | none => exact ⟨fun _ => rfl, fun _ h => by cases h⟩
    | some m => exact ih (merge_sameDefs h _) _

/-- The outcome of the loader for the one and for the other. -/
def LOutSame : LOut → LOut → Prop
  | .ok sc, o => ∃ sc', o = .ok sc' ∧ SameDefs sc sc'
  | o, o' => o' = o

theorem loadMainW_sameDefs {fetch fetch' : MPath → Except LoadError Mod} {mainPath : MPath} {main main' : Mod} (hr : main'.required = main.required)
    (hs : SameDefs main.scope main'.scope) (hfe : ∀ p, Reach fetch main p → fetch p = fetch' p) {w : List (MPath × Scope)} {o : LOut}
    (h : LoadMainW fetch mainPath main w o) : ∃ o', LoadMainW fetch' mainPath main' w o' ∧ LOutSame o o' := by
  have hst : ∀ {n s}, Steps fetch (init main) n s → Steps fetch' (init main') n s := by
    intro n s h
    have : init main' = init main := by simp only [init, hr]
    rw [this]; exact steps_congr hfe h
  cases h with
  | stuck h1 h2 h3 h4 => exact ⟨.stuck, .stuck (hst h1) h2 h3 (by rw [hr]; exact h4), rfl⟩
  | eval h1 h2 h3 h4 h5 h6 h7 =>
    rw [← hr] at h4 h5 h6
    cases h7 with
    | err => exact ⟨_, .eval (hst h1) h2 h3 h4 h5 h6 .err, rfl⟩
    | panic => exact ⟨_, .eval (hst h1) h2 h3 h4 h5 h6 .panic, rfl⟩
    | missing => exact ⟨_, .eval (hst h1) h2 h3 h4 h5 h6 .missing, rfl⟩
    | failures hne => exact ⟨_, .eval (hst h1) h2 h3 h4 h5 h6 (.failures hne), rfl⟩
    | unwrapNone he hm =>
      have := (mergeDirect_sameDefs hs _ _).1 hm
      rw [← hr] at this
      exact ⟨_, .eval (hst h1) h2 h3 h4 h5 h6 (.unwrapNone he this), rfl⟩
    | ok he hm =>
      obtain ⟨r', hm', hsd⟩ := (mergeDirect_sameDefs hs _ _).2 _ hm
      rw [← hr] at hm'
      exact ⟨_, .eval (hst h1) h2 h3 h4 h5 h6 (.ok he hm'), _, rfl, hsd⟩

/-! ## The compilation -/

theorem loadSource_eq {C : Type} {parse : C → Except LoadError Parsed} {version : Nat} {fs : FS C} {p : MPath} {c : C} {t : Nat} (h : fs.src p = some (c, t)) :
    loadSource parse version fs p = (parse c).map fun m => ⟨version, m.required, m.scope, m.sheet, c, false, true⟩ := by
  rw [loadSource, h]
  cases hp : parse c <;> simp only [hp] <;> rfl

/-- The compilations of two versions of a file without an object file that define the same and have the same sheet, and that no other module uses, end alike. -/
theorem compile_sameDefs {C : Type} {parse : C → Except LoadError Parsed} {version : Nat} {useCache : Bool} {kv : Text → Option Ast} {fs fs' : FS C}
    {mainPath : MPath} {c c' : C} {t t' : Nat} (hc : fs.src mainPath = some (c, t)) (hc' : fs'.src mainPath = some (c', t'))
    (ho : fs.obj mainPath = none) (ho' : fs'.obj mainPath = none) (hfs : ∀ p, p ≠ mainPath → fs.src p = fs'.src p ∧ fs.obj p = fs'.obj p)
    (herr : (∃ e, parse c = .error e) → ∃ e, parse c' = .error e)
    (hok : ∀ m, parse c = .ok m → ∃ m', parse c' = .ok m' ∧ m'.required = m.required ∧ m'.sheet = m.sheet ∧ SameDefs m.scope m'.scope ∧
      ¬ Reach (fetchOf parse version useCache fs) ⟨m.required, m.scope, false, true⟩ mainPath)
    {o : COut} {w : List (MPath × Module C)} (h : Compile parse version useCache kv fs mainPath o w) : ∃ w', Compile parse version useCache kv fs' mainPath o w' := by
  have hl : loadMainModule parse version fs mainPath = (parse c).map fun m => ⟨version, m.required, m.scope, m.sheet, c, false, true⟩ := by
    rw [loadMainModule, ho]; exact loadSource_eq hc
  have hl' : loadMainModule parse version fs' mainPath = (parse c').map fun m => ⟨version, m.required, m.scope, m.sheet, c', false, true⟩ := by
    rw [loadMainModule, ho']; exact loadSource_eq hc'
  have hfetch : ∀ p, p ≠ mainPath → fetchOf parse version useCache fs p = fetchOf parse version useCache fs' p := by
    intro p hp
    simp only [fetchOf, loadDep, loadCached, loadSource, checkDirty, (hfs p hp).1, (hfs p hp).2]
  cases hp : parse c with
  | error e =>
    obtain ⟨e', he'⟩ := herr ⟨e, hp⟩
    rw [hp] at hl
    rw [he'] at hl'
    have hl2 : loadMainModule parse version fs mainPath = .error e := hl
    cases h with
    | main _ => exact ⟨_, .main hl'⟩
    | deps h1 | cached h1 | fills h1 | cell h1 | eval h1 => rw [hl2] at h1; cases h1
  | ok m =>
    obtain ⟨m', hm', hr, hs, hsd, hnr⟩ := hok m hp
    have hl2 : loadMainModule parse version fs mainPath = .ok ⟨version, m.required, m.scope, m.sheet, c, false, true⟩ := by rw [hl, hp]; rfl
    have hl2' : loadMainModule parse version fs' mainPath = .ok ⟨version, m'.required, m'.scope, m'.sheet, c', false, true⟩ := by rw [hl', hm']; rfl
    have hload : ∀ {w o}, LoadMainW (fetchOf parse version useCache fs) mainPath ⟨m.required, m.scope, false, true⟩ w o →
        ∃ o', LoadMainW (fetchOf parse version useCache fs') mainPath ⟨m'.required, m'.scope, false, true⟩ w o' ∧ LOutSame o o' := by
      intro w o h
      exact loadMainW_sameDefs (main := ⟨m.required, m.scope, false, true⟩) (main' := ⟨m'.required, m'.scope, false, true⟩) hr hsd
        (fun p hpr => hfetch p fun e => hnr (e ▸ hpr)) h
    cases h with
    | main h1 => rw [hl2] at h1; cases h1
    | @deps _ w lo _ h1 h2 h3 =>
      rw [hl2] at h1; cases h1
      obtain ⟨o', h4, h5⟩ := hload h2
      refine ⟨_, .deps hl2' h4 ?_⟩
      cases lo with
      | ok sc => cases h3
      | _ => rw [show o' = _ from h5]; exact h3
    | cached h1 h2 h3 => rw [hl2] at h1; cases h1; cases h3
    | fills h1 h2 h3 h4 =>
      rw [hl2] at h1; cases h1
      obtain ⟨o', h5, sc', rfl, h6⟩ := hload h2
      exact ⟨_, .fills hl2' h5 rfl (by rw [show _ = _ from hs]; exact h4)⟩
    | cell h1 h2 h3 h4 =>
      rw [hl2] at h1; cases h1
      obtain ⟨o', h5, sc', rfl, h6⟩ := hload h2
      exact ⟨_, .cell hl2' h5 rfl (by rw [show _ = _ from hs]; exact evalSheet_sameDefs h6 h4)⟩
    | @eval _ _ sc s₁ sheet own e own' rows h1 h2 h3 h4 h5 h6 h7 h8 h9 =>
      rw [hl2] at h1; cases h1
      obtain ⟨o', h10, sc', rfl, h11⟩ := hload h2
      have hmv : (mergeVariables sc sheet own).variables = (mergeVariables sc' sheet own).variables := rfl
      refine ⟨_, .eval (s₁ := s₁) (sheet := sheet) (own := own) (e := e) (own' := own') (rows := rows) hl2' h10 rfl (by rw [show _ = _ from hs]; exact h4) h5 (h11.2.1 ▸ h6) h7
        (hmv ▸ h8) (evalRows_sameDefs ?_ ?_ h9)⟩
      · exact h11.1
      · rfl

theorem reach_congr {fetch fetch' : MPath → Except LoadError Mod} {main main' : Mod} {mainPath : MPath} (hr : main'.required = main.required)
    (hfe : ∀ p, p ≠ mainPath → fetch p = fetch' p) (hn : ¬ Reach fetch main mainPath) {p : MPath} (h : Reach fetch' main' p) : Reach fetch main p := by
  induction h with
  | direct h => exact .direct (hr ▸ h)
  | @indirect p q m _ h2 h3 ih => exact .indirect ih (by rw [hfe q fun e => hn (e ▸ ih)]; exact h2) h3

/-- The two source files have the same definitions, in an order of their own, and the same cells section. -/
structure Reordered (E : Cell.Env) (ls ls' : List Line) (csv src src' : Text) : Prop where
  file : ModuleFile E ls csv src
  file' : ModuleFile E ls' csv src'
  lines : (Source.SourceCode.new src).lenCode = (Source.SourceCode.new src').lenCode
  same : (stmts ls).Perm (stmts ls')
  uses : usedBy (stmts ls) = usedBy (stmts ls')
  functions : ((stmts ls).filterMap fnName?).Nodup
  vars : ((stmts ls).filterMap varName?).Nodup

theorem Reordered.symm {E : Cell.Env} {ls ls' : List Line} {csv src src' : Text} (h : Reordered E ls ls' csv src src') : Reordered E ls' ls csv src' src :=
  ⟨h.file', h.file, h.lines.symm, h.same.symm, h.uses.symm, (h.same.filterMap _).nodup_iff.mp h.functions, (h.same.filterMap _).nodup_iff.mp h.vars⟩

/-- C101 for source files: the files give the same sheet, or both are rejected. -/
theorem C101_parse {E : Cell.Env} {ls ls' : List Line} {csv src src' : Text} (h : Reordered E ls ls' csv src src') :
    ((∃ e, parseModule E src = .error e) → ∃ e, parseModule E src' = .error e) ∧
    ∀ m, parseModule E src = .ok m → ∃ m', parseModule E src' = .ok m' ∧ m.required = usedBy (stmts ls) ∧ m'.required = m.required ∧ m'.sheet = m.sheet ∧
      SameDefs m.scope m'.scope := by
  obtain ⟨c1, c2⟩ := h.file.split
  obtain ⟨c1', c2'⟩ := h.file'.split
  obtain ⟨sc, sc', ms, p1, p2, p3⟩ := C101_code E.uni E.f64 h.file.lines h.file'.lines h.file.uses h.file'.uses h.same h.uses h.functions h.vars
  obtain ⟨sc₀, q1, -⟩ := C48_code_section_partial E.uni E.f64 ls h.file.lines h.file.uses
  have hms : ms = usedBy (stmts ls) := by rw [q1] at p1; cases p1; rfl
  simp only [parseModule, c1, c1', parseScope, p1, p2, c2, c2', ← h.lines]
  cases Sheet.parse E csv (Source.SourceCode.new src).lenCode with
  | error e => exact ⟨fun _ => ⟨_, rfl⟩, fun m h => by cases h⟩
  | ok sheet => exact ⟨(fun ⟨e, h⟩ => by cases h), fun m h => by cases h; exact ⟨_, rfl, hms, rfl, rfl, p3⟩⟩

/-- C101.  If the definitions of a file are written in a different order, where no function and no variable is defined twice, compiling gives the same
outcomes: the same sheets, or failure.  The file has no object file, and none of the modules it uses uses it. -/
theorem C101_definitions {E : Cell.Env} (version : Nat) (useCache : Bool) (kv : Text → Option Ast) {ls ls' : List Line} {csv src src' : Text}
    (h : Reordered E ls ls' csv src src') {fs : FS Text} {mp : MPath} {t : Nat} (t' : Nat) (hsrc : fs.src mp = some (src, t)) (hobj : fs.obj mp = none)
    (hn : ∀ m, parseModule E src = .ok m → ¬ Reach (fetchOf (parseModule E) version useCache fs) ⟨m.required, m.scope, false, true⟩ mp) (o : COut) :
    (∃ w, Compile (parseModule E) version useCache kv fs mp o w) ↔ ∃ w, Compile (parseModule E) version useCache kv (fs.edit t' mp src') mp o w := by
  have hsrc' : (fs.edit t' mp src').src mp = some (src', t') := if_pos rfl
  have hfs : ∀ p, p ≠ mp → fs.src p = (fs.edit t' mp src').src p ∧ fs.obj p = (fs.edit t' mp src').obj p := fun p hp => ⟨(if_neg hp).symm, rfl⟩
  have hfetch : ∀ p, p ≠ mp → fetchOf (parseModule E) version useCache fs p = fetchOf (parseModule E) version useCache (fs.edit t' mp src') p := by
    intro p hp
    simp only [fetchOf, loadDep, loadCached, loadSource, checkDirty, (hfs p hp).1, (hfs p hp).2]
  constructor
  · rintro ⟨w, hw⟩
    refine compile_sameDefs hsrc hsrc' hobj hobj hfs (C101_parse h).1 (fun m hm => ?_) hw
    obtain ⟨m', h1, -, h2, h3, h4⟩ := (C101_parse h).2 m hm
    exact ⟨m', h1, h2, h3, h4, hn m hm⟩
  · rintro ⟨w, hw⟩
    refine compile_sameDefs hsrc' hsrc hobj hobj (fun p hp => ⟨(hfs p hp).1.symm, (hfs p hp).2.symm⟩) (C101_parse h.symm).1 (fun m hm => ?_) hw
    obtain ⟨m', h1, -, h2, h3, h4⟩ := (C101_parse h.symm).2 m hm
    exact ⟨m', h1, h2, h3, h4, fun hr => hn m' h1 (reach_congr (main := ⟨m'.required, m'.scope, false, true⟩) h2.symm hfetch (hn m' h1) hr)⟩

/-! ## The values given with `-k` -/

theorem collect_iff {l : List (Text × Ast)} (h : (l.map (·.1)).Nodup) (k : Text) (v : Ast) : collect l k = some v ↔ (k, v) ∈ l := by
  induction l using List.reverseRecOn with
  | nil => simp [collect]
  | append_singleton l p ih =>
    rw [List.map_append, List.nodup_append] at h
    obtain ⟨h1, -, h2⟩ := h
    rw [collect_snoc, List.mem_append, ← ih h1]
    by_cases hk : k = p.1
    · rw [if_pos hk]
      have hno : collect l k = none := collect_none l k fun q hq e => h2 q.1 (List.mem_map_of_mem hq) p.1 (by simp) (e.trans hk)
      rw [hno]
      constructor
      · intro e; cases e; exact .inr (by rw [hk]; exact List.mem_singleton.mpr rfl)
      · rintro (e | e)
        · cases e
        · rw [← List.mem_singleton.mp e]
    · rw [if_neg hk]
      refine ⟨.inl, ?_⟩
      rintro (e | e)
      · exact e
      · exact absurd (congrArg Prod.fst (List.mem_singleton.mp e)) hk

theorem collect_perm {l l' : List (Text × Ast)} (h : l.Perm l') (hn : (l.map (·.1)).Nodup) : collect l = collect l' := by
  funext k
  apply Option.ext
  intro v
  rw [collect_iff hn, collect_iff ((h.map _).nodup_iff.mp hn), h.mem_iff]

/-- The name that an argument of `-k` gives a value. -/
def keyOf (arg : Text) : Text := arg.takeWhile (· != '=')

theorem values_perm {E : Cell.Env} {args args' : List Text} (hp : args.Perm args') (hk : (args.map keyOf).Nodup) :
    (Parser.parseKeyValues E.uni E.f64 args = none → Parser.parseKeyValues E.uni E.f64 args' = none) ∧
    ∀ l, Parser.parseKeyValues E.uni E.f64 args = some l → ∃ l', Parser.parseKeyValues E.uni E.f64 args' = some l' ∧ collect l = collect l' := by
  have one : ∀ {args args' : List Text} {l}, args.Perm args' → Parser.parseKeyValues E.uni E.f64 args = some l →
      ∃ l', Parser.parseKeyValues E.uni E.f64 args' = some l' ∧ l'.Perm l := by
    intro args args' l hp h
    obtain ⟨l', h1, h2⟩ := List.perm_comp_forall₂ hp.symm ((C81_values E args l).mp h)
    exact ⟨l', (C81_values E args' l').mpr h1, h2⟩
  refine ⟨fun h => ?_, fun l h => ?_⟩
  · cases h' : Parser.parseKeyValues E.uni E.f64 args' with
    | none => rfl
    | some l' => obtain ⟨l, h1, -⟩ := one hp.symm h'; rw [h] at h1; cases h1
  · obtain ⟨l', h1, h2⟩ := one hp h
    refine ⟨l', h1, collect_perm h2.symm ?_⟩
    have : l.map (·.1) = args.map keyOf := by
      have hf := (C81_values E args l).mp h
      clear h h1 h2 hp hk
      induction hf with
      | nil => rfl
      | @cons arg d _ _ hg _ ih =>
        obtain ⟨v, rfl, hn, -⟩ := hg
        have : keyOf (d.1 ++ '=' :: v) = d.1 := by
          have := span_eq (v := v) hn
          rw [List.span_eq_takeWhile_dropWhile] at this
          exact congrArg Prod.fst this
        simp only [List.map_cons, ih, this]
    rw [this]; exact hk

/-- C101 for the command line: the order of the `-k` arguments does not matter if they are for different names. -/
theorem C101_values (E : Cell.Env) (a : Args) {kvs : List Text} (hp : a.keyValues.Perm kvs) (hk : (a.keyValues.map keyOf).Nodup) :
    configured E a = configured E { a with keyValues := kvs } := by
  obtain ⟨h1, h2⟩ := values_perm (E := E) hp hk
  simp only [configured]
  cases h : Parser.parseKeyValues E.uni E.f64 a.keyValues with
  | none => simp only [h1 h]
  | some l =>
    obtain ⟨l', h3, h4⟩ := h2 l h
    simp only [h3, h4]

/-- C101 for runs of the program: with the `-k` arguments in a different order it does the same. -/
theorem C101_run (E : Cell.Env) (version : Nat) (ts : List Text) (partials : Text → List Text) (cuts : List Nat) (a : Args) {kvs : List Text} (fs : FS Text)
    (files : Target.Files Text) (hp : a.keyValues.Perm kvs) (hk : (a.keyValues.map keyOf).Nodup) {e : Option Target.Exit} {states : List (Target.Files Text)}
    {w : List (MPath × Cache.Module Text)} (h : Main E version ts partials cuts a fs files e states w) :
    Main E version ts partials cuts { a with keyValues := kvs } fs files e states w := by
  have hc := C101_values E a hp hk
  cases h with
  | badArgs h1 => exact .badArgs (hc ▸ h1)
  | noName h1 h2 => exact .noName (hc ▸ h1) h2
  | failed h1 h2 h3 h4 => exact .failed (hc ▸ h1) h2 h3 h4
  | panics h1 h2 h3 => exact .panics (hc ▸ h1) h2 h3
  | hangs h1 h2 h3 => exact .hangs (hc ▸ h1) h2 h3
  | compiled h1 h2 h3 => exact .compiled (hc ▸ h1) h2 h3

/-! ## Examples -/

def swappedText : Text := "y := (x + k) # uses x\nx := 1\n---\n=(y * z),ok\n".toList

theorem swapped (E : Cell.Env) : Reordered E codeLines codeLines.reverse "=(y * z),ok".toList programText swappedText := by
  have h := program_file E
  refine ⟨⟨h.lines, usesFirst_of h.uses, h.separator, h.codeCr, h.csvCr, h.text⟩, ⟨fun l hl => h.lines l (List.mem_reverse.mp hl), ⟨(fun m hm => ?_), (fun m hm => ?_), trivial⟩,
    by decide +kernel, by decide +kernel, by decide, "=(y * z),ok\n".toList, .inl (by decide), by decide +kernel⟩, by decide +kernel, .swap _ _ _, rfl, by decide, by decide⟩
  · simp at hm
  · cases hm

/-- C101 on the example: `y`, defined with `x`, may stand before or after it. -/
example (E : Cell.Env) (version : Nat) (kv : Text → Option Ast) (o : COut) :
    (∃ w, Compile (parseModule E) version true kv (exampleFs programText) ["sheet".toList] o w) ↔
      ∃ w, Compile (parseModule E) version true kv ((exampleFs programText).edit 8 ["sheet".toList] swappedText) ["sheet".toList] o w := by
  refine C101_definitions version true kv (swapped E) 8 (t := 7) rfl rfl (fun m hm hr => ?_) o
  obtain ⟨m', -, h1, -⟩ := (C101_parse (swapped E)).2 m hm
  have hnil : ∀ p, ¬ Reach (fetchOf (parseModule E) version true (exampleFs programText)) ⟨m.required, m.scope, false, true⟩ p := by
    intro p hr
    induction hr with
    | direct h => rw [show _ = _ from h1] at h; cases h
    | indirect _ _ _ ih => exact ih
  exact hnil _ hr

/-- C101 on the command line. -/
example (E : Cell.Env) : configured E (exampleArgs true ["k=2".toList, "z=k".toList]) = configured E (exampleArgs true ["z=k".toList, "k=2".toList]) :=
  C101_values E (exampleArgs true ["k=2".toList, "z=k".toList]) (.swap _ _ _) (by decide)

end Verif.Cli
