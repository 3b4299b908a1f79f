import Verif.Ast.Unused
import Verif.Sheet.Rename
/-
Definitions that are not used, and the order of definitions: the sheet (C99, C101).
-/
namespace Verif.Sheet
open Verif.Ast Verif.Cell

section
variable {sc sc' : Scope}

theorem EvalCells.mono {y x : Nat} {cs : List Cell} {o : Out (List Cell)} (h : EvalCells sc y x cs o)
    (hm : ∀ c ∈ cs, ∀ a, c.ast = some a → ∀ pos o, Eval sc pos a o → Eval sc' pos a o) : EvalCells sc' y x cs o := by
  induction h with
  | nil => exact .nil
  | value hc _ ih => exact .value hc (ih fun c hc => hm c (by simp [hc]))
  | formula hc he _ ih => exact .formula hc (hm _ (by simp) _ hc _ _ he) (ih fun c hc => hm c (by simp [hc]))
  | err hc he => exact .err hc (hm _ (by simp) _ hc _ _ he)
  | panic hc he => exact .panic hc (hm _ (by simp) _ hc _ _ he)

theorem EvalRow.mono {y : Nat} {r : Row} {o : Out Row} (h : EvalRow sc y r o)
    (hm : ∀ c ∈ r.cells, ∀ a, c.ast = some a → ∀ pos o, Eval sc pos a o → Eval sc' pos a o) : EvalRow sc' y r o := by
  obtain ⟨o', h1, h2⟩ := h
  exact ⟨o', EvalCells.mono h1 hm, h2⟩

theorem EvalAll.mono {y : Nat} {rs rs' : List Row} (h : EvalAll sc y rs rs')
    (hm : ∀ r ∈ rs, ∀ c ∈ r.cells, ∀ a, c.ast = some a → ∀ pos o, Eval sc pos a o → Eval sc' pos a o) : EvalAll sc' y rs rs' := by
  induction h with
  | nil => exact .nil
  | cons h1 _ ih => exact .cons (EvalRow.mono h1 (hm _ (by simp))) (ih fun r hr => hm r (by simp [hr]))

/-- If each formula has the same outcomes with other definitions, so have the rows. -/
theorem EvalRows.mono {rs : List Row} {o : Out (List Row)} (h : EvalRows sc rs o)
    (hm : ∀ r ∈ rs, ∀ c ∈ r.cells, ∀ a, c.ast = some a → ∀ pos o, Eval sc pos a o → Eval sc' pos a o) : EvalRows sc' rs o := by
  cases h with
  | ok h => exact .ok (EvalAll.mono h hm)
  | err h1 h2 => exact .err h1 (EvalRow.mono h2 (hm _ (List.mem_of_getElem? h1)))
  | panic h1 h2 => exact .panic h1 (EvalRow.mono h2 (hm _ (List.mem_of_getElem? h1)))

theorem expandLoop_cells {left n : Nat} {rows : List Row} {r : Row} (h : r ∈ expandLoop left n rows) : ∃ r' ∈ rows, r.cells = r'.cells := by
  induction rows generalizing n with
  | nil => cases h
  | cons q rs ih =>
    simp only [expandLoop] at h
    split at h
    · rcases List.mem_append.mp h with h | h
      · exact ⟨q, by simp, by rw [(List.mem_replicate.mp h).2]⟩
      · obtain ⟨r', h1, h2⟩ := ih h
        exact ⟨r', by simp [h1], h2⟩
    · rcases List.mem_cons.mp h with rfl | h
      · exact ⟨r, by simp, rfl⟩
      · obtain ⟨r', h1, h2⟩ := ih h
        exact ⟨r', by simp [h1], h2⟩

theorem evalFills_cells {s s₁ : Sheet} (h : evalFills s = some s₁) {r : Row} (hr : r ∈ s₁.rows) : ∃ r' ∈ s.rows, r.cells = r'.cells := by
  simp only [evalFills] at h
  split at h
  · cases h; exact ⟨r, hr, rfl⟩
  · split at h
    · cases h
    · cases h; exact expandLoop_cells hr

/-- The value of a definition uses what the definition uses, or a cell. -/
theorem resolve_without {U : Name → Prop} (hA : ∀ r : A1, ¬ U (.v r.text)) {pos : Option Addr} {d v : Ast} (hd : Without U d) (h : resolve pos d = some v) :
    Without U v := by
  have cell : ∀ r : A1, Without U (.ref r.text) := by
    intro r n hn hu
    cases n with
    | v x => simp only [Uses, refNames, List.mem_singleton] at hu; subst hu; exact hA r hn
    | f g => simp [Uses, callNames] at hu
  cases d with
  | var m a => cases h; exact fun n hn hu => hd n hn (by cases n <;> exact hu)
  | cellVar m c =>
    simp only [resolve, CellVal.intoAst] at h
    cases pos with
    | none => cases c <;> simp only [Option.some.injEq, reduceCtorEq] at h <;> subst h
              · exact cell (.cell _)
              · exact cell _
    | some p =>
      cases c with
      | absolute a => cases h; exact cell (.cell _)
      | columnRelative x f =>
        dsimp only at h
        split at h
        · cases h; exact cell (.cell _)
        · cases h; exact cell _
      | row r => cases h; exact cell _
      | rowRelative x f =>
        dsimp only at h
        split at h <;> (cases h; exact cell _)
  | _ => cases h; exact hd

/-- The two tables are the same but for the names `U`, which the other definitions in them do not use. -/
def TableBut (U : Name → Prop) (m m' : Text → Option Ast) : Prop := ∀ x, ¬ U (.v x) → m x = m' x ∧ ∀ d, m x = some d → Without U d

theorem sheetVars_cellVar {s : Sheet} {x : Text} {d : Ast} (h : sheetVars s x = some d) : ∃ n v, d = .cellVar n v := by
  have key : ∀ l : List (Text × CellVal), ∀ d, collect (l.map fun p => (p.1, .cellVar p.1 p.2)) x = some d → ∃ n v, d = .cellVar n v := by
    intro l
    induction l using List.reverseRecOn with
    | nil => intro d h; cases h
    | append_singleton l p ih =>
      intro d h
      simp only [List.map_append, List.map_cons, List.map_nil, collect_snoc] at h
      split at h
      · cases h; exact ⟨_, _, rfl⟩
      · exact ih d h
  exact key _ d h

theorem effective_sameBut {U : Name → Prop} (hA : ∀ r : A1, ¬ U (.v r.text)) {ext ext' : Text → Option Ast} (hv : TableBut U sc.variables sc'.variables)
    (he : TableBut U ext ext') (hf : ∀ g, ¬ U (.f g) → sc.functions g = sc'.functions g ∧ ∀ d, sc.functions g = some d → FnWithout U d) (s : Sheet)
    (pos : Option Addr) : SameBut U pos (effective sc ext s) (effective sc' ext' s) := by
  refine ⟨fun x hx => ?_, fun g hg => (hf g hg).1, fun x d v hx hd hr => ?_, fun g d hg hd => (hf g hg).2 d hd⟩
  · show (sc.variables x).or ((sheetVars s x).or (ext x)) = (sc'.variables x).or ((sheetVars s x).or (ext' x))
    rw [(hv x hx).1, (he x hx).1]
  · have hd' : (sc.variables x).or ((sheetVars s x).or (ext x)) = some d := hd
    refine resolve_without hA ?_ hr
    cases h1 : sc.variables x with
    | some d' => rw [h1] at hd'; cases hd'; exact (hv x hx).2 d h1
    | none =>
      rw [h1, Option.none_or] at hd'
      cases h2 : sheetVars s x with
      | some d' =>
        rw [h2] at hd'; cases hd'
        obtain ⟨n, v, rfl⟩ := sheetVars_cellVar h2
        intro n hn hu
        cases n <;> simp [Uses, refNames, callNames] at hu
      | none => rw [h2, Option.none_or] at hd'; exact (he x hx).2 d hd'

/-- C99: definitions in the code section and on the command line that are used nowhere else (neither in a formula nor in another definition, but as a parameter
they may be) and are not called like a cell do not matter: adding, removing or changing them leaves all outcomes as they are. -/
theorem C99_unused (U : Name → Prop) (hA : ∀ r : A1, ¬ U (.v r.text)) {ext ext' : Text → Option Ast} (hv : TableBut U sc.variables sc'.variables)
    (he : TableBut U ext ext') (hf : ∀ g, ¬ U (.f g) → sc.functions g = sc'.functions g ∧ ∀ d, sc.functions g = some d → FnWithout U d) {s : Sheet}
    (hs : ∀ x y f, formulaAt s x y = some f → Without U f) (h2 : ∃ own, IsEnum own sc'.variables) (h3 : ∃ e, IsEnum e ext') (o : Out Sheet)
    (h : EvalSheet sc ext s o) : EvalSheet sc' ext' s o := by
  rw [evalSheet_iff] at h ⊢
  obtain ⟨-, -, s₁, o', h4, h5, h6⟩ := h
  refine ⟨h2, h3, s₁, o', h4, EvalRows.mono h5 fun r hr c hc a ha pos o he' => ?_, h6⟩
  obtain ⟨r', hr', e⟩ := evalFills_cells h4 hr
  obtain ⟨y, hy⟩ := List.getElem?_of_mem hr'
  obtain ⟨x, hx⟩ := List.getElem?_of_mem (e ▸ hc)
  exact (eval_sameBut_iff (effective_sameBut hA hv he hf s₁ pos) (hs x y a (formulaAt_some.mpr ⟨r', c, hy, hx, ha⟩)) o).mp he'

end

/-- C99 for one variable: a variable that nothing uses can be added to the code section. -/
theorem C99_variable {sc : Scope} {ext : Text → Option Ast} {s : Sheet} {x : Text} (d : Ast) (hx : ∀ r : A1, r.text ≠ x)
    (hv : ∀ y e, sc.variables y = some e → x ∉ refNames e) (he : ∀ y e, ext y = some e → x ∉ refNames e)
    (hf : ∀ g nm ps body, sc.functions g = some (.fn nm ps body) → x ∈ refNames body → x ∈ ps) (hfn : ∀ g d, sc.functions g = some d → ∃ nm ps body, d = .fn nm ps body)
    (hs : ∀ i j f, formulaAt s i j = some f → x ∉ refNames f) (hn : sc.variables x = none) (o : Out Sheet) :
    EvalSheet (sc.defineVariable x (.var x d)) ext s o ↔ EvalSheet sc ext s o := by
  have hU : ∀ {a : Ast}, x ∉ refNames a → Without (fun n => n = .v x) a := by
    rintro a ha n rfl; exact ha
  have hF : ∀ g d, sc.functions g = some d → FnWithout (fun n => n = .v x) d := by
    intro g d hd
    obtain ⟨nm, ps, body, rfl⟩ := hfn g d hd
    rintro n rfl hu
    exact ⟨x, hf g nm ps body hd hu, rfl⟩
  have hne : ∀ y, ¬ (Name.v y = Name.v x) → ((sc.defineVariable x (.var x d)).variables y) = sc.variables y := by
    intro y hy
    show (if y = x then _ else _) = _
    rw [if_neg fun e => hy (by rw [e])]
  have key : ∀ {sc₁ sc₂ : Scope}, (∀ y, ¬ (Name.v y = Name.v x) → sc₁.variables y = sc₂.variables y ∧ sc₁.variables y = sc.variables y) →
      sc₁.functions = sc.functions → sc₂.functions = sc.functions → (∃ own, IsEnum own sc₂.variables) → EvalSheet sc₁ ext s o → EvalSheet sc₂ ext s o := by
    intro sc₁ sc₂ h1 h2 h3 h4 h
    refine C99_unused (fun n => n = .v x) (fun r e => hx r (Name.v.inj e)) (fun y hy => ⟨(h1 y hy).1, fun e he' => hU (hv y e (by rw [← (h1 y hy).2]; exact he'))⟩)
      (fun y _ => ⟨rfl, fun e he' => hU (he y e he')⟩) (fun g _ => ⟨by rw [h2, h3], fun d hd => hF g d (by rw [← h2]; exact hd)⟩)
      (fun i j f h => hU (hs i j f h)) h4 (evalSheet_iff.mp h).2.1 o h
  constructor
  · intro h
    refine key (fun y hy => ⟨hne y hy, hne y hy⟩) rfl rfl ?_ h
    obtain ⟨own, e1, e2⟩ := (evalSheet_iff.mp h).1
    refine ⟨own.filter fun p => decide (p.1 ≠ x), ?_, fun k v => ?_⟩
    · exact List.Nodup.sublist (List.Sublist.map _ List.filter_sublist) e1
    · rw [List.mem_filter, e2]
      by_cases hk : k = x
      · subst hk; simp [hn]
      · rw [hne k fun e => hk (Name.v.inj e)]; simp [hk]
  · intro h
    refine key (fun y hy => ⟨(hne y hy).symm, rfl⟩) rfl rfl ?_ h
    obtain ⟨own, e1, e2⟩ := (evalSheet_iff.mp h).1
    refine ⟨(x, .var x d) :: own, ?_, fun k v => ?_⟩
    · rw [List.map_cons, List.nodup_cons]
      refine ⟨fun hm => ?_, e1⟩
      obtain ⟨⟨k, v⟩, h1, h2⟩ := List.mem_map.mp hm
      have h2' : k = x := h2
      subst h2'
      rw [(e2 _ _).mp h1] at hn; cases hn
    · rw [List.mem_cons, e2]
      show _ ↔ (if k = x then some (Ast.var x d) else sc.variables k) = some v
      by_cases hk : k = x
      · subst hk
        rw [if_pos rfl, hn]
        simp only [Prod.mk.injEq, true_and, reduceCtorEq, or_false, Option.some.injEq]
        exact eq_comm
      · rw [if_neg hk]
        simp [hk]

/-- A variable `unused := 7` beside `fn f(a) a`, which the formulas `f(1, 2)` do not use. -/
example (o : Out Sheet) : EvalSheet (oneFn.defineVariable (T "unused") (.var (T "unused") (I 7))) (fun _ => none) twoWrong o ↔ EvalSheet oneFn (fun _ => none) twoWrong o := by
  refine C99_variable (I 7) (not_cell (by decide)) (fun y e h => by cases h) (fun y e h => by cases h) (fun g nm ps body h hm => ?_) (fun g d h => ?_) (fun i j f h => ?_) rfl o
  · obtain ⟨-, e⟩ := oneFn_fns h
    cases e
    revert hm; decide
  · exact ⟨_, _, _, (oneFn_fns h).2⟩
  · obtain ⟨-, -, rfl⟩ := twoWrong_formula (show formulaAt ⟨twoWrong.rows, true⟩ i j = some f from h)
    decide

end Verif.Sheet
