import Verif.Sheet.Props
import Verif.Ast.Props
import Mathlib.Data.List.Dedup
import Mathlib.Data.List.Induction
/-
C23 end to end, C51 and C52: what evaluating a sheet does to its formulas.
-/
namespace Verif.Sheet
open Verif.Ast Verif.Cell

theorem evalCells_ok {sc : Scope} {y x : Nat} {cs cs' : List Cell} (h : EvalCells sc y x cs (.ok cs')) :
    cs'.length = cs.length ∧ ∀ i c, cs[i]? = some c → ∃ c', cs'[i]? = some c' ∧ 
      c'.field = c.field ∧ c'.value = c.value ∧ c'.opts = c.opts ∧ (c.ast = none → c'.ast = none) ∧
      ∀ a, c.ast = some a → ∃ b, c'.ast = some b ∧ Eval sc (some ⟨x + i, y⟩) a (.ok b) := by
  generalize ho : Out.ok cs' = o at h
  induction h generalizing cs' with
  | nil => cases ho; simp
  | @value x c cs o hc _ ih =>
    cases o <;> cases ho
    rename_i cs1
    obtain ⟨h1, h2⟩ := ih rfl
    refine ⟨by simp [h1], fun i d hd => ?_⟩
    cases i with
    | zero => cases hd; exact ⟨_, rfl, rfl, rfl, rfl, fun _ => rfl, fun a ha => by rw [hc] at ha; cases ha⟩
    | succ i =>
      obtain ⟨c', h3, h4⟩ := h2 i d hd
      rw [show x + 1 + i = x + (i + 1) by omega] at h4
      exact ⟨c', h3, h4⟩
  | @formula x c cs o a b hc he _ ih =>
    cases o <;> cases ho
    rename_i cs1
    obtain ⟨h1, h2⟩ := ih rfl
    refine ⟨by simp [h1], fun i d hd => ?_⟩
    cases i with
    | zero =>
      cases hd
      exact ⟨_, rfl, rfl, rfl, rfl, (fun h => by rw [hc] at h; cases h),
        (fun a' ha => by rw [hc] at ha; cases ha; exact ⟨b, rfl, he⟩)⟩
    | succ i =>
      obtain ⟨c', h3, h4⟩ := h2 i d hd
      rw [show x + 1 + i = x + (i + 1) by omega] at h4
      exact ⟨c', h3, h4⟩
  | err => cases ho
  | panic => cases ho

theorem evalAll_get {sc : Scope} {y : Nat} {rs rs' : List Row} (h : EvalAll sc y rs rs') :
    rs'.length = rs.length ∧ ∀ i r, rs[i]? = some r → ∃ r', rs'[i]? = some r' ∧ EvalRow sc (y + i) r (.ok r') := by
  induction h with
  | nil => simp
  | @cons y r rs r' rs' hr _ ih =>
    refine ⟨by simp [ih.1], fun i d hd => ?_⟩
    cases i with
    | zero => cases hd; exact ⟨_, rfl, hr⟩
    | succ i =>
      obtain ⟨c', h3, h4⟩ := ih.2 i d hd
      rw [show y + 1 + i = y + (i + 1) by omega] at h4
      exact ⟨c', h3, h4⟩

theorem evalScope_effective {sc : Scope} {s₁ : Sheet} {ext : Text → Option Ast} {sheet own e own' : List (Text × Ast)}
    (e1 : IsEnum sheet (sheetVars s₁)) (e2 : IsEnum own sc.variables) (e3 : IsEnum e ext)
    (e4 : IsEnum own' (mergeVariables sc sheet own).variables) : evalScope sc sheet own e own' = effective sc ext s₁ := by
  have h : (evalScope sc sheet own e own').variables = (effective sc ext s₁).variables := by
    funext k
    rw [C22_precedence sc (sheetVars s₁) ext sheet own e own' e1 e2 e3 e4]
    show _ = (sc.variables k).or ((sheetVars s₁ k).or (ext k))
    cases sc.variables k <;> cases sheetVars s₁ k <;> rfl
  have h2 : evalScope sc sheet own e own' = ⟨sc.functions, (evalScope sc sheet own e own').variables, sc.exports⟩ := rfl
  rw [h2, h]; rfl

/-- C51: evaluating a sheet keeps the rows and cells of the expanded sheet, their options, fills and values,
and replaces each formula by what it evaluates to at its own address. -/
theorem C51_shape (sc : Scope) (ext : Text → Option Ast) (s s₁ s' : Sheet)
    (h : EvalSheet sc ext s (.ok s')) (h₁ : evalFills s = some s₁) :
    s'.expanded = s₁.expanded ∧ s'.rows.length = s₁.rows.length ∧
      ∀ y r, s₁.rows[y]? = some r → ∃ r', s'.rows[y]? = some r' ∧ r'.opts = r.opts ∧ r'.fill = r.fill ∧
        r'.cells.length = r.cells.length ∧ ∀ x c, r.cells[x]? = some c → ∃ c', r'.cells[x]? = some c' ∧
          c'.field = c.field ∧ c'.value = c.value ∧ c'.opts = c.opts ∧ (c.ast = none → c'.ast = none) ∧
          ∀ a, c.ast = some a → ∃ b, c'.ast = some b ∧ Eval (effective sc ext s₁) (some ⟨x, y⟩) a (.ok b) := by
  obtain ⟨s₂, sheet, own, e, own', o', hf, e1, e2, e3, e4, hr, ho⟩ := h
  rw [h₁] at hf; cases hf
  cases hr with
  | err => cases ho
  | panic => cases ho
  | @ok rows' hr =>
    cases ho
    obtain ⟨h1, h2⟩ := evalAll_get hr
    rw [evalScope_effective e1 e2 e3 e4] at h2
    refine ⟨rfl, h1, fun y r hy => ?_⟩
    obtain ⟨r', h3, o, h4, h5⟩ := h2 y r hy
    cases o <;> cases h5
    rename_i cs
    rw [Nat.zero_add] at h4
    obtain ⟨h6, h7⟩ := evalCells_ok h4
    refine ⟨_, h3, rfl, rfl, h6, fun x c hc => ?_⟩
    obtain ⟨c', h8⟩ := h7 x c hc
    rw [Nat.zero_add] at h8
    exact ⟨c', h8⟩

theorem evalCells_err {sc : Scope} {y x : Nat} {cs : List Cell} {p : Addr} {e : EvalError} (h : EvalCells sc y x cs (.err p e)) :
    ∃ i c a, cs[i]? = some c ∧ c.ast = some a ∧ p = ⟨x + i, y⟩ ∧ Eval sc (some p) a (.err e) := by
  generalize ho : Out.err p e = o at h
  induction h with
  | nil => cases ho
  | @value x c cs o hc _ ih =>
    cases o <;> cases ho
    obtain ⟨i, d, a, h1, h2, h3, h4⟩ := ih rfl
    exact ⟨i + 1, d, a, h1, h2, by rw [h3]; congr 1; omega, h4⟩
  | @formula x c cs o a b hc he _ ih =>
    cases o <;> cases ho
    obtain ⟨i, d, a, h1, h2, h3, h4⟩ := ih rfl
    exact ⟨i + 1, d, a, h1, h2, by rw [h3]; congr 1; omega, h4⟩
  | @err x c cs a e hc he => cases ho; exact ⟨0, c, a, rfl, hc, rfl, he⟩
  | panic => cases ho

/-- C51: an error of the evaluation is reported at the address, in the expanded sheet, of a cell whose
formula fails with it there. -/
theorem C51_error_address (sc : Scope) (ext : Text → Option Ast) (s s₁ : Sheet) (p : Addr) (e : EvalError)
    (h : EvalSheet sc ext s (.err p e)) (h₁ : evalFills s = some s₁) :
    ∃ r c a, s₁.rows[p.y]? = some r ∧ r.cells[p.x]? = some c ∧ c.ast = some a ∧
      Eval (effective sc ext s₁) (some p) a (.err e) := by
  obtain ⟨s₂, sheet, own, e, own', o', hf, e1, e2, e3, e4, hr, ho⟩ := h
  rw [h₁] at hf; cases hf
  cases hr with
  | ok => cases ho
  | panic => cases ho
  | @err y r p e hy hr =>
    cases ho
    obtain ⟨o, h1, h2⟩ := hr
    cases o <;> cases h2
    obtain ⟨i, c, a, h3, h4, h5, h6⟩ := evalCells_err h1
    rw [Nat.zero_add] at h5; subst h5
    rw [evalScope_effective e1 e2 e3 e4] at h6
    exact ⟨r, c, a, hy, h3, h4, h6⟩

theorem evalCells_panic {sc : Scope} {y x : Nat} {cs : List Cell} (h : EvalCells sc y x cs .panic) :
    ∃ i c a, cs[i]? = some c ∧ c.ast = some a ∧ Eval sc (some ⟨x + i, y⟩) a .panic := by
  generalize ho : Out.panic = o at h
  induction h with
  | nil => cases ho
  | @value x c cs o hc _ ih =>
    cases o <;> cases ho
    obtain ⟨i, d, a, h1, h2, h3⟩ := ih rfl
    rw [show x + 1 + i = x + (i + 1) by omega] at h3
    exact ⟨i + 1, d, a, h1, h2, h3⟩
  | @formula x c cs o a b hc he _ ih =>
    cases o <;> cases ho
    obtain ⟨i, d, a, h1, h2, h3⟩ := ih rfl
    rw [show x + 1 + i = x + (i + 1) by omega] at h3
    exact ⟨i + 1, d, a, h1, h2, h3⟩
  | err => cases ho
  | @panic x c cs a hc he => exact ⟨0, c, a, rfl, hc, he⟩

theorem resolveVars_total (sc : Scope) (pos : Addr) (vs : List Text) : ∃ σ, resolveVars sc (some pos) vs = some σ := by
  induction vs with
  | nil => exact ⟨_, rfl⟩
  | cons v vs ih =>
    obtain ⟨σ, ih⟩ := ih
    rw [resolveVars]
    cases sc.variables v with
    | none => exact ⟨σ, ih⟩
    | some d =>
      have : ∃ e, resolve (some pos) d = some e := by
        cases d <;> try exact ⟨_, rfl⟩
        rename_i n val
        cases val <;> simp only [resolve, CellVal.intoAst] <;> (try split) <;> exact ⟨_, rfl⟩
      obtain ⟨e, he⟩ := this
      simp only [he, ih]
      exact ⟨_, rfl⟩

theorem eval_no_panic (sc : Scope) (pos : Addr) (a : Ast) : ¬ Eval sc (some pos) a .panic := by
  intro h
  generalize ho : Outcome.panic = o at h
  unfold Eval at h
  generalize (⟨[], []⟩ : Refs) = last at h
  induction h with
  | stop => cases ho
  | again _ _ _ ih => exact ih ho
  | err => cases ho
  | @panic last a _ hr =>
    obtain ⟨vs, fs, -, -, h⟩ := hr
    rw [round] at h
    obtain ⟨σ, hσ⟩ := resolveVars_total sc pos vs
    rw [hσ] at h
    dsimp only at h
    split at h <;> cases h

/-- C51: evaluating a sheet never panics. -/
theorem C51_no_panic (sc : Scope) (ext : Text → Option Ast) (s : Sheet) : ¬ EvalSheet sc ext s .panic := by
  rintro ⟨s₁, sheet, own, e, own', o', hf, -, -, -, -, hr, ho⟩
  cases hr with
  | ok => cases ho
  | err => cases ho
  | panic hy hr =>
    obtain ⟨o, h1, h2⟩ := hr
    cases o <;> cases h2
    obtain ⟨i, c, a, -, -, h⟩ := evalCells_panic h1
    exact eval_no_panic _ _ _ h

theorem resolveVars_leaf {sc : Scope} {pos : Option Addr} (vs : List Text)
    (h : ∀ v ∈ vs, ∃ d e, sc.variables v = some d ∧ resolve pos d = some e) :
    ∃ es, resolveVars sc pos vs = some (vs.zip es) ∧ es.length = vs.length ∧
      ∀ p ∈ vs.zip es, (sc.variables p.1).bind (resolve pos) = some p.2 := by
  induction vs with
  | nil => exact ⟨[], rfl, rfl, by simp⟩
  | cons v vs ih =>
    obtain ⟨es, h1, h2, h3⟩ := ih fun w hw => h w (by simp [hw])
    obtain ⟨d, e, hd, he⟩ := h v (by simp)
    refine ⟨e :: es, by simp [resolveVars, hd, he, h1], by simp [h2], ?_⟩
    intro p hp
    rw [List.zip_cons_cons] at hp
    rcases List.mem_cons.mp hp with rfl | hp
    · simp [hd, he]
    · exact h3 p hp

theorem uses_subst (σ : Text → Option Ast) (a : Ast) (n : Name) (h : Uses (subst σ a) n) :
    (Uses a n ∧ ∀ v, n = .v v → σ v = none) ∨ ∃ x e, x ∈ refNames a ∧ σ x = some e ∧ Uses e n := by
  induction a using Ast.ind with
  | hcall f args ih =>
    have key : (∃ c ∈ args, Uses (subst σ c) n) →
        (Uses (.call f args) n ∧ ∀ v, n = .v v → σ v = none) ∨ ∃ x e, x ∈ refNames (.call f args) ∧ σ x = some e ∧ Uses e n := by
      rintro ⟨c, hc, hu⟩
      rcases ih c hc hu with ⟨h1, h2⟩ | ⟨x, e, h1, h2, h3⟩
      · left
        refine ⟨?_, h2⟩
        cases n <;> simp only [Uses, refNames, callNames, refNamesL_eq, callNamesL_eq, List.mem_flatMap, List.mem_cons]
        · exact ⟨c, hc, h1⟩
        · exact .inr ⟨c, hc, h1⟩
      · right
        refine ⟨x, e, ?_, h2, h3⟩
        simp only [refNames, refNamesL_eq, List.mem_flatMap]
        exact ⟨c, hc, h1⟩
    cases n with
    | v y =>
      simp only [Uses, subst, refNames, refNamesL_eq, substL_eq, List.mem_flatMap, List.mem_map] at h
      obtain ⟨_, ⟨c, hc, rfl⟩, hu⟩ := h
      exact key ⟨c, hc, hu⟩
    | f g =>
      simp only [Uses, subst, callNames, callNamesL_eq, substL_eq, List.mem_flatMap, List.mem_map, List.mem_cons] at h
      rcases h with rfl | ⟨_, ⟨c, hc, rfl⟩, hu⟩
      · left; exact ⟨by simp [Uses, callNames], by intro v hv; cases hv⟩
      · exact key ⟨c, hc, hu⟩
  | hfn f ps b ih =>
    have : ∀ c, Uses (.fn f ps c) n ↔ Uses c n := fun c => by cases n <;> simp [Uses, refNames, callNames]
    simp only [subst, this, refNames] at h ⊢
    exact ih h
  | hinfix l o r ihl ihr =>
    have : ∀ c d, Uses (.infix c o d) n ↔ Uses c n ∨ Uses d n := fun c d => by cases n <;> simp [Uses, refNames, callNames]
    simp only [subst, this, refNames, List.mem_append] at h ⊢
    rcases h with h | h
    · rcases ihl h with h | ⟨x, e, h1, h2⟩
      · exact .inl ⟨.inl h.1, h.2⟩
      · exact .inr ⟨x, e, .inl h1, h2⟩
    · rcases ihr h with h | ⟨x, e, h1, h2⟩
      · exact .inl ⟨.inr h.1, h.2⟩
      · exact .inr ⟨x, e, .inr h1, h2⟩
  | hvar f b ih =>
    have : ∀ c, Uses (.var f c) n ↔ Uses c n := fun c => by cases n <;> simp [Uses, refNames, callNames]
    simp only [subst, this, refNames] at h ⊢
    exact ih h
  | href r =>
    rw [subst] at h
    cases hs : σ r with
    | some e => rw [hs] at h; exact .inr ⟨r, e, by simp [refNames], hs, h⟩
    | none =>
      rw [hs] at h
      refine .inl ⟨h, ?_⟩
      rintro v rfl
      simp only [Option.getD_none, Uses, refNames, List.mem_singleton] at h
      rw [h, hs]
  | _ => left; rw [subst] at h; refine ⟨h, ?_⟩; rintro v rfl; simp [Uses, refNames] at h

/-- When every defined name that a formula uses is a variable whose value uses no defined name, the
formula evaluates to itself with the values in place of the variables. -/
theorem eval_leaf (sc : Scope) (pos : Option Addr) (a : Ast)
    (h : ∀ n, Defined sc n → Uses a n → ∃ v d e, n = .v v ∧ sc.variables v = some d ∧ resolve pos d = some e ∧
      ∀ m, Defined sc m → ¬ Uses e m) (o : Outcome) :
    Eval sc pos a o ↔ o = .ok (subst (fun v => (sc.variables v).bind (resolve pos)) a) := by
  have hfn : fnRefs sc a = [] := by
    apply List.eq_nil_iff_forall_not_mem.mpr
    intro f hf
    obtain ⟨h1, h2⟩ := (mem_fnRefs ..).mp hf
    obtain ⟨v, d, e, h3, -⟩ := h (.f f) h2 h1
    cases h3
  by_cases hv : varRefs sc a = []
  · have hnone : ∀ n, Defined sc n → ¬ Uses a n := by
      intro n hd hu
      obtain ⟨v, d, e, rfl, h2, -⟩ := h n hd hu
      have : v ∈ varRefs sc a := (mem_varRefs ..).mpr ⟨hu, hd⟩
      rw [hv] at this; simp at this
    rw [C16_unchanged sc pos a hnone, subst_id_of_not_mem]
    intro x hx
    have : sc.variables x = none := by
      by_contra hne
      exact hnone (.v x) (Option.isSome_iff_ne_none.mpr hne) hx
    rw [this]; rfl
  have hround : ∀ o, Round sc pos a o → o = .ok (subst (fun v => (sc.variables v).bind (resolve pos)) a) := by
    rintro o ⟨vs, fs, ⟨hnd, hvs⟩, ⟨-, hfs⟩, rfl⟩
    have hfs' : fs = [] := by
      apply List.eq_nil_iff_forall_not_mem.mpr
      intro x hx; rw [hfs, hfn] at hx; simp at hx
    subst hfs'
    have hvd : ∀ v ∈ vs, ∃ d e, sc.variables v = some d ∧ resolve pos d = some e ∧ ∀ m, Defined sc m → ¬ Uses e m := by
      intro v hv
      obtain ⟨h1, h2⟩ := (mem_varRefs ..).mp ((hvs v).mp hv)
      obtain ⟨v', d, e, h3, h4, h5, h6⟩ := h (.v v) h2 h1
      cases h3; exact ⟨d, e, h4, h5, h6⟩
    obtain ⟨es, h1, h2, h3⟩ := resolveVars_leaf vs fun v hv => by
      obtain ⟨d, e, ha, hb, -⟩ := hvd v hv; exact ⟨d, e, ha, hb⟩
    rw [round, h1]
    simp only [evalFns]
    rw [replaceSeq_eq_subst vs es a _ h2]
    · congr 1
      refine subst_congr _ _ _ fun x hx => ?_
      by_cases hxv : x ∈ vs
      · have hsome : (Ast.bind vs es x).isSome := by
          rw [Ast.bind, List.lookup_isSome_iff]
          obtain ⟨i, hi, rfl⟩ := List.mem_iff_getElem.mp hxv
          exact ⟨(vs[i], es[i]), List.mem_iff_getElem.mpr ⟨i, by simp; omega, by simp⟩, by simp⟩
        obtain ⟨e, he⟩ := Option.isSome_iff_exists.mp hsome
        rw [he]
        have hm : (x, e) ∈ vs.zip es := by
          rw [Ast.bind] at he
          obtain ⟨l1, l2, h5, -⟩ := List.lookup_eq_some_iff.mp he
          rw [h5]; simp
        rw [h3 _ hm]
      · have : sc.variables x = none := by
          by_contra hne
          exact hxv ((hvs x).mpr ((mem_varRefs ..).mpr ⟨hx, Option.isSome_iff_ne_none.mpr hne⟩))
        rw [this, Ast.bind, Option.bind_none, List.lookup_eq_none_iff]
        intro p hp
        have hpv := (List.of_mem_zip hp).1
        simp only [bne_iff_ne, ne_eq]
        rintro rfl; exact hxv hpv
    · intro e he p hp hu
      obtain ⟨i, hi, rfl⟩ := List.mem_iff_getElem.mp he
      have hm : (vs[i], es[i]) ∈ vs.zip es := List.mem_iff_getElem.mpr ⟨i, by simp; omega, by simp⟩
      obtain ⟨d, e', h4, h5, h6⟩ := hvd vs[i] (List.getElem_mem _)
      have h7 := h3 _ hm
      simp only [h4, Option.bind_some, h5, Option.some.injEq] at h7
      rw [h7] at h6
      obtain ⟨d', e'', h8, -⟩ := hvd p hp
      exact h6 (.v p) (by simp [Defined, h8]) hu
  have hdone : ∀ last, Stops sc last (subst (fun v => (sc.variables v).bind (resolve pos)) a) := by
    intro last
    have key : ∀ n, Defined sc n → ¬ Uses (subst (fun v => (sc.variables v).bind (resolve pos)) a) n := by
      intro n hd hu
      rcases uses_subst _ _ _ hu with ⟨h1, h2⟩ | ⟨x, e, h1, h2, h3⟩
      · obtain ⟨v, d, e, rfl, h3, h4, -⟩ := h n hd h1
        have := h2 v rfl
        simp [h3, h4] at this
      · have hdx : Defined sc (.v x) := by
          cases hx : sc.variables x with
          | none => simp [hx] at h2
          | some d => simp [Defined, hx]
        obtain ⟨v, d, e', hv, h4, h5, h6⟩ := h (.v x) hdx h1
        cases hv
        simp only [h4, Option.bind_some, h5, Option.some.injEq] at h2
        subst h2
        exact h6 n hd h3
    left
    constructor
    · apply List.eq_nil_iff_forall_not_mem.mpr
      intro f hf; have := (mem_fnRefs ..).mp hf; exact key (.f f) this.2 this.1
    · apply List.eq_nil_iff_forall_not_mem.mpr
      intro f hf; have := (mem_varRefs ..).mp hf; exact key (.v f) this.2 this.1
  obtain ⟨v, hv'⟩ := List.exists_mem_of_ne_nil _ hv
  have hns : ¬ Stops sc ⟨[], []⟩ a := not_stops_var v hv' (by simp)
  constructor
  · intro h
    cases h with
    | stop hs => exact absurd hs hns
    | again _ hr hloop =>
      have := hround _ hr; cases this
      cases hloop with
      | stop => rfl
      | again h => exact absurd (hdone _) h
      | err h => exact absurd (hdone _) h
      | panic h => exact absurd (hdone _) h
    | err _ hr => have := hround _ hr; cases this
    | panic _ hr => have := hround _ hr; cases this
  · rintro rfl
    have hr : Round sc pos a (round sc pos (varRefs sc a).dedup [] a) :=
      ⟨_, [], ⟨List.nodup_dedup _, fun x => List.mem_dedup⟩, ⟨by simp, by simp [hfn]⟩, rfl⟩
    have he := hround _ hr
    rw [he] at hr
    exact .again hns hr (.stop (hdone _))

/-- C23: the sheet defines what `Means` says. -/
theorem C23_means (rows : List Row) (s₁ : Sheet) (h : evalFills ⟨rows, false⟩ = some s₁) (v : Text) (pos : Addr) (t : Text)
    (hm : Means rows v pos t) :
    ∃ val, sheetVars s₁ v = some (.cellVar v val) ∧ val.intoAst (some pos) = some (.ref t) := by
  cases hm with
  | @cell before r x hlast hx hf =>
    obtain ⟨val, h1, h2⟩ := C23_cell rows s₁ h before r x v hlast hx hf
    exact ⟨val, h1, h2 _⟩
  | @row before r hlast hx hf =>
    obtain ⟨val, h1, h2⟩ := C23_row rows s₁ h before r v hlast hx hf
    exact ⟨val, h1, h2 _⟩
  | @sameCell before r x hlast hx hf hl hin =>
    obtain ⟨val, h1, h2⟩ := C23_filled_cell rows s₁ h before r x v hlast hx hf (by rw [InCopies] at hin; omega) hl
    exact ⟨val, h1, by rw [h2, if_pos hin]⟩
  | @column before r x hlast hx hf hpos hl hin =>
    obtain ⟨val, h1, h2⟩ := C23_filled_cell rows s₁ h before r x v hlast hx hf hpos hl
    exact ⟨val, h1, by rw [h2, if_neg hin]⟩
  | @sameRow before r hlast hx hf hl hin =>
    obtain ⟨val, h1, h2⟩ := C23_filled_row rows s₁ h before r v hlast hx hf (by rw [InCopies] at hin; omega) hl
    exact ⟨val, h1, by rw [h2, if_pos hin]⟩
  | @range before r hlast hx hf hpos hl hin =>
    obtain ⟨val, h1, h2⟩ := C23_filled_row rows s₁ h before r v hlast hx hf hpos hl
    exact ⟨val, h1, by rw [h2, if_neg hin]⟩

theorem names_placed (y : Nat) (r : Row) : names (placed y r) = names r := rfl

/-- Nothing defines the name: neither the code section, nor a cell or row, nor the command line. -/
def Undefined (sc : Scope) (ext : Text → Option Ast) (rows : List Row) (v : Text) : Prop :=
  sc.variables v = none ∧ ext v = none ∧ ∀ r ∈ rows, v ∉ names r

theorem sheetVars_none {rows : List Row} {s₁ : Sheet} (h : evalFills ⟨rows, false⟩ = some s₁) {v : Text}
    (hv : ∀ r ∈ rows, v ∉ names r) : sheetVars s₁ v = none := by
  refine C23_undefined s₁ v fun q hq => ?_
  rw [evalFills] at h
  simp only [Bool.false_eq_true, if_false] at h
  split at h
  · cases h
  · cases h
    obtain ⟨r, hr, y, rfl⟩ := expandLoop_mem rows 0 rows q hq
    exact hv r hr

/-- C23: in a formula at column `x` of row `y` that uses names of cells and rows, and nothing else that is
defined, evaluation puts for each of these names the reference that it means at that position, and changes
nothing else. -/
theorem C23_eval (sc : Scope) (ext : Text → Option Ast) (rows : List Row) (s₁ : Sheet)
    (h₁ : evalFills ⟨rows, false⟩ = some s₁) (x y : Nat) (a : Ast)
    (hfn : ∀ f ∈ callNames a, sc.functions f = none) (σ : Text → Option Text)
    (hσ : ∀ v ∈ refNames a, match σ v with
      | some t => Means rows v ⟨x, y⟩ t ∧ sc.variables v = none ∧ Undefined sc ext rows t
      | none => Undefined sc ext rows v) (o : Outcome) :
    Eval (effective sc ext s₁) (some ⟨x, y⟩) a o ↔ o = .ok (subst (fun v => (σ v).map .ref) a) := by
  have hund : ∀ t, Undefined sc ext rows t → (effective sc ext s₁).variables t = none := by
    rintro t ⟨u1, u2, u3⟩
    show (sc.variables t).or ((sheetVars s₁ t).or (ext t)) = none
    rw [u1, sheetVars_none h₁ u3, u2]; rfl
  have hmean : ∀ v t, Means rows v ⟨x, y⟩ t → sc.variables v = none →
      ∃ val, (effective sc ext s₁).variables v = some (.cellVar v val) ∧
        val.intoAst (some ⟨x, y⟩) = some (.ref t) := by
    intro v t hm hv
    obtain ⟨val, h1, h2⟩ := C23_means rows s₁ h₁ v ⟨x, y⟩ t hm
    refine ⟨val, ?_, h2⟩
    show (sc.variables v).or ((sheetVars s₁ v).or (ext v)) = _
    rw [hv, h1]; rfl
  rw [eval_leaf]
  · rw [show subst _ a = subst (fun v => (σ v).map Ast.ref) a from subst_congr _ _ _ fun v hv => ?_]
    have := hσ v hv
    cases hs : σ v with
    | none => rw [hs] at this; rw [hund v this]; rfl
    | some t =>
      rw [hs] at this
      obtain ⟨val, h1, h2⟩ := hmean v t this.1 this.2.1
      rw [h1]; exact h2
  · intro n hd hu
    cases n with
    | f g =>
      have := hfn g hu
      simp only [Defined, effective, this] at hd
      cases hd
    | v w =>
      have := hσ w hu
      cases hs : σ w with
      | none => rw [hs] at this; simp [Defined, hund w this] at hd
      | some t =>
        rw [hs] at this
        obtain ⟨val, h1, h2⟩ := hmean w t this.1 this.2.1
        refine ⟨w, _, _, rfl, h1, h2, ?_⟩
        intro m hm hum
        cases m with
        | f g => simp [Uses, callNames] at hum
        | v u =>
          simp only [Uses, refNames, List.mem_singleton] at hum
          subst hum
          simp [Defined, hund u this.2.2] at hm

/-- C23, end to end: in the evaluated sheet the formula is the one of `C23_eval`. -/
theorem C23_formula (sc : Scope) (ext : Text → Option Ast) (rows : List Row) (s' : Sheet)
    (h : EvalSheet sc ext ⟨rows, false⟩ (.ok s')) (s₁ : Sheet) (h₁ : evalFills ⟨rows, false⟩ = some s₁)
    (x y : Nat) (q : Row) (c : Cell) (a : Ast) (hq : s₁.rows[y]? = some q) (hc : q.cells[x]? = some c)
    (ha : c.ast = some a) (hfn : ∀ f ∈ callNames a, sc.functions f = none) (σ : Text → Option Text)
    (hσ : ∀ v ∈ refNames a, match σ v with
      | some t => Means rows v ⟨x, y⟩ t ∧ sc.variables v = none ∧ Undefined sc ext rows t
      | none => Undefined sc ext rows v) :
    ∃ q' c', s'.rows[y]? = some q' ∧ q'.cells[x]? = some c' ∧
      c'.ast = some (subst (fun v => (σ v).map .ref) a) := by
  obtain ⟨-, -, hrows⟩ := C51_shape sc ext _ s₁ s' h h₁
  obtain ⟨q', hq', -, -, -, hcells⟩ := hrows y q hq
  obtain ⟨c', hc', -, -, -, -, hev⟩ := hcells x c hc
  obtain ⟨b, hcb, hb⟩ := hev a ha
  have := (C23_eval sc ext rows s₁ h₁ x y a hfn σ hσ _).mp hb
  cases this
  exact ⟨q', c', hq', hc', hcb⟩

/-! ## C52 -/

/-- The conditions of C18 for a formula at an address: definitions that are not recursive, parameter names
used for nothing else, calls that are not nested in calls of the same function. -/
structure Tame (sc : Scope) (pos : Addr) (isParam : Text → Prop) (order : List Name) : Prop where
  wf : Wf sc (some pos)
  acyclic : Acyclic sc (some pos) order
  hygienic : Hygienic sc (some pos) isParam
  flat : FlatScope sc (some pos)

theorem row_ext {r r' : Row} (h1 : r.opts = r'.opts) (h2 : r.fill = r'.fill) (h3 : r.cells = r'.cells) : r = r' := by
  cases r; cases r'; cases h1; cases h2; cases h3; rfl
theorem cell_ext {c c' : Cell} (h1 : c.ast = c'.ast) (h2 : c.field = c'.field) (h3 : c.value = c'.value)
    (h4 : c.opts = c'.opts) : c = c' := by
  cases c; cases c'; cases h1; cases h2; cases h3; cases h4; rfl

theorem sheet_unique {sc sc' : Scope} {ext : Text → Option Ast} {s s₁ a b : Sheet} (h₁ : evalFills s = some s₁)
    (ha : EvalSheet sc ext s (.ok a)) (hb : EvalSheet sc' ext s (.ok b))
    (huniq : ∀ y r x c f, s₁.rows[y]? = some r → r.cells[x]? = some c → c.ast = some f → ∀ f₁ f₂,
      Eval (effective sc ext s₁) (some ⟨x, y⟩) f (.ok f₁) → Eval (effective sc' ext s₁) (some ⟨x, y⟩) f (.ok f₂) → f₁ = f₂) :
    a = b := by
  obtain ⟨a1, a2, a3⟩ := C51_shape sc ext s s₁ a ha h₁
  obtain ⟨b1, b2, b3⟩ := C51_shape sc' ext s s₁ b hb h₁
  have hrows : a.rows = b.rows := by
    apply List.ext_getElem?
    intro y
    cases hy : s₁.rows[y]? with
    | none =>
      rw [List.getElem?_eq_none_iff] at hy
      rw [List.getElem?_eq_none (by omega), List.getElem?_eq_none (by omega)]
    | some r =>
      obtain ⟨ra, p1, p2, p3, p4, p5⟩ := a3 y r hy
      obtain ⟨rb, q1, q2, q3, q4, q5⟩ := b3 y r hy
      rw [p1, q1]
      congr 1
      refine row_ext (by rw [p2, q2]) (by rw [p3, q3]) ?_
      apply List.ext_getElem?
      intro x
      cases hx : r.cells[x]? with
      | none =>
        rw [List.getElem?_eq_none_iff] at hx
        rw [List.getElem?_eq_none (by omega), List.getElem?_eq_none (by omega)]
      | some c =>
        obtain ⟨ca, u1, u2, u3, u4, u5, u6⟩ := p5 x c hx
        obtain ⟨cb, v1, v2, v3, v4, v5, v6⟩ := q5 x c hx
        rw [u1, v1]
        congr 1
        refine cell_ext ?_ (by rw [u2, v2]) (by rw [u3, v3]) (by rw [u4, v4])
        cases hf : c.ast with
        | none => rw [u5 hf, v5 hf]
        | some f =>
          obtain ⟨fa, w1, w2⟩ := u6 f hf
          obtain ⟨fb, z1, z2⟩ := v6 f hf
          rw [w1, z1, huniq y r x c f hy hx hf fa fb w2 z2]
  cases a; cases b
  simp only [Sheet.mk.injEq] at *
  exact ⟨hrows, by rw [a1, b1]⟩

/-- C52: whatever the schedule of the rows and the hash orders, a sheet evaluates to one result. -/
theorem C52_one_result_partial (sc : Scope) (ext : Text → Option Ast) (s s₁ a b : Sheet) (h₁ : evalFills s = some s₁)
    (isParam : Text → Prop) (order : Addr → List Name)
    (ht : ∀ pos, Tame (effective sc ext s₁) pos isParam (order pos))
    (hform : ∀ r ∈ s₁.rows, ∀ c ∈ r.cells, ∀ f, c.ast = some f →
      plain f ∧ (∀ v ∈ refNames f, ¬ isParam v) ∧ Flat (effective sc ext s₁) [] f)
    (ha : EvalSheet sc ext s (.ok a)) (hb : EvalSheet sc ext s (.ok b)) : a = b := by
  refine sheet_unique h₁ ha hb fun y r x c f hy hx hf f₁ f₂ e1 e2 => ?_
  obtain ⟨h1, h2, h3⟩ := hform r (List.mem_of_getElem? hy) c (List.mem_of_getElem? hx) f hf
  have t := ht ⟨x, y⟩
  exact C18_functions_order_independent _ _ _ isParam t.wf t.acyclic t.hygienic t.flat f f₁ f₂ h1 h2 h3 e1 e2

/-- C52: without user-defined functions and recursive variables, every evaluation of a sheet succeeds, with
the same result. -/
theorem C52_functionless (sc : Scope) (ext : Text → Option Ast) (s s₁ : Sheet) (h₁ : evalFills s = some s₁)
    (order : Addr → List Name) (hnf : ∀ g, sc.functions g = none)
    (hw : ∀ pos, Wf (effective sc ext s₁) (some pos))
    (hac : ∀ pos, Acyclic (effective sc ext s₁) (some pos) (order pos))
    (hform : ∀ r ∈ s₁.rows, ∀ c ∈ r.cells, ∀ f, c.ast = some f → plain f) (o₁ o₂ : Out Sheet)
    (h₂ : EvalSheet sc ext s o₁) (h₃ : EvalSheet sc ext s o₂) : o₁ = o₂ ∧ ∃ s', o₁ = .ok s' := by
  have hok : ∀ o, EvalSheet sc ext s o → ∃ s', o = .ok s' := by
    intro o h
    cases o with
    | ok a => exact ⟨a, rfl⟩
    | panic => exact (C51_no_panic _ _ _ h).elim
    | err p e =>
      obtain ⟨r, c, f, e1, e2, e3, e4⟩ := C51_error_address sc ext s s₁ p e h h₁
      obtain ⟨-, b, hb⟩ := C18_order_independent _ _ _ (hw p) (hac p) hnf f
        (hform r (List.mem_of_getElem? e1) c (List.mem_of_getElem? e2) f e3) _ _ e4 e4
      cases hb
  obtain ⟨a, rfl⟩ := hok _ h₂
  obtain ⟨b, rfl⟩ := hok _ h₃
  refine ⟨?_, a, rfl⟩
  congr 1
  refine sheet_unique h₁ h₂ h₃ fun y r x c f hy hx hf f₁ f₂ e1 e2 => ?_
  have := (C18_order_independent _ _ _ (hw ⟨x, y⟩) (hac ⟨x, y⟩) hnf f
    (hform r (List.mem_of_getElem? hy) c (List.mem_of_getElem? hx) f hf) _ _ e1 e2).1
  cases this; rfl

theorem collect_snoc (l : List (Text × Ast)) (p : Text × Ast) (k : Text) :
    collect (l ++ [p]) k = if k = p.1 then some p.2 else collect l k := by
  simp only [collect, List.foldl_append, List.foldl_cons, List.foldl_nil]

theorem isEnum_collect (l : List (Text × Ast)) : ∃ e, IsEnum e (collect l) := by
  induction l using List.reverseRecOn with
  | nil => exact ⟨[], by simp, by simp [collect]⟩
  | append_singleton l p ih =>
    obtain ⟨e, h1, h2⟩ := ih
    refine ⟨p :: e.filter (fun q => decide (q.1 ≠ p.1)), ?_, ?_⟩
    · rw [List.map_cons, List.nodup_cons]
      refine ⟨?_, ?_⟩
      · intro hm
        obtain ⟨q, hq, he⟩ := List.mem_map.mp hm
        have := (List.mem_filter.mp hq).2
        simp [he] at this
      · exact h1.sublist ((List.filter_sublist).map _)
    · intro k v
      rw [List.mem_cons, List.mem_filter, collect_snoc, h2]
      by_cases hk : k = p.1
      · subst hk
        simp only [ne_eq, not_true, decide_false, Bool.false_eq_true, and_false, or_false, if_true, Option.some.injEq]
        constructor
        · intro h; rw [← h]
        · intro h; rw [← h]
      · rw [if_neg hk]
        constructor
        · rintro (rfl | h)
          · exact absurd rfl hk
          · exact h.1
        · intro h; exact .inr ⟨h, by simp [hk]⟩

theorem evalCells_exists {sc : Scope} {y : Nat} (cs : List Cell) (x : Nat)
    (h : ∀ i c f, cs[i]? = some c → c.ast = some f → ∃ b, Eval sc (some ⟨x + i, y⟩) f (.ok b)) :
    ∃ cs', EvalCells sc y x cs (.ok cs') := by
  induction cs generalizing x with
  | nil => exact ⟨[], .nil⟩
  | cons c cs ih =>
    obtain ⟨cs', hcs⟩ := ih (x + 1) fun i d f hd hf => by
      have := h (i + 1) d f hd hf
      rw [show x + (i + 1) = x + 1 + i by omega] at this
      exact this
    cases hc : c.ast with
    | none => exact ⟨_, .value hc hcs⟩
    | some f =>
      obtain ⟨b, hb⟩ := h 0 c f rfl hc
      exact ⟨_, .formula hc hb hcs⟩

theorem evalAll_exists {sc : Scope} (rs : List Row) (y : Nat)
    (h : ∀ i r x c f, rs[i]? = some r → r.cells[x]? = some c → c.ast = some f → ∃ b, Eval sc (some ⟨x, y + i⟩) f (.ok b)) :
    ∃ rs', EvalAll sc y rs rs' := by
  induction rs generalizing y with
  | nil => exact ⟨[], .nil⟩
  | cons r rs ih =>
    obtain ⟨rs', hrs⟩ := ih (y + 1) fun i d x c f hd hc hf => by
      have := h (i + 1) d x c f hd hc hf
      rw [show y + (i + 1) = y + 1 + i by omega] at this
      exact this
    obtain ⟨cs', hcs⟩ := evalCells_exists (sc := sc) (y := y) r.cells 0 fun i c f hc hf => by
      have := h 0 r i c f rfl hc hf
      rw [show y + 0 = y from rfl] at this
      rwa [Nat.zero_add]
    exact ⟨_, .cons ⟨_, hcs, rfl⟩ hrs⟩

/-- If every formula can be evaluated then the sheet can. -/
theorem evalSheet_exists {sc : Scope} {ext : Text → Option Ast} {s s₁ : Sheet} (h₁ : evalFills s = some s₁)
    {own e : List (Text × Ast)} (e2 : IsEnum own sc.variables) (e3 : IsEnum e ext)
    (h : ∀ y r x c f, s₁.rows[y]? = some r → r.cells[x]? = some c → c.ast = some f →
      ∃ b, Eval (effective sc ext s₁) (some ⟨x, y⟩) f (.ok b)) : ∃ s', EvalSheet sc ext s (.ok s') := by
  obtain ⟨sheet, e1⟩ := isEnum_collect ((insertions 0 s₁.rows).map fun p => (p.1, .cellVar p.1 p.2))
  obtain ⟨own', e4⟩ := isEnum_collect (sheet ++ own)
  obtain ⟨rs', hr⟩ := evalAll_exists (sc := effective sc ext s₁) s₁.rows 0 fun i r x c f hd hc hf => by
    rw [Nat.zero_add]; exact h i r x c f hd hc hf
  refine ⟨⟨rs', s₁.expanded⟩, s₁, sheet, own, e, own', .ok rs', h₁, e1, e2, e3, e4, ?_, rfl⟩
  rw [evalScope_effective e1 e2 e3 e4]
  exact .ok hr

/-- C52: under the conditions of `C52_functionless`, for the finitely many definitions of a program, there
is a result. -/
theorem C52_result_exists (sc : Scope) (ext : Text → Option Ast) (s s₁ : Sheet) (h₁ : evalFills s = some s₁)
    (own e : List (Text × Ast)) (e2 : IsEnum own sc.variables) (e3 : IsEnum e ext)
    (order : Addr → List Name) (hnf : ∀ g, sc.functions g = none)
    (hw : ∀ pos, Wf (effective sc ext s₁) (some pos))
    (hac : ∀ pos, Acyclic (effective sc ext s₁) (some pos) (order pos))
    (hform : ∀ r ∈ s₁.rows, ∀ c ∈ r.cells, ∀ f, c.ast = some f → plain f) : ∃ s', EvalSheet sc ext s (.ok s') := by
  refine evalSheet_exists h₁ e2 e3 fun y r x c f hy hx hf => ?_
  have hpl := hform r (List.mem_of_getElem? hy) c (List.mem_of_getElem? hx) f hf
  have hh : Hygienic (effective sc ext s₁) (some ⟨x, y⟩) (fun _ => False) :=
    ⟨fun g _ _ _ h => (by rw [show (effective sc ext s₁).functions g = none from hnf g] at h; cases h), by simp,
      fun g _ _ _ h => (by rw [show (effective sc ext s₁).functions g = none from hnf g] at h; cases h)⟩
  obtain ⟨-, o, ho, -⟩ := C19_terminates_partial _ _ _ _ (hw ⟨x, y⟩) (hac ⟨x, y⟩) hh f hpl (by simp)
  obtain ⟨-, b, rfl⟩ := C18_order_independent _ _ _ (hw ⟨x, y⟩) (hac ⟨x, y⟩) hnf f hpl _ _ ho ho
  exact ⟨b, ho⟩

/-! ### a concrete sheet -/

/-- `![[fill=2]]` with a cell named `x`, holding the formula `=x + y`, and a row with a cell named `y`,
holding `=SUM(x)`. -/
def demoRows : List Row :=
  [⟨{}, some ⟨some 2, 0⟩, [⟨some (.infix (.ref ['x']) ['+'] (.ref ['y'])), ⟨⟨0, 0⟩, [], []⟩, [], { var := some ['x'] }⟩]⟩,
   ⟨{}, none, [⟨some (.call ['S', 'U', 'M'] [.ref ['x']]), ⟨⟨0, 1⟩, [], []⟩, [], { var := some ['y'] }⟩]⟩]

theorem demo_x (pos : Addr) : Means demoRows ['x'] pos
    (if pos.y < 2 then cellRef 0 pos.y else columnRef 0 0 1) := by
  have hl : LastWith demoRows [] demoRows[0] ['x'] := by
    refine ⟨[demoRows[1]], rfl, fun q hq => ?_⟩
    rw [List.mem_singleton.mp hq]; decide
  have hn : NamesCell demoRows[0] 0 ['x'] := by
    refine ⟨⟨_, rfl, rfl⟩, fun x' c hx hc => ?_⟩
    have : x' < 1 := (List.getElem?_eq_some_iff.mp hc).1
    omega
  have hc : copies demoRows demoRows[0] = 2 := rfl
  have hin : ∀ y, InCopies demoRows [] demoRows[0] y ↔ y < 2 := by
    intro y
    rw [InCopies, hc]
    show 0 ≤ y ∧ y < 0 + 2 ↔ _
    omega
  have hlim : InLimits demoRows [] demoRows[0] := by
    intro f hf y
    have : f = ⟨some 2, 0⟩ := by cases hf; rfl
    subst this
    rw [hin, fillRange_iff]
    show 0 ≤ y ∧ y ≤ min (0 + 2) 1000 - 1 ↔ _
    omega
  split
  · exact .sameCell hl hn rfl hlim ((hin _).mpr ‹_›)
  · exact .column hl hn rfl (by rw [hc]; decide) hlim fun h => absurd ((hin _).mp h) ‹_›

theorem demo_y (pos : Addr) : Means demoRows ['y'] pos (cellRef 0 2) := by
  have hl : LastWith demoRows [demoRows[0]] demoRows[1] ['y'] := ⟨[], rfl, by simp⟩
  have hn : NamesCell demoRows[1] 0 ['y'] := by
    refine ⟨⟨_, rfl, rfl⟩, fun x' c hx hc => ?_⟩
    have : x' < 1 := (List.getElem?_eq_some_iff.mp hc).1
    omega
  exact Means.cell (before := [demoRows[0]]) hl hn rfl

theorem demo_names (t : Text) (h1 : t ≠ ['x']) (h2 : t ≠ ['y']) : Undefined .empty (fun _ => none) demoRows t := by
  refine ⟨rfl, rfl, fun r hr => ?_⟩
  simp only [demoRows, List.mem_cons, List.not_mem_nil, or_false] at hr
  rcases hr with rfl | rfl
  · show t ∉ [['x']]; simpa using h1
  · show t ∉ [['y']]; simpa using h2

/-- What the names mean at row `y`. -/
def demoσ (y : Nat) (v : Text) : Option Text :=
  if v = ['x'] then some (if y < 2 then cellRef 0 y else columnRef 0 0 1)
  else if v = ['y'] then some (cellRef 0 2) else none

theorem demo_formula (y : Nat) (hy : y < 3) (a : Ast) (hr : ∀ v ∈ refNames a, v = ['x'] ∨ v = ['y'])
    (s₁ : Sheet) (h₁ : evalFills ⟨demoRows, false⟩ = some s₁) (o : Outcome) :
    Eval (effective .empty (fun _ => none) s₁) (some ⟨0, y⟩) a o ↔ o = .ok (subst (fun v => (demoσ y v).map .ref) a) := by
  refine C23_eval .empty (fun _ => none) demoRows s₁ h₁ 0 y a (fun _ _ => rfl) (demoσ y) (fun v hv => ?_) o
  rcases hr v hv with rfl | rfl
  · refine ⟨demo_x ⟨0, y⟩, rfl, demo_names _ ?_ ?_⟩ <;> (clear hv; revert hy; revert y; decide +kernel)
  · exact ⟨demo_y ⟨0, y⟩, rfl, demo_names _ (by decide +kernel) (by decide +kernel)⟩

/-- The hypotheses of C23 are met: the sheet evaluates to `=(A1 + A3)`, `=(A2 + A3)`, `=SUM(A1:A2)`. -/
example : ∃ s', EvalSheet .empty (fun _ => none) ⟨demoRows, false⟩ (.ok s') ∧
    (∃ q c, s'.rows[1]? = some q ∧ q.cells[0]? = some c ∧ c.ast = some (.infix (.ref ['A', '2']) ['+'] (.ref ['A', '3']))) ∧
    (∃ q c, s'.rows[2]? = some q ∧ q.cells[0]? = some c ∧
      c.ast = some (.call ['S', 'U', 'M'] [.ref ['A', '1', ':', 'A', '2']])) := by
  obtain ⟨s₁, h₁⟩ : ∃ s₁, evalFills ⟨demoRows, false⟩ = some s₁ := ⟨_, rfl⟩
  have hr := C24_rows demoRows s₁ h₁
  have hall : ∀ y r x c f, s₁.rows[y]? = some r → r.cells[x]? = some c → c.ast = some f →
      y < 3 ∧ x = 0 ∧ ∀ v ∈ refNames f, v = ['x'] ∨ v = ['y'] := by
    cases h₁
    intro y r x c f hy hx hf
    have h3 : y < 3 := (List.getElem?_eq_some_iff.mp hy).1
    have : r = placed 0 demoRows[0] ∨ r = demoRows[1] := by
      match y with
      | 0 => cases hy; exact .inl rfl
      | 1 => cases hy; exact .inl rfl
      | 2 => cases hy; exact .inr rfl
    rcases this with rfl | rfl
    · have h1 : x < 1 := (List.getElem?_eq_some_iff.mp hx).1
      match x with
      | 0 => cases hx; cases hf; exact ⟨h3, rfl, by decide⟩
    · have h1 : x < 1 := (List.getElem?_eq_some_iff.mp hx).1
      match x with
      | 0 => cases hx; cases hf; exact ⟨h3, rfl, by decide⟩
  obtain ⟨s', hs'⟩ : ∃ s', EvalSheet .empty (fun _ => none) ⟨demoRows, false⟩ (.ok s') := by
    refine evalSheet_exists h₁ (own := []) (e := []) ⟨by simp, by simp [Scope.empty]⟩ ⟨by simp, by simp⟩
      fun y r x c f hy hx hf => ?_
    obtain ⟨h1, rfl, h3⟩ := hall y r x c f hy hx hf
    exact ⟨_, (demo_formula y h1 f h3 s₁ h₁ _).mpr rfl⟩
  obtain ⟨-, -, hrows⟩ := C51_shape _ _ _ s₁ s' hs' h₁
  have r1 := hr.2 [] demoRows[0] [demoRows[1]] rfl 1 (by decide)
  have r2 := hr.2 [demoRows[0]] demoRows[1] [] rfl 0 (by decide)
  refine ⟨s', hs', ?_, ?_⟩
  · obtain ⟨q', hq', -, -, -, hcells⟩ := hrows 1 _ r1
    obtain ⟨c', hc', -, -, -, -, hev⟩ := hcells 0 _ rfl
    obtain ⟨b, hcb, hb⟩ := hev _ rfl
    have := (demo_formula 1 (by decide) _ (by decide) s₁ h₁ _).mp hb
    cases this
    refine ⟨q', c', hq', hc', hcb.trans ?_⟩
    simp only [subst, show demoσ 1 ['x'] = some ['A', '2'] from by decide +kernel, show demoσ 1 ['y'] = some ['A', '3'] from by decide +kernel,
      Option.map_some, Option.getD_some]
  · obtain ⟨q', hq', -, -, -, hcells⟩ := hrows 2 _ r2
    obtain ⟨c', hc', -, -, -, -, hev⟩ := hcells 0 _ rfl
    obtain ⟨b, hcb, hb⟩ := hev _ rfl
    have := (demo_formula 2 (by decide) _ (by decide) s₁ h₁ _).mp hb
    cases this
    refine ⟨q', c', hq', hc', hcb.trans ?_⟩
    simp only [subst, substL, show demoσ 2 ['x'] = some ['A', '1', ':', 'A', '2'] from by decide +kernel,
      Option.map_some, Option.getD_some]

theorem cellRef_ne (y : Nat) : cellRef 0 y ≠ ['x'] ∧ cellRef 0 y ≠ ['y'] := by
  have : ∃ l, cellRef 0 y = 'A' :: l := by
    refine ⟨natText (y + 1), ?_⟩
    simp only [cellRef, A1.text, Addr.text]
    rw [colText, dif_pos (by decide)]; rfl
  obtain ⟨l, h⟩ := this
  rw [h]; simp

/-- The hypotheses of C52 are met by the same sheet. -/
example (s₁ : Sheet) (h₁ : evalFills ⟨demoRows, false⟩ = some s₁) :
    (∀ pos, Wf (effective .empty (fun _ => none) s₁) (some pos)) ∧
    (∀ pos, Acyclic (effective .empty (fun _ => none) s₁) (some pos) [.v ['x'], .v ['y']]) := by
  have hval : ∀ (pos : Addr) k d, (effective .empty (fun _ => none) s₁).variables k = some d →
      (k = ['x'] ∨ k = ['y']) ∧ ∃ t, resolve (some pos) d = some (.ref t) ∧ t ≠ ['x'] ∧ t ≠ ['y'] := by
    intro pos k d hd
    by_cases hx : k = ['x']
    · subst hx
      obtain ⟨val, h1, h2⟩ := C23_means _ s₁ h₁ _ pos _ (demo_x pos)
      have hd' : (sheetVars s₁ ['x']).or none = some d := hd
      rw [h1] at hd'; cases hd'
      refine ⟨.inl rfl, _, h2, ?_⟩
      split
      · exact cellRef_ne _
      · decide +kernel
    · by_cases hy : k = ['y']
      · subst hy
        obtain ⟨val, h1, h2⟩ := C23_means _ s₁ h₁ _ pos _ (demo_y pos)
        have hd' : (sheetVars s₁ ['y']).or none = some d := hd
        rw [h1] at hd'; cases hd'
        exact ⟨.inr rfl, _, h2, cellRef_ne _⟩
      · have hd' : (sheetVars s₁ k).or none = some d := hd
        rw [sheetVars_none h₁ (demo_names k hx hy).2.2] at hd'
        cases hd'
  refine ⟨fun pos => ⟨fun g d h => (by cases h), fun k d h => ?_⟩, fun pos => ⟨fun n hn => ?_, fun n m hn hm hmen => ?_⟩⟩
  · obtain ⟨-, t, h1, -⟩ := hval pos k d h
    exact ⟨_, h1, rfl⟩
  · cases n with
    | f g => cases hn
    | v k =>
      obtain ⟨d, hd⟩ := Option.isSome_iff_exists.mp hn
      rcases (hval pos k d hd).1 with rfl | rfl <;> simp
  · exfalso
    cases n with
    | f g => cases hn
    | v k =>
      obtain ⟨d, e, h1, h2, h3⟩ := hmen
      obtain ⟨-, t, h4, h5, h6⟩ := hval pos k d h1
      rw [h4] at h2; cases h2
      cases m with
      | f g => cases hm
      | v u =>
        simp only [Uses, refNames, List.mem_singleton] at h3
        subst h3
        obtain ⟨d', hd'⟩ := Option.isSome_iff_exists.mp hm
        rcases (hval pos u d' hd').1 with rfl | rfl
        · exact h5 rfl
        · exact h6 rfl

/-- The rows of the other examples: rejected fills, an unbounded fill. -/
example : evalFills ⟨[fillRow none ['x'], plainRow ['a'], fillRow none ['y']], false⟩ = none := rfl
example : ∃ s', evalFills ⟨[plainRow ['a'], fillRow none ['x'], plainRow ['b']], false⟩ = some s' ∧ s'.rows.length = 1000 ∧
    s'.rows[999]? = some (plainRow ['b']) := by
  obtain ⟨s', h⟩ : ∃ s', evalFills ⟨[plainRow ['a'], fillRow none ['x'], plainRow ['b']], false⟩ = some s' := ⟨_, rfl⟩
  refine ⟨s', h, C24_thousand _ s' h (fillRow none ['x']) (by simp) ⟨0, rfl⟩ (by decide), ?_⟩
  exact (C24_rows _ s' h).2 [plainRow ['a'], fillRow none ['x']] (plainRow ['b']) [] rfl 0 (by decide)

end Verif.Sheet
