import Verif.Ast.Lemmas
/-
Exchanging two names throughout a program (C100).
-/
namespace Verif.Ast

/-- `x` and `y` exchanged. -/
def swapName (x y n : Text) : Text := if n = x then y else if n = y then x else n

mutual
/-- Every name in the formula replaced. -/
def ren (π : Text → Text) : Ast → Ast
  | .call n args => .call (π n) (renL π args)
  | .fn n ps body => .fn (π n) (ps.map π) (ren π body)
  | .infix l op r => .infix (ren π l) op (ren π r)
  | .ref r => .ref (π r)
  | .var n a => .var (π n) (ren π a)
  | .cellVar n v => .cellVar (π n) v
  | .bool b => .bool b
  | .date t => .date t
  | .float p s v => .float p s v
  | .int p s v => .int p s v
  | .text t => .text t
/-- Every name in the formulas replaced. -/
def renL (π : Text → Text) : List Ast → List Ast
  | [] => []
  | a :: as => ren π a :: renL π as
end

/-- A table of definitions with every name replaced by its partner: the partner of `k` has the definition of `k`, with the names in it replaced. -/
def renTable (π : Text → Text) (m : Text → Option Ast) : Text → Option Ast := fun k => (m (π k)).map (ren π)

/-- A scope with every name replaced by its partner. -/
def Scope.ren (π : Text → Text) (sc : Scope) : Scope := ⟨renTable π sc.functions, renTable π sc.variables, sc.exports.map π⟩

/-- The outcome of an evaluation with every name replaced. -/
def Outcome.ren (π : Text → Text) : Outcome → Outcome
  | .ok a => .ok (Ast.ren π a)
  | .err e => .err ⟨Ast.ren π e.source, e.expected, e.received⟩
  | .panic => .panic

theorem swapName_swapName (x y n : Text) : swapName x y (swapName x y n) = n := by
  unfold swapName
  split
  · rename_i h
    split
    · rename_i h2; rw [h, h2]
    · rw [if_pos rfl, h]
  · split
    · rename_i h1 h2; rw [if_pos rfl, h2]
    · rename_i h1 h2; rfl

theorem renL_eq (π : Text → Text) (as : List Ast) : renL π as = as.map (ren π) := by
  induction as <;> simp [renL, *]

section
variable {π : Text → Text}

theorem ren_ren (hπ : ∀ n, π (π n) = n) (a : Ast) : ren π (ren π a) = a := by
  have hid : ∀ l : List Text, (l.map π).map π = l := fun l => by
    rw [List.map_map]
    have : π ∘ π = id := funext hπ
    rw [this, List.map_id]
  induction a using Ast.ind with
  | hcall n args ih =>
    simp only [ren, renL_eq, List.map_map, hπ]
    congr 1
    conv => rhs; rw [← List.map_id args]
    exact List.map_congr_left fun a ha => ih a ha
  | hfn n ps b ih => simp only [ren, ih, hπ, hid]
  | hinfix l op r ih1 ih2 => simp only [ren, ih1, ih2]
  | hvar n a ih => simp only [ren, ih, hπ]
  | href r => simp only [ren, hπ]
  | hcv n v => simp only [ren, hπ]
  | _ => rfl

theorem renTable_renTable (hπ : ∀ n, π (π n) = n) (m : Text → Option Ast) : renTable π (renTable π m) = m := by
  funext k
  simp only [renTable, hπ, Option.map_map]
  cases m k with
  | none => rfl
  | some a => exact congrArg some (ren_ren hπ a)

theorem Scope.ren_ren (hπ : ∀ n, π (π n) = n) (sc : Scope) : (sc.ren π).ren π = sc := by
  have h : (sc.exports.map π).map π = sc.exports := by
    rw [List.map_map]
    have : π ∘ π = id := funext hπ
    rw [this, List.map_id]
  obtain ⟨f, v, e⟩ := sc
  simp only [Scope.ren, renTable_renTable hπ] at h ⊢
  rw [h]

theorem Outcome.ren_ren (hπ : ∀ n, π (π n) = n) (o : Outcome) : (o.ren π).ren π = o := by
  cases o <;> simp [Outcome.ren, Ast.ren_ren hπ]

theorem inv_inj (hπ : ∀ n, π (π n) = n) {m n : Text} (h : π m = π n) : m = n := by rw [← hπ m, h, hπ]

theorem replaceVar_ren (hπ : ∀ n, π (π n) = n) (x : Text) (r a : Ast) : replaceVar (π x) (ren π r) (ren π a) = ren π (replaceVar x r a) := by
  induction a using Ast.ind with
  | hcall n args ih =>
    simp only [ren, replaceVar, renL_eq, replaceVars_eq, List.map_map]
    congr 1
    exact List.map_congr_left fun a ha => ih a ha
  | hfn n ps b ih => simp only [ren, replaceVar, ih]
  | hinfix l op r ih1 ih2 => simp only [ren, replaceVar, ih1, ih2]
  | hvar n a ih => simp only [ren, replaceVar, ih]
  | href y =>
    simp only [ren, replaceVar]
    by_cases h : x = y
    · rw [if_pos h, if_pos (congrArg π h)]
    · rw [if_neg h, if_neg fun h' => h (inv_inj hπ h')]; rfl
  | _ => rfl

theorem replaceSeq_ren (hπ : ∀ n, π (π n) = n) (σ : List (Text × Ast)) (a : Ast) :
    replaceSeq (σ.map fun p => (π p.1, ren π p.2)) (ren π a) = ren π (replaceSeq σ a) := by
  unfold replaceSeq
  induction σ generalizing a with
  | nil => rfl
  | cons p σ ih =>
    simp only [List.map_cons, List.foldl_cons]
    rw [replaceVar_ren hπ, ih]

/-- The result of a call with every name replaced. -/
def renRes (π : Text → Text) : Except EvalError Ast → Except EvalError Ast
  | .ok a => .ok (ren π a)
  | .error e => .error ⟨ren π e.source, e.expected, e.received⟩

/-- The results of calls with every name replaced. -/
def renResL (π : Text → Text) : Except EvalError (List Ast) → Except EvalError (List Ast)
  | .ok a => .ok (renL π a)
  | .error e => .error ⟨ren π e.source, e.expected, e.received⟩

theorem callFns_ren_of (f : Text) (fd : Ast) (args : List Ast) (h : ∀ a ∈ args, callFn (π f) (ren π fd) (ren π a) = renRes π (callFn f fd a)) :
    callFns (π f) (ren π fd) (renL π args) = renResL π (callFns f fd args) := by
  induction args with
  | nil => rfl
  | cons a as ih =>
    simp only [renL, callFns]
    rw [h a (by simp), ih fun b hb => h b (by simp [hb])]
    cases callFn f fd a with
    | error e => rfl
    | ok a' =>
      cases callFns f fd as with
      | error e => rfl
      | ok as' => rfl

theorem callFn_ren (hπ : ∀ n, π (π n) = n) (f : Text) (fd a : Ast) : callFn (π f) (ren π fd) (ren π a) = renRes π (callFn f fd a) := by
  induction a using Ast.ind with
  | hcall n args ih =>
    simp only [ren, callFn]
    by_cases h : n = f
    · rw [if_pos h, if_pos (congrArg π h)]
      cases fd with
      | fn m ps body =>
        simp only [ren, renL_eq, List.length_map]
        by_cases hl : args.length ≠ ps.length
        · rw [if_pos hl, if_pos hl]; rfl
        · rw [if_neg hl, if_neg hl]
          simp only [renRes]
          rw [← replaceSeq_ren hπ, List.zip_map]
          rfl
      | _ => rfl
    · rw [if_neg h, if_neg fun h' => h (inv_inj hπ h'), callFns_ren_of f fd args ih]
      cases callFns f fd args <;> rfl
  | hinfix l op r ih1 ih2 =>
    simp only [ren, callFn, ih1, ih2]
    cases callFn f fd l with
    | error e => rfl
    | ok l' => cases callFn f fd r <;> rfl
  | hvar n a ih =>
    simp only [ren, callFn, ih]
    cases callFn f fd a <;> rfl
  | _ => rfl

variable {sc : Scope}

theorem renTable_isSome (hπ : ∀ n, π (π n) = n) (m : Text → Option Ast) (k : Text) : (renTable π m (π k)).isSome = (m k).isSome := by
  simp [renTable, hπ]

theorem flatMap_congr' {β : Type} {l : List Ast} {f g : Ast → List β} (h : ∀ a ∈ l, f a = g a) : l.flatMap f = l.flatMap g := by
  induction l with
  | nil => rfl
  | cons a l ih => simp only [List.flatMap_cons]; rw [h a (by simp), ih fun b hb => h b (by simp [hb])]

theorem varRefs_ren (hπ : ∀ n, π (π n) = n) (a : Ast) : varRefs (sc.ren π) (ren π a) = (varRefs sc a).map π := by
  induction a using Ast.ind with
  | hcall n args ih =>
    simp only [ren, varRefs, renL_eq, varRefsL_eq, List.flatMap_map, List.map_flatMap]
    exact flatMap_congr' ih
  | hfn n ps b ih => simp only [ren, varRefs, ih]
  | hinfix l op r ih1 ih2 => simp only [ren, varRefs, ih1, ih2, List.map_append]
  | hvar n a ih => simp only [ren, varRefs, ih]
  | href y =>
    simp only [ren, varRefs]
    have h : ((sc.ren π).variables (π y)).isSome = (sc.variables y).isSome := renTable_isSome hπ _ _
    rw [h]
    split <;> rfl
  | _ => rfl

theorem fnRefs_ren (hπ : ∀ n, π (π n) = n) (a : Ast) : fnRefs (sc.ren π) (ren π a) = (fnRefs sc a).map π := by
  induction a using Ast.ind with
  | hcall n args ih =>
    simp only [ren, fnRefs, renL_eq, fnRefsL_eq, List.flatMap_map, List.map_append, List.map_flatMap]
    have h : ((sc.ren π).functions (π n)).isSome = (sc.functions n).isSome := renTable_isSome hπ _ _
    rw [h]
    congr 1
    · split <;> rfl
    · exact flatMap_congr' ih
  | hfn n ps b ih => simp only [ren, fnRefs, ih]
  | hinfix l op r ih1 ih2 => simp only [ren, fnRefs, ih1, ih2, List.map_append]
  | hvar n a ih => simp only [ren, fnRefs, ih]
  | _ => rfl

/-- The names that are written for cells and rows stay. -/
def FixesCells (π : Text → Text) : Prop := ∀ r : A1, π r.text = r.text

theorem intoAst_ren (hA : FixesCells π) (v : CellVal) (pos : Option Addr) : (v.intoAst pos).map (ren π) = v.intoAst pos := by
  have hc : ∀ a : Addr, π a.text = a.text := fun a => hA (.cell a)
  have hr : ∀ r : A1, π r.text = r.text := hA
  cases pos with
  | none => cases v <;> simp [CellVal.intoAst, ren, hc, hr]
  | some p =>
    cases v with
    | columnRelative x f =>
      simp only [CellVal.intoAst]
      split <;> simp [ren, hc, hr]
    | rowRelative x f =>
      simp only [CellVal.intoAst]
      split <;> simp [ren, hr]
    | _ => simp [CellVal.intoAst, ren, hc, hr]

theorem resolve_ren (hA : FixesCells π) (pos : Option Addr) (d : Ast) : resolve pos (ren π d) = (resolve pos d).map (ren π) := by
  cases d <;> first | rfl | exact (intoAst_ren hA _ pos).symm

theorem resolveVars_ren (hπ : ∀ n, π (π n) = n) (hA : FixesCells π) (pos : Option Addr) (vs : List Text) :
    resolveVars (sc.ren π) pos (vs.map π) = (resolveVars sc pos vs).map (List.map fun p => (π p.1, ren π p.2)) := by
  induction vs with
  | nil => rfl
  | cons v vs ih =>
    simp only [List.map_cons, resolveVars]
    have h : (sc.ren π).variables (π v) = (sc.variables v).map (ren π) := by simp [Scope.ren, renTable, hπ]
    rw [h]
    cases sc.variables v with
    | none => exact ih
    | some d =>
      simp only [Option.map_some]
      rw [resolve_ren hA, ih]
      cases resolve pos d with
      | none => rfl
      | some a => cases resolveVars sc pos vs <;> rfl

theorem evalFns_ren (hπ : ∀ n, π (π n) = n) (fs : List Text) (a : Ast) : evalFns (sc.ren π) (fs.map π) (ren π a) = renRes π (evalFns sc fs a) := by
  induction fs generalizing a with
  | nil => rfl
  | cons f fs ih =>
    simp only [List.map_cons, evalFns]
    have h : (sc.ren π).functions (π f) = (sc.functions f).map (ren π) := by simp [Scope.ren, renTable, hπ]
    rw [h]
    cases sc.functions f with
    | none => exact ih a
    | some d =>
      simp only [Option.map_some]
      rw [callFn_ren hπ]
      cases callFn f d a with
      | error e => rfl
      | ok b => exact ih b

theorem round_ren (hπ : ∀ n, π (π n) = n) (hA : FixesCells π) (pos : Option Addr) (vs fs : List Text) (a : Ast) :
    Ast.round (sc.ren π) pos (vs.map π) (fs.map π) (ren π a) = (Ast.round sc pos vs fs a).ren π := by
  simp only [Ast.round, resolveVars_ren hπ hA]
  cases resolveVars sc pos vs with
  | none => rfl
  | some σ =>
    simp only [Option.map_some]
    rw [replaceSeq_ren hπ, evalFns_ren hπ]
    cases evalFns sc fs (replaceSeq σ a) <;> rfl

theorem IsOrder.ren (hπ : ∀ n, π (π n) = n) {o l : List Text} (h : IsOrder o l) : IsOrder (o.map π) (l.map π) := by
  refine ⟨List.Pairwise.map _ (fun _ _ h h' => h (inv_inj hπ h')) h.1, fun x => ?_⟩
  simp only [List.mem_map]
  exact ⟨fun ⟨y, h1, h2⟩ => ⟨y, (h.2 y).mp h1, h2⟩, fun ⟨y, h1, h2⟩ => ⟨y, (h.2 y).mpr h1, h2⟩⟩

theorem Round.ren (hπ : ∀ n, π (π n) = n) (hA : FixesCells π) {pos : Option Addr} {a : Ast} {o : Outcome} (h : Round sc pos a o) :
    Round (sc.ren π) pos (Ast.ren π a) (o.ren π) := by
  obtain ⟨vs, fs, h1, h2, rfl⟩ := h
  exact ⟨vs.map π, fs.map π, by rw [varRefs_ren hπ]; exact h1.ren hπ, by rw [fnRefs_ren hπ]; exact h2.ren hπ, (round_ren hπ hA pos vs fs a).symm⟩

/-- The references with every name replaced. -/
def Refs.ren (π : Text → Text) (r : Refs) : Refs := ⟨r.functions.map π, r.variables.map π⟩

theorem refsOf_ren (hπ : ∀ n, π (π n) = n) (a : Ast) : refsOf (sc.ren π) (Ast.ren π a) = (refsOf sc a).ren π := by
  simp only [refsOf, Refs.ren, varRefs_ren hπ, fnRefs_ren hπ]

theorem mem_map_inv (hπ : ∀ n, π (π n) = n) (l : List Text) (n : Text) : n ∈ l.map π ↔ π n ∈ l := by
  simp only [List.mem_map]
  exact ⟨fun ⟨y, h1, h2⟩ => by rw [← h2, hπ]; exact h1, fun h => ⟨π n, h, hπ n⟩⟩

theorem stops_ren (hπ : ∀ n, π (π n) = n) (last : Refs) (a : Ast) : Stops (sc.ren π) (last.ren π) (Ast.ren π a) ↔ Stops sc last a := by
  unfold Stops
  rw [refsOf_ren hπ]
  refine or_congr ?_ ?_
  · simp [Refs.Empty, Refs.ren]
  · simp only [Refs.Same, Refs.ren, mem_map_inv hπ]
    exact and_congr ⟨fun h n => by simpa [hπ] using h (π n), fun h n => h (π n)⟩ ⟨fun h n => by simpa [hπ] using h (π n), fun h n => h (π n)⟩

theorem Loop.ren (hπ : ∀ n, π (π n) = n) (hA : FixesCells π) {pos : Option Addr} {last : Refs} {a : Ast} {o : Outcome} (h : Loop sc pos last a o) :
    Loop (sc.ren π) pos (last.ren π) (Ast.ren π a) (o.ren π) := by
  induction h with
  | stop hs => exact .stop ((stops_ren hπ _ _).mpr hs)
  | again hs hr _ ih =>
    refine .again (fun h => hs ((stops_ren hπ _ _).mp h)) (Round.ren hπ hA hr) ?_
    rw [refsOf_ren hπ]
    exact ih
  | err hs hr => exact .err (fun h => hs ((stops_ren hπ _ _).mp h)) (Round.ren hπ hA hr)
  | panic hs hr => exact .panic (fun h => hs ((stops_ren hπ _ _).mp h)) (Round.ren hπ hA hr)

/-- Evaluation commutes with an exchange of names. -/
theorem Eval.ren (hπ : ∀ n, π (π n) = n) (hA : FixesCells π) {pos : Option Addr} {a : Ast} {o : Outcome} (h : Eval sc pos a o) :
    Eval (sc.ren π) pos (Ast.ren π a) (o.ren π) := Loop.ren hπ hA h

theorem eval_ren_iff (hπ : ∀ n, π (π n) = n) (hA : FixesCells π) (pos : Option Addr) (a : Ast) (o : Outcome) :
    Eval (sc.ren π) pos (Ast.ren π a) (o.ren π) ↔ Eval sc pos a o := by
  refine ⟨fun h => ?_, Eval.ren hπ hA⟩
  have := Eval.ren hπ hA h
  rwa [Scope.ren_ren hπ, Ast.ren_ren hπ, Outcome.ren_ren hπ] at this

end

theorem fixesCells_swap {x y : Text} (hx : ∀ r : A1, r.text ≠ x) (hy : ∀ r : A1, r.text ≠ y) : FixesCells (swapName x y) := fun r => by
  unfold swapName
  rw [if_neg (hx r), if_neg (hy r)]

mutual
/-- All names in a formula. -/
def namesOf : Ast → List Text
  | .call n args => n :: namesOfL args
  | .fn n ps body => n :: (ps ++ namesOf body)
  | .infix l _ r => namesOf l ++ namesOf r
  | .ref r => [r]
  | .var n a => n :: namesOf a
  | .cellVar n _ => [n]
  | _ => []
/-- All names in some formulas. -/
def namesOfL : List Ast → List Text
  | [] => []
  | a :: as => namesOf a ++ namesOfL as
end

theorem namesOfL_eq (as : List Ast) : namesOfL as = as.flatMap namesOf := by
  induction as <;> simp [namesOfL, *]

theorem swapName_other {x y n : Text} (h1 : n ≠ x) (h2 : n ≠ y) : swapName x y n = n := by
  unfold swapName; rw [if_neg h1, if_neg h2]

/-- A formula without the two names stays. -/
theorem ren_eq {x y : Text} {a : Ast} (hx : x ∉ namesOf a) (hy : y ∉ namesOf a) : ren (swapName x y) a = a := by
  induction a using Ast.ind with
  | hcall n args ih =>
    simp only [namesOf, namesOfL_eq, List.mem_cons, List.mem_flatMap, not_or, not_exists, not_and] at hx hy
    simp only [ren, renL_eq]
    rw [swapName_other (Ne.symm hx.1) (Ne.symm hy.1)]
    congr 1
    conv => rhs; rw [← List.map_id args]
    exact List.map_congr_left fun a ha => ih a ha (hx.2 a ha) (hy.2 a ha)
  | hfn n ps b ih =>
    simp only [namesOf, List.mem_cons, List.mem_append, not_or] at hx hy
    simp only [ren]
    rw [swapName_other (Ne.symm hx.1) (Ne.symm hy.1), ih hx.2.2 hy.2.2]
    congr 1
    conv => rhs; rw [← List.map_id ps]
    exact List.map_congr_left fun p hp => swapName_other (fun h => hx.2.1 (h ▸ hp)) (fun h => hy.2.1 (h ▸ hp))
  | hinfix l op r ih1 ih2 =>
    simp only [namesOf, List.mem_append, not_or] at hx hy
    simp only [ren]
    rw [ih1 hx.1 hy.1, ih2 hx.2 hy.2]
  | hvar n a ih =>
    simp only [namesOf, List.mem_cons, not_or] at hx hy
    simp only [ren]
    rw [swapName_other (Ne.symm hx.1) (Ne.symm hy.1), ih hx.2 hy.2]
  | href r =>
    simp only [namesOf, List.mem_singleton] at hx hy
    simp only [ren]
    rw [swapName_other (Ne.symm hx) (Ne.symm hy)]
  | hcv n v =>
    simp only [namesOf, List.mem_singleton] at hx hy
    simp only [ren]
    rw [swapName_other (Ne.symm hx) (Ne.symm hy)]
  | _ => rfl

theorem natText_digit (n : Nat) : ∃ c ∈ natText n, c.isDigit = true := by
  have hne : natText n ≠ [] := Nat.toDigits_ne_nil
  obtain ⟨c, hc⟩ := List.exists_mem_of_ne_nil _ hne
  exact ⟨c, hc, Nat.isDigit_of_mem_toDigits (by decide) (by decide) hc⟩

/-- The name of every cell or range of cells has a digit. -/
theorem a1_digit (r : A1) : ∃ c ∈ r.text, c.isDigit = true := by
  cases r with
  | cell a =>
    obtain ⟨c, h1, h2⟩ := natText_digit (a.y + 1)
    exact ⟨c, List.mem_append_right _ h1, h2⟩
  | rows s e =>
    obtain ⟨c, h1, h2⟩ := natText_digit (s + 1)
    exact ⟨c, List.mem_append_left _ h1, h2⟩
  | colRows x s e =>
    obtain ⟨c, h1, h2⟩ := natText_digit (s + 1)
    exact ⟨c, List.mem_append_left _ (List.mem_append_right _ h1), h2⟩

/-- A name without digits is not that of a cell. -/
theorem not_cell {x : Text} (h : ∀ c ∈ x, c.isDigit = false) (r : A1) : r.text ≠ x := by
  rintro rfl
  obtain ⟨c, h1, h2⟩ := a1_digit r
  rw [h c h1] at h2; cases h2

end Verif.Ast
