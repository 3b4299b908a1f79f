import Verif.Ast.Props
import Mathlib.Data.List.Induction
/-
Variables as assignments made one after the other.
-/
namespace Verif.Ast

/-- The values of the names after the assignments, made one after the other: each value is the formula with the names assigned before
replaced by their values. -/
def assign : List (Text × Ast) → Text → Option Ast :=
  List.foldl (fun ρ d k => if k = d.1 then some (subst ρ d.2) else ρ k) fun _ => none

/-- No name is assigned twice, and no value uses the name it is assigned to or a name that is assigned later. -/
def InOrder : List (Text × Ast) → Prop
  | [] => True
  | d :: ds => (∀ e ∈ ds, e.1 ≠ d.1) ∧ (∀ x ∈ refNames d.2, x ≠ d.1 ∧ ∀ e ∈ ds, x ≠ e.1) ∧ InOrder ds

theorem assign_snoc (l : List (Text × Ast)) (d : Text × Ast) (k : Text) :
    assign (l ++ [d]) k = if k = d.1 then some (subst (assign l) d.2) else assign l k := by
  simp only [assign, List.foldl_append, List.foldl_cons, List.foldl_nil]

theorem assign_append_ne (l m : List (Text × Ast)) (k : Text) (h : ∀ e ∈ m, k ≠ e.1) : assign (l ++ m) k = assign l k := by
  induction m generalizing l with
  | nil => rw [List.append_nil]
  | cons d m ih =>
    rw [List.append_cons, ih _ fun e he => h e (List.mem_cons_of_mem _ he), assign_snoc, if_neg (h d List.mem_cons_self)]

theorem assign_none {l : List (Text × Ast)} {k : Text} (h : ∀ e ∈ l, k ≠ e.1) : assign l k = none := by
  have := assign_append_ne [] l k h
  rw [List.nil_append] at this
  rw [this]; rfl

theorem inOrder_append {l m : List (Text × Ast)} (h : InOrder (l ++ m)) : InOrder m := by
  induction l with
  | nil => exact h
  | cons d l ih => exact ih h.2.2

theorem inOrder_before {l m : List (Text × Ast)} {d : Text × Ast} (h : InOrder (l ++ d :: m)) : ∀ e ∈ l, d.1 ≠ e.1 := by
  induction l with
  | nil => simp
  | cons c l ih =>
    intro e he
    rcases List.mem_cons.mp he with rfl | he
    · exact h.1 d (by simp)
    · exact ih h.2.2 e he

theorem assign_eq {l m : List (Text × Ast)} {d : Text × Ast} (h : InOrder (l ++ d :: m)) :
    assign (l ++ d :: m) d.1 = some (subst (assign (l ++ d :: m)) d.2) := by
  obtain ⟨h1, h2, -⟩ := inOrder_append h
  rw [List.append_cons, assign_append_ne _ _ _ fun e he => (h1 e he).symm, assign_snoc, if_pos rfl]
  congr 1
  refine subst_congr _ _ _ fun x hx => ?_
  rw [assign_append_ne _ _ _ (h2 x hx).2, assign_snoc, if_neg (h2 x hx).1]

theorem interp_subst (V : Text → Option Ast) (a : Ast) : interp V (fun _ => none) noρ a = subst V a := by
  induction a using Ast.ind with
  | hcall n args ih => simp only [interp, interpL_eq, subst, substL_eq]; rw [List.map_congr_left ih]
  | hinfix l op r h1 h2 => simp only [interp, subst, h1, h2]
  | hfn _ _ _ ih => simp only [interp, subst, ih]
  | hvar _ _ ih => simp only [interp, subst, ih]
  | href y => simp [interp, subst]
  | _ => simp [interp, subst]

/-- The variables of the scope are those of the list, in an order in which they can be assigned; there are no functions. -/
structure Assigns (sc : Scope) (pos : Option Addr) (l : List (Text × Ast)) : Prop where
  functions : ∀ g, sc.functions g = none
  names : ∀ n, (sc.variables n).isSome → n ∈ l.map Prod.fst
  values : ∀ d ∈ l, plain d.2 ∧ ∃ v, sc.variables d.1 = some v ∧ resolve pos v = some d.2
  order : InOrder l

theorem idx_lt {l m : List (Text × Ast)} {d : Text × Ast} {x : Text} (h : InOrder (l ++ d :: m)) (hx : x ∈ (l ++ d :: m).map Prod.fst)
    (hr : x ∈ refNames d.2) : ((l ++ d :: m).map fun e => Name.v e.1).idxOf (.v x) < ((l ++ d :: m).map fun e => Name.v e.1).idxOf (.v d.1) := by
  obtain ⟨h1, h2, -⟩ := inOrder_append h
  have hd : (Name.v d.1) ∉ l.map fun e => Name.v e.1 := by
    intro hh
    obtain ⟨e, he, hee⟩ := List.mem_map.mp hh
    exact inOrder_before h e he (Name.v.inj hee).symm
  have hxl : (Name.v x) ∈ l.map fun e => Name.v e.1 := by
    rw [List.map_append, List.mem_append] at hx
    rcases hx with hx | hx
    · obtain ⟨e, he, hee⟩ := List.mem_map.mp hx
      exact List.mem_map.mpr ⟨e, he, by rw [hee]⟩
    · rw [List.map_cons, List.mem_cons] at hx
      rcases hx with hx | hx
      · exact absurd hx (h2 x hr).1
      · obtain ⟨e, he, hee⟩ := List.mem_map.mp hx
        exact absurd hee.symm ((h2 x hr).2 e he)
  rw [List.map_append, List.map_cons, List.idxOf_append_of_mem hxl, List.idxOf_append_of_notMem hd, List.idxOf_cons_self]
  have := List.idxOf_lt_length_iff.mpr hxl
  omega

theorem Assigns.defined {sc : Scope} {pos : Option Addr} {l : List (Text × Ast)} (h : Assigns sc pos l) {x : Text} {v : Ast}
    (hx : sc.variables x = some v) : ∃ d ∈ l, d.1 = x ∧ plain d.2 ∧ resolve pos v = some d.2 := by
  obtain ⟨d, hd, rfl⟩ := List.mem_map.mp (h.names x (by rw [hx]; rfl))
  obtain ⟨h1, w, h2, h3⟩ := h.values d hd
  rw [hx] at h2; cases h2
  exact ⟨d, hd, rfl, h1, h3⟩

theorem Assigns.wf {sc : Scope} {pos : Option Addr} {l : List (Text × Ast)} (h : Assigns sc pos l) : Wf sc pos :=
  ⟨fun g d hg => (by rw [h.functions g] at hg; cases hg), fun x v hx => (by
    obtain ⟨d, -, -, h1, h2⟩ := h.defined hx
    exact ⟨d.2, h2, h1⟩)⟩

theorem Assigns.acyclic {sc : Scope} {pos : Option Addr} {l : List (Text × Ast)} (h : Assigns sc pos l) :
    Acyclic sc pos (l.map fun d => Name.v d.1) := by
  constructor
  · intro n hn
    cases n with
    | v x =>
      obtain ⟨d, hd, rfl⟩ := List.mem_map.mp (h.names x hn)
      exact List.mem_map.mpr ⟨d, hd, rfl⟩
    | f g => simp [Defined, h.functions g] at hn
  · intro n m hn hm hmen
    cases n with
    | f g => simp [Defined, h.functions g] at hn
    | v x =>
      cases m with
      | f g => simp [Defined, h.functions g] at hm
      | v y =>
        obtain ⟨v, a, e1, e2, e3⟩ := hmen
        obtain ⟨d, hd, rfl, -, h2⟩ := h.defined e1
        rw [e2] at h2; cases h2
        obtain ⟨s, t, rfl⟩ := List.append_of_mem hd
        exact idx_lt h.order (h.names y hm) e3

/-- With assignments and without functions, every evaluation ends with the values put in for the names; and there is one. -/
theorem eval_assigns {sc : Scope} {pos : Option Addr} {l : List (Text × Ast)} (h : Assigns sc pos l) (a : Ast) (hpl : plain a) :
    Eval sc pos a (.ok (subst (assign l) a)) ∧ ∀ o, Eval sc pos a o → o = .ok (subst (assign l) a) := by
  have hh : Hygienic sc pos (fun _ => False) :=
    ⟨fun g _ _ _ hg => (by rw [h.functions g] at hg; cases hg), by simp, fun g _ _ _ hg => (by rw [h.functions g] at hg; cases hg)⟩
  have key : ∀ b, Eval sc pos a (.ok b) → b = subst (assign l) a := by
    intro b hb
    have hv := C17_variables_resolved sc pos _ h.wf h.acyclic h.functions a b hpl hb
    rw [C21_full_expansion_partial sc pos _ _ h.wf h.acyclic hh a b hpl (by simp) hb (fun n hn => by
      cases n with
      | v x => exact hv x hn
      | f g => simp [Defined, h.functions g] at hn), expand]
    have hF : (tables sc pos (l.map fun d => Name.v d.1).length).2 = fun _ => none := by
      funext g
      cases (l.map fun d => Name.v d.1).length with
      | zero => rfl
      | succ k => simp only [tables, h.functions g]
    rw [hF, interp_subst]
    refine subst_congr _ _ _ fun x _ => ?_
    -- the tables are the assignments
    have hfix : ∀ d ∈ l, (tables sc pos (l.map fun d => Name.v d.1).length).1 d.1 =
        some (subst (tables sc pos (l.map fun d => Name.v d.1).length).1 d.2) := by
      intro d hd
      obtain ⟨-, v, h1, h2⟩ := h.values d hd
      have hst : SameEntry _ _ (.v d.1) := tables_stable h.wf h.acyclic (l.map fun d => Name.v d.1).length (.v d.1) fun _ =>
        List.idxOf_lt_length_iff.mpr (List.mem_map_of_mem (f := fun d : Text × Ast => Name.v d.1) hd)
      have hst' : (tables sc pos (l.map fun d => Name.v d.1).length).1 d.1 = (tables sc pos ((l.map fun d => Name.v d.1).length + 1)).1 d.1 := hst
      rw [hst']
      simp only [tables, h1, h2, Option.map_some]
      rw [hF, interp_subst]
    have hnone : ∀ x, x ∉ l.map Prod.fst → (tables sc pos (l.map fun d => Name.v d.1).length).1 x = none := by
      intro x hx
      have : sc.variables x = none := by
        cases hv : sc.variables x with
        | none => rfl
        | some v => exact absurd (h.names x (by rw [hv]; rfl)) hx
      cases (l.map fun d => Name.v d.1).length with
      | zero => rfl
      | succ k => simp only [tables, this]
    have main : ∀ (s t : List (Text × Ast)), l = s ++ t → ∀ d ∈ s, (tables sc pos (l.map fun d => Name.v d.1).length).1 d.1 = assign l d.1 := by
      intro s
      induction s using List.reverseRecOn with
      | nil => intro _ _ d hd; cases hd
      | append_singleton s e ih =>
        intro t he d hd
        have he' : l = s ++ e :: t := by rw [he]; simp
        rcases List.mem_append.mp hd with hd | hd
        · exact ih (e :: t) he' d hd
        · rw [List.mem_singleton] at hd; subst hd
          have ho := h.order
          rw [hfix d (by rw [he']; simp)]
          have := assign_eq (l := s) (m := t) (d := d) (by rw [← he']; exact ho)
          rw [← he'] at this
          rw [this]
          congr 1
          refine subst_congr _ _ _ fun y hy => ?_
          by_cases hyl : y ∈ l.map Prod.fst
          · rw [he'] at ho
            obtain ⟨-, h2, -⟩ := inOrder_append ho
            obtain ⟨f, hf, rfl⟩ := List.mem_map.mp hyl
            rw [he', List.mem_append, List.mem_cons] at hf
            rcases hf with hf | rfl | hf
            · exact ih (d :: t) he' f hf
            · exact absurd rfl (h2 _ hy).1
            · exact absurd rfl ((h2 _ hy).2 f hf)
          · rw [hnone y hyl, assign_none fun e he' h' => hyl (List.mem_map.mpr ⟨e, he', h'.symm⟩)]
    by_cases hx : x ∈ l.map Prod.fst
    · obtain ⟨d, hd, rfl⟩ := List.mem_map.mp hx
      exact main l [] (by simp) d hd
    · rw [hnone x hx, assign_none fun e he' h' => hx (List.mem_map.mpr ⟨e, he', h'.symm⟩)]
  obtain ⟨-, o, ho, -⟩ := C19_terminates_partial _ _ _ _ h.wf h.acyclic hh a hpl (by simp)
  have hok : ∀ o, Eval sc pos a o → o = .ok (subst (assign l) a) := by
    intro o ho
    obtain ⟨-, b, rfl⟩ := C18_order_independent _ _ _ h.wf h.acyclic h.functions a hpl _ _ ho ho
    rw [key b ho]
  exact ⟨by rw [← hok o ho]; exact ho, hok⟩

end Verif.Ast
