import Verif.Ast.Denote
import Verif.Ast.Apart
/-!
# C119: a compiled formula has the value of the formula written

A spreadsheet program gives formulas values: numbers to literals, values to cells, results to operators and to its functions.  Whatever these are,
if they agree with the definitions of the source - the value of a defined variable is that of its right hand side, and a defined function gives the
value of its body with the parameters standing for the values of the arguments - then the formula compiled has the value of the formula written.
-/
namespace Verif.Ast

/-- What a spreadsheet program makes of the parts of formulas, for values in `D`. -/
structure Values (D : Type) where
  /-- literals -/
  lit : Ast → D
  /-- infix operators -/
  op : Text → D → D → D
  /-- names: cells and variables -/
  name : Text → D
  /-- functions -/
  fn : Text → List D → D
  /-- assignments -/
  assign : Text → D → D
  /-- definitions of functions -/
  define : Text → List Text → D → D

mutual
/-- The value of a formula, where the names in `ρ` stand for the values given there. -/
def Values.value {D : Type} (M : Values D) (ρ : List (Text × D)) : Ast → D
  | .call f args => M.fn f (M.valueL ρ args)
  | .infix l o r => M.op o (M.value ρ l) (M.value ρ r)
  | .ref x => match ρ.lookup x with
    | some d => d
    | none => M.name x
  | .var n a => M.assign n (M.value ρ a)
  | .fn n ps body => M.define n ps (M.value ρ body)
  | .bool b => M.lit (.bool b)
  | .date t => M.lit (.date t)
  | .float p s v => M.lit (.float p s v)
  | .int p s v => M.lit (.int p s v)
  | .text t => M.lit (.text t)
  | .cellVar n v => M.lit (.cellVar n v)
/-- The values of several formulas. -/
def Values.valueL {D : Type} (M : Values D) (ρ : List (Text × D)) : List Ast → List D
  | [] => []
  | a :: as => M.value ρ a :: M.valueL ρ as
end

/-- The values agree with the definitions in the scope, for a formula in the cell `pos`. -/
structure Agrees {D : Type} (M : Values D) (sc : Scope) (pos : Option Addr) : Prop where
  vars : ∀ x d a, sc.variables x = some d → resolve pos d = some a → M.name x = M.value [] a
  fns : ∀ f nm ps body, sc.functions f = some (.fn nm ps body) → ∀ ds : List D, ds.length = ps.length → M.fn f ds = M.value (ps.zip ds) body

theorem valueL_eq {D : Type} (M : Values D) (ρ : List (Text × D)) (as : List Ast) : M.valueL ρ as = as.map (M.value ρ) := by
  induction as <;> simp [Values.valueL, *]

theorem value_replaceVar {D : Type} {M : Values D} {x : Text} {r : Ast} (h : M.name x = M.value [] r) (a : Ast) :
    M.value [] (replaceVar x r a) = M.value [] a := by
  induction a using Ast.ind with
  | hcall n args ih =>
    have : (args.map (replaceVar x r)).map (M.value []) = args.map (M.value []) := by
      rw [List.map_map]; exact List.map_congr_left ih
    simp only [replaceVar, replaceVars_eq, Values.value, valueL_eq, this]
  | hinfix l op r h1 h2 => simp only [replaceVar, Values.value, h1, h2]
  | hfn _ _ _ ih => simp only [replaceVar, Values.value, ih]
  | hvar _ _ ih => simp only [replaceVar, Values.value, ih]
  | href y =>
    simp only [replaceVar]
    by_cases hxy : x = y
    · subst hxy; simp [Values.value, h]
    · simp [hxy]
  | _ => simp [replaceVar, Values.value]

theorem lookup_zip_map {D : Type} (g : Ast → D) (ps : List Text) (es : List Ast) (y : Text) :
    (ps.zip (es.map g)).lookup y = (bind ps es y).map g := by
  induction ps generalizing es with
  | nil => simp [bind]
  | cons p ps ih =>
    cases es with
    | nil => simp [bind]
    | cons e es =>
      have := ih es
      simp only [bind, List.zip_cons_cons, List.map_cons, List.lookup_cons] at this ⊢
      cases h : y == p <;> simp_all

theorem value_subst_bind {D : Type} {M : Values D} {ps : List Text} {es : List Ast} (a : Ast) :
    M.value [] (subst (bind ps es) a) = M.value (ps.zip (es.map (M.value []))) a := by
  induction a using Ast.ind with
  | hcall n args ih =>
    have : (args.map (subst (bind ps es))).map (M.value []) = args.map (M.value (ps.zip (es.map (M.value [])))) := by
      rw [List.map_map]; exact List.map_congr_left ih
    simp only [subst, substL_eq, Values.value, valueL_eq, this]
  | hinfix l op r h1 h2 => simp only [subst, Values.value, h1, h2]
  | hfn _ _ _ ih => simp only [subst, Values.value, ih]
  | hvar _ _ ih => simp only [subst, Values.value, ih]
  | href y =>
    simp only [subst, Values.value, lookup_zip_map]
    cases h : bind ps es y <;> simp [Values.value]
  | _ => simp [subst, Values.value]

/-- A call of a defined function preserves the value. -/
theorem value_callFn {D : Type} {M : Values D} {f nm : Text} {ps : List Text} {body a b : Ast}
    (hF : ∀ ds : List D, ds.length = ps.length → M.fn f ds = M.value (ps.zip ds) body)
    (h : callFn f (.fn nm ps body) a = .ok b) (hc : ∀ p ∈ ps, p ∉ refNames a) : M.value [] b = M.value [] a := by
  revert hc
  refine callFn_ind (P := fun a b => (∀ p ∈ ps, p ∉ refNames a) → M.value [] b = M.value [] a) ?_ ?_ ?_ ?_ ?_ ?_ h
  · intro args hl hc
    have hcl : ∀ e ∈ args, ∀ p ∈ ps, p ∉ refNames e := by
      intro e he p hp hpe
      exact hc p hp (by simp only [refNames, refNamesL_eq, List.mem_flatMap]; exact ⟨e, he, hpe⟩)
    rw [replaceSeq_eq_subst ps args body hcl hl, value_subst_bind]
    simp only [Values.value, valueL_eq]
    rw [hF _ (by simpa using hl)]
  · intro n args args' hn hf hc
    have hA : args'.map (M.value []) = args.map (M.value []) := by
      have hc' : ∀ e ∈ args, ∀ p ∈ ps, p ∉ refNames e := by
        intro e he p hp hpe
        exact hc p hp (by simp only [refNames, refNamesL_eq, List.mem_flatMap]; exact ⟨e, he, hpe⟩)
      clear hc
      induction hf with
      | nil => rfl
      | cons h1 _ ih =>
        simp only [List.map_cons]
        rw [h1 (hc' _ (by simp)), ih fun e he => hc' e (by simp [he])]
    simp only [Values.value, valueL_eq, hA]
  · intro l op r l' r' h1 h2 hc
    simp only [refNames, List.mem_append, not_or] at hc
    simp only [Values.value, h1 fun p hp => (hc p hp).1, h2 fun p hp => (hc p hp).2]
  · intro n a a' h1 hc
    simp only [refNames] at hc; simp only [Values.value, h1 hc]
  · intro n qs b _; rfl
  · intro a _ _; rfl

/-- One round preserves the value. -/
theorem value_round {D : Type} {M : Values D} {sc : Scope} {pos : Option Addr} {P : Text → Prop} (hw : Wf sc pos) (hh : Hygienic sc pos P)
    (hM : Agrees M sc pos) {a b : Ast} (ha : Inv P a) (h : Round sc pos a (.ok b)) : M.value [] b = M.value [] a := by
  obtain ⟨σ, fs, hσ, hval, hfs, he⟩ := round_ok hw h
  have h1 : ∀ (σ : List (Text × Ast)) (a : Ast), (∀ q ∈ σ, ValueOf sc pos q.1 q.2) → M.value [] (replaceSeq σ a) = M.value [] a := by
    intro σ
    induction σ with
    | nil => intro a _; rfl
    | cons q σ ih =>
      intro a hq
      simp only [replaceSeq, List.foldl_cons]
      have := ih (replaceVar q.1 q.2 a) fun q' h => hq q' (by simp [h])
      rw [replaceSeq] at this
      obtain ⟨d, hd, hr⟩ := hq q (by simp)
      rw [this, value_replaceVar (hM.vars _ _ _ hd hr)]
  rw [← h1 σ a hval]
  have hinv : Inv P (replaceSeq σ a) := ha.replaceSeq fun p hp => (hval p hp).inv hw hh
  refine (evalFns_inv (I := fun b => Inv P b ∧ M.value [] b = M.value [] (replaceSeq σ a)) fs ?_ ⟨hinv, rfl⟩ he).2
  intro f _ d c c' hfd hc hcall
  obtain ⟨nm, ps, body, rfl, -⟩ := hw.fns f d hfd
  refine ⟨hc.1.callFn hw hh hfd hcall, ?_⟩
  rw [← hc.2]
  exact value_callFn (hM.fns f nm ps body hfd) hcall fun p hp hpa => hc.1.2 p hpa (hh.params f nm ps body hfd p hp)

theorem value_loop {D : Type} {M : Values D} {sc : Scope} {pos : Option Addr} {P : Text → Prop} (hw : Wf sc pos) (hh : Hygienic sc pos P)
    (hM : Agrees M sc pos) {last : Refs} {a : Ast} {o : Outcome} (h : Loop sc pos last a o) (ha : Inv P a) :
    ∀ b, o = .ok b → M.value [] b = M.value [] a := by
  induction h with
  | stop _ => rintro b ⟨⟩; rfl
  | again _ hr _ ih =>
    intro b hb
    rw [ih (inv_round hw hh ha hr) b hb, value_round hw hh hM ha hr]
  | err => rintro b ⟨⟩
  | panic => rintro b ⟨⟩

/-- C119: whatever a spreadsheet program makes of literals, operators, cells and functions, as long as it agrees with the definitions, the compiled
formula has the value of the formula written, if the names of parameters are used for nothing else.  Definitions may depend on each other in any
way, also on themselves. -/
theorem C119_value_partial (sc : Scope) (pos : Option Addr) (isParam : Text → Prop) (hw : Wf sc pos) (hh : Hygienic sc pos isParam)
    (a b : Ast) (hpl : plain a) (hp : ∀ r ∈ refNames a, ¬ isParam r) (h : Eval sc pos a (.ok b))
    (D : Type) (M : Values D) (hM : Agrees M sc pos) : M.value [] b = M.value [] a :=
  value_loop hw hh hM h ⟨hpl, hp⟩ b rfl

/-- C119: it does so always if only variables are defined. -/
theorem C119_variables (sc : Scope) (pos : Option Addr) (hw : Wf sc pos) (hno : ∀ f, sc.functions f = none)
    (a b : Ast) (hpl : plain a) (h : Eval sc pos a (.ok b)) (D : Type) (M : Values D) (hM : Agrees M sc pos) :
    M.value [] b = M.value [] a :=
  C119_value_partial sc pos (fun _ => False) hw
    ⟨fun g nm ps body hg => (by rw [hno] at hg; cases hg), fun _ _ _ _ _ _ _ h => h, fun g nm ps body hg => (by rw [hno] at hg; cases hg)⟩
    a b hpl (fun _ _ h => h) h D M hM

/-- C119: what a formula means by its definitions (C21, C80) has the value of the formula. -/
theorem C119_meaning (sc : Scope) (pos : Option Addr) (a b : Ast) (h : Means sc pos a b) (D : Type) (M : Values D) (hM : Agrees M sc pos) :
    M.value [] b = M.value [] a := by
  induction h with
  | leaf _ => rfl
  | ref _ => rfl
  | value h1 h2 _ ih => rw [ih, Values.value]; simp [hM.vars _ _ _ h1 h2]
  | @call f args bs _ hl _ ih =>
    simp only [Values.value, valueL_eq]
    congr 1
    refine List.ext_getElem (by simp [hl]) fun i h1 h2 => ?_
    rw [List.getElem_map, List.getElem_map]
    exact ih i _ _ (List.getElem?_eq_getElem (by simpa using h2)) (List.getElem?_eq_getElem (by simpa using h1))
  | body h1 h2 _ ih =>
    rw [ih, value_subst_bind, Values.value, valueL_eq, hM.fns _ _ _ _ h1 _ (by simpa using h2)]
  | «infix» _ _ ih1 ih2 => simp only [Values.value, ih1, ih2]
  | var _ ih => simp only [Values.value, ih]

/-! ## Values that agree with the definitions -/

/-- The values after `k` unfoldings of the definitions. -/
def Values.unfold {D : Type} (M : Values D) (sc : Scope) (pos : Option Addr) : Nat → Values D
  | 0 => M
  | k + 1 =>
    { M with
      name := fun x => match sc.variables x with
        | some d => match resolve pos d with
          | some a => (M.unfold sc pos k).value [] a
          | none => M.name x
        | none => M.name x
      fn := fun f ds => match sc.functions f with
        | some (.fn _ ps body) => if ds.length = ps.length then (M.unfold sc pos k).value (ps.zip ds) body else M.fn f ds
        | _ => M.fn f ds }

/-- The values of a name agree. -/
def AgreeOn {D : Type} (M M' : Values D) : Name → Prop
  | .v x => M.name x = M'.name x
  | .f f => ∀ ds : List D, M.fn f ds = M'.fn f ds

theorem lookup_zip_none {D : Type} {ps : List Text} {ds : List D} (hl : ds.length = ps.length) {x : Text} (h : (ps.zip ds).lookup x = none) :
    x ∉ ps := by
  induction ps generalizing ds with
  | nil => simp
  | cons p ps ih =>
    cases ds with
    | nil => simp at hl
    | cons d ds =>
      simp only [List.zip_cons_cons, List.lookup_cons] at h
      cases hx : x == p
      · rw [hx] at h
        simp only [List.mem_cons, not_or]
        exact ⟨by simpa using hx, ih (by simpa using hl) h⟩
      · rw [hx] at h; cases h

/-- The value depends only on the names used. -/
theorem value_congr {D : Type} {M M' : Values D} (hlit : M.lit = M'.lit) (hop : M.op = M'.op) (has : M.assign = M'.assign)
    (hdef : M.define = M'.define) {ρ : List (Text × D)} (a : Ast)
    (hV : ∀ x ∈ refNames a, ρ.lookup x = none → M.name x = M'.name x) (hF : ∀ f ∈ callNames a, ∀ ds, M.fn f ds = M'.fn f ds) :
    M.value ρ a = M'.value ρ a := by
  induction a using Ast.ind with
  | hcall n args ih =>
    have : args.map (M.value ρ) = args.map (M'.value ρ) := by
      refine List.map_congr_left fun b hb => ih b hb (fun x hx => hV x ?_) (fun x hx => hF x ?_)
      · simp only [refNames, refNamesL_eq, List.mem_flatMap]; exact ⟨b, hb, hx⟩
      · simp only [callNames, callNamesL_eq, List.mem_flatMap, List.mem_cons]; exact .inr ⟨b, hb, hx⟩
    simp only [Values.value, valueL_eq, this, hF n (by simp [callNames])]
  | hinfix l op r h1 h2 =>
    simp only [refNames, callNames, List.mem_append] at hV hF
    simp only [Values.value, hop, h1 (fun x hx => hV x (.inl hx)) (fun x hx => hF x (.inl hx)),
      h2 (fun x hx => hV x (.inr hx)) (fun x hx => hF x (.inr hx))]
  | hfn _ _ _ ih => simp only [Values.value, hdef, ih (by simpa [refNames] using hV) (by simpa [callNames] using hF)]
  | hvar _ _ ih => simp only [Values.value, has, ih (by simpa [refNames] using hV) (by simpa [callNames] using hF)]
  | href y =>
    simp only [Values.value]
    cases h : ρ.lookup y with
    | some e => rfl
    | none => exact hV y (by simp [refNames]) h
  | _ => simp [Values.value, hlit]

theorem unfold_rest {D : Type} (M : Values D) (sc : Scope) (pos : Option Addr) (k : Nat) :
    (M.unfold sc pos k).lit = M.lit ∧ (M.unfold sc pos k).op = M.op ∧ (M.unfold sc pos k).assign = M.assign ∧
      (M.unfold sc pos k).define = M.define := by
  cases k <;> exact ⟨rfl, rfl, rfl, rfl⟩

/-- The values of names and functions that are not defined stay. -/
theorem unfold_undefined {D : Type} (M : Values D) (sc : Scope) (pos : Option Addr) (k : Nat) :
    (∀ x, sc.variables x = none → (M.unfold sc pos k).name x = M.name x) ∧
    (∀ f, sc.functions f = none → (M.unfold sc pos k).fn f = M.fn f) := by
  cases k with
  | zero => exact ⟨fun _ _ => rfl, fun _ _ => rfl⟩
  | succ k => exact ⟨fun x hx => by simp [Values.unfold, hx], fun f hf => by funext ds; simp [Values.unfold, hf]⟩


theorem agreeOn_undefined {D : Type} (M : Values D) {sc : Scope} {pos : Option Addr} {n : Name} (h : ¬ Defined sc n) (k l : Nat) :
    AgreeOn (M.unfold sc pos k) (M.unfold sc pos l) n := by
  cases n with
  | v x =>
    have hx : sc.variables x = none := by simpa [Defined] using h
    rw [AgreeOn, (unfold_undefined M sc pos k).1 x hx, (unfold_undefined M sc pos l).1 x hx]
  | f x =>
    have hx : sc.functions x = none := by simpa [Defined] using h
    rw [AgreeOn, (unfold_undefined M sc pos k).2 x hx, (unfold_undefined M sc pos l).2 x hx]
    intro; rfl

/-- The value of a name does not change any more after as many unfoldings as its rank. -/
theorem unfold_stable {D : Type} (M : Values D) {sc : Scope} {pos : Option Addr} {order : List Name} (hw : Wf sc pos)
    (hac : Acyclic sc pos order) (k : Nat) :
    ∀ n, (Defined sc n → order.idxOf n < k) → AgreeOn (M.unfold sc pos k) (M.unfold sc pos (k + 1)) n := by
  induction k with
  | zero =>
    intro n hn
    by_cases hd : Defined sc n
    · exact absurd (hn hd) (by omega)
    · exact agreeOn_undefined M hd _ _
  | succ k ih =>
    intro n hn
    by_cases hd : Defined sc n
    · cases n with
      | v x =>
        obtain ⟨d, hd'⟩ := Option.isSome_iff_exists.mp hd
        obtain ⟨a, ha, _⟩ := hw.vars x d hd'
        show (M.unfold sc pos (k + 1)).name x = (M.unfold sc pos (k + 2)).name x
        rw [Values.unfold, Values.unfold]
        simp only [hd', ha]
        refine value_congr ?_ ?_ ?_ ?_ a ?_ ?_
        any_goals simp only [(unfold_rest M sc pos k).1, (unfold_rest M sc pos k).2.1, (unfold_rest M sc pos k).2.2.1,
          (unfold_rest M sc pos k).2.2.2, (unfold_rest M sc pos (k + 1)).1, (unfold_rest M sc pos (k + 1)).2.1,
          (unfold_rest M sc pos (k + 1)).2.2.1, (unfold_rest M sc pos (k + 1)).2.2.2]
        · intro y hy _
          exact ih (.v y) fun hdy => by
            have := hac.2 (.v x) (.v y) hd hdy ⟨d, a, hd', ha, hy⟩
            have := hn hd; omega
        · intro y hy
          exact ih (.f y) fun hdy => by
            have := hac.2 (.v x) (.f y) hd hdy ⟨d, a, hd', ha, hy⟩
            have := hn hd; omega
      | f g =>
        obtain ⟨d, hd'⟩ := Option.isSome_iff_exists.mp hd
        obtain ⟨nm, ps, body, rfl, _⟩ := hw.fns g d hd'
        show ∀ ds, (M.unfold sc pos (k + 1)).fn g ds = (M.unfold sc pos (k + 2)).fn g ds
        intro ds
        rw [Values.unfold, Values.unfold]
        simp only [hd']
        by_cases hl : ds.length = ps.length
        · rw [if_pos hl, if_pos hl]
          refine value_congr ?_ ?_ ?_ ?_ body ?_ ?_
          any_goals simp only [(unfold_rest M sc pos k).1, (unfold_rest M sc pos k).2.1, (unfold_rest M sc pos k).2.2.1,
            (unfold_rest M sc pos k).2.2.2, (unfold_rest M sc pos (k + 1)).1, (unfold_rest M sc pos (k + 1)).2.1,
            (unfold_rest M sc pos (k + 1)).2.2.1, (unfold_rest M sc pos (k + 1)).2.2.2]
          · intro y hy hb
            exact ih (.v y) fun hdy => by
              have := hac.2 (.f g) (.v y) hd hdy ⟨nm, ps, body, hd', hy, by
                rintro p hp ⟨⟩; exact lookup_zip_none hl hb hp⟩
              have := hn hd; omega
          · intro y hy
            exact ih (.f y) fun hdy => by
              have := hac.2 (.f g) (.f y) hd hdy ⟨nm, ps, body, hd', hy, by simp⟩
              have := hn hd; omega
        · rw [if_neg hl, if_neg hl]
    · exact agreeOn_undefined M hd _ _

/-- C119: if no definition depends on itself, there are values that agree with the definitions, whatever is made of literals, operators and the names
and functions that are not defined. -/
theorem C119_exists {D : Type} (M : Values D) (sc : Scope) (pos : Option Addr) (order : List Name) (hw : Wf sc pos) (hac : Acyclic sc pos order) :
    ∃ M' : Values D, Agrees M' sc pos ∧ M'.lit = M.lit ∧ M'.op = M.op ∧ M'.assign = M.assign ∧ M'.define = M.define ∧
      (∀ x, sc.variables x = none → M'.name x = M.name x) ∧ (∀ f, sc.functions f = none → M'.fn f = M.fn f) := by
  refine ⟨M.unfold sc pos order.length, ⟨?_, ?_⟩, (unfold_rest M sc pos _).1, (unfold_rest M sc pos _).2.1, (unfold_rest M sc pos _).2.2.1,
    (unfold_rest M sc pos _).2.2.2, (unfold_undefined M sc pos _).1, (unfold_undefined M sc pos _).2⟩
  · intro x d a hd ha
    have := unfold_stable M hw hac order.length (.v x) fun hd' => List.idxOf_lt_length_iff.mpr (hac.1 _ hd')
    simp only [AgreeOn] at this
    rw [this, Values.unfold]
    simp [hd, ha]
  · intro f nm ps body hf ds hl
    have := unfold_stable M hw hac order.length (.f f) fun hd' => List.idxOf_lt_length_iff.mpr (hac.1 _ hd')
    simp only [AgreeOn] at this
    rw [this, Values.unfold]
    simp [hf, hl]

/-- C119: a compiled formula that uses no defined name has, for a spreadsheet program that knows nothing of the definitions, the value the formula
written has with them. -/
theorem C119_without_partial (sc : Scope) (pos : Option Addr) (isParam : Text → Prop) (hw : Wf sc pos) (hh : Hygienic sc pos isParam)
    (a b : Ast) (hpl : plain a) (hp : ∀ r ∈ refNames a, ¬ isParam r) (h : Eval sc pos a (.ok b)) (hb : ∀ n, Defined sc n → ¬ Uses b n)
    (D : Type) (M M' : Values D) (hM : Agrees M' sc pos) (h1 : M'.lit = M.lit) (h2 : M'.op = M.op) (h3 : M'.assign = M.assign)
    (h4 : M'.define = M.define) (h5 : ∀ x, sc.variables x = none → M'.name x = M.name x)
    (h6 : ∀ f, sc.functions f = none → M'.fn f = M.fn f) : M.value [] b = M'.value [] a := by
  rw [← C119_value_partial sc pos isParam hw hh a b hpl hp h D M' hM]
  refine value_congr h1.symm h2.symm h3.symm h4.symm b (fun x hx _ => ?_) (fun f hf ds => ?_)
  · refine (h5 x ?_).symm
    cases hv : sc.variables x with
    | none => rfl
    | some d => exact absurd hx (hb (.v x) (by simp [Defined, hv]))
  · refine (congrFun (h6 f ?_) ds).symm
    cases hv : sc.functions f with
    | none => rfl
    | some d => exact absurd hf (hb (.f f) (by simp [Defined, hv]))

/-! ## A violation -/

/-- Names stand for numbers, `+` adds. -/
def sums : Values Int where
  lit := fun | .int _ _ v => v | _ => 0
  op := fun o l r => if o = T "+" then l + r else 0
  name := fun x => if x = T "b" then 10 else 0
  fn := fun f ds => if f = T "f" then ds.sum else 0
  assign := fun _ d => d
  define := fun _ _ d => d

theorem sums_agrees : Agrees sums addScope none where
  vars := by intro x d a h; cases h
  fns := by
    intro f nm ps body h ds hl
    have := mem_of_lookup _ _ _ h
    simp only [List.mem_cons, Prod.mk.injEq, List.not_mem_nil, or_false] at this
    obtain ⟨rfl, he⟩ := this
    cases he
    match ds, hl with
    | [d1, d2], _ =>
      show d1 + (d2 + 0) = d1 + d2
      rw [Int.add_zero]

/-- C119 fails if an argument has the name of a later parameter: with `fn f(a, b) a + b` and the number 10 in the cell `b`, `=f(b, 1)` has the
value 11, and the formula compiled has the value 2. -/
theorem C119_violated : ∃ (sc : Scope) (a b : Ast) (M : Values Int), Agrees M sc none ∧ Eval sc none a (.ok b) ∧
    M.value [] a = 11 ∧ M.value [] b = 2 :=
  ⟨addScope, _, _, sums, sums_agrees, C21_violated.1, rfl, rfl⟩

end Verif.Ast
