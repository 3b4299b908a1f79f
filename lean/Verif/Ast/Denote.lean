import Verif.Ast.Flat
namespace Verif.Ast

theorem flat_step_acc {sc : Scope} {pos : Option Addr} {order : List Name}
    (hw : Wf sc pos) (hfl : FlatScope sc pos) (hac : Acyclic sc pos order)
    (last : Refs) (a : Ast) (hpl : plain a) (ha : Flat sc [] a) :
    Acc (fun t s => Step sc pos s t) (last, a) := by
  have key : ∀ k last a, plain a → Flat sc [] a → (∀ n, Defined sc n → Uses a n → order.idxOf n < k) →
      Acc (fun t s => Step sc pos s t) (last, a) := by
    intro k
    induction k with
    | zero =>
      intro last a _ _ hk
      refine ⟨_, ?_⟩
      rintro ⟨l, b⟩ ⟨hns, _⟩
      obtain ⟨n, hn, hu, _⟩ := exists_top hac.1 (fun he => hns (.inl he))
      exact absurd (hk n hn hu) (by omega)
    | succ k ih =>
      intro last a hpl ha hk
      refine ⟨_, ?_⟩
      rintro ⟨l, b⟩ ⟨hns, hr, -⟩
      obtain ⟨h1, h2, h3⟩ := flat_round hw hfl hac hpl ha hr
      refine ih l b h1 h2 ?_
      intro n hn hu
      by_contra hcon
      apply h3 n hn ?_ hu
      intro m hm hum
      have := hk m hm hum
      omega
  exact key order.length last a hpl ha fun n hn _ => List.idxOf_lt_length_iff.mpr (hac.1 n hn)

mutual
/-- Full expansion of a formula, given the expansions `V` of the variables and `F` of the functions;
`ρ` are the values of parameters. -/
def interp (V : Text → Option Ast) (F : Text → Option (List Ast → Ast)) (ρ : Text → Option Ast) : Ast → Ast
  | .call n args => match F n with
    | some φ => φ (interpL V F ρ args)
    | none => .call n (interpL V F ρ args)
  | .fn n ps body => .fn n ps (interp V F ρ body)
  | .infix l op r => .infix (interp V F ρ l) op (interp V F ρ r)
  | .ref y => match ρ y with
    | some e => e
    | none => (V y).getD (.ref y)
  | .var n a => .var n (interp V F ρ a)
  | .bool b => .bool b
  | .date t => .date t
  | .float p s v => .float p s v
  | .int p s v => .int p s v
  | .text t => .text t
  | .cellVar n v => .cellVar n v
/-- `interp` for a list of formulas. -/
def interpL (V : Text → Option Ast) (F : Text → Option (List Ast → Ast)) (ρ : Text → Option Ast) :
    List Ast → List Ast
  | [] => []
  | a :: as => interp V F ρ a :: interpL V F ρ as
end

theorem interpL_eq (V F ρ as) : interpL V F ρ as = as.map (interp V F ρ) := by
  induction as <;> simp [interpL, *]

/-- No parameters. -/
abbrev noρ : Text → Option Ast := fun _ => none

/-- Expansion agrees if the tables agree on the names used. -/
theorem interp_congr {V V' : Text → Option Ast} {F F' : Text → Option (List Ast → Ast)}
    {ρ : Text → Option Ast} (a : Ast) (hV : ∀ x ∈ refNames a, ρ x = none → V x = V' x)
    (hF : ∀ x ∈ callNames a, F x = F' x) : interp V F ρ a = interp V' F' ρ a := by
  induction a using Ast.ind with
  | hcall n args ih =>
    have : args.map (interp V F ρ) = args.map (interp V' F' ρ) := by
      refine List.map_congr_left fun b hb => ih b hb (fun x hx => hV x ?_) (fun x hx => hF x ?_)
      · simp only [refNames, refNamesL_eq, List.mem_flatMap]; exact ⟨b, hb, hx⟩
      · simp only [callNames, callNamesL_eq, List.mem_flatMap, List.mem_cons]; exact .inr ⟨b, hb, hx⟩
    simp only [interp, interpL_eq, this, hF n (by simp [callNames])]
  | hinfix l op r h1 h2 =>
    simp only [refNames, callNames, List.mem_append] at hV hF
    simp only [interp, h1 (fun x hx => hV x (.inl hx)) (fun x hx => hF x (.inl hx)),
      h2 (fun x hx => hV x (.inr hx)) (fun x hx => hF x (.inr hx))]
  | hfn _ _ _ ih => simp only [interp, ih (by simpa [refNames] using hV) (by simpa [callNames] using hF)]
  | hvar _ _ ih => simp only [interp, ih (by simpa [refNames] using hV) (by simpa [callNames] using hF)]
  | href y =>
    simp only [interp]
    cases h : ρ y with
    | some e => rfl
    | none => simp only [hV y (by simp [refNames]) h]
  | _ => simp [interp]

/-- Parameters bound to arguments (to themselves if there is no argument). -/
def bindD (ps : List Text) (es : List Ast) : Text → Option Ast :=
  fun y => if y ∈ ps then some ((bind ps es y).getD (.ref y)) else none

/-- Tables after `k` unfoldings. -/
def tables (sc : Scope) (pos : Option Addr) : Nat → (Text → Option Ast) × (Text → Option (List Ast → Ast))
  | 0 => (fun _ => none, fun _ => none)
  | k + 1 =>
    let T := tables sc pos k
    (fun x => match sc.variables x with
      | some d => (resolve pos d).map (interp T.1 T.2 noρ)
      | none => none,
     fun g => match sc.functions g with
      | some (.fn _ ps body) => some fun es => interp T.1 T.2 (bindD ps es) body
      | _ => none)

/-- The table entry of a name. -/
def SameEntry (T T' : (Text → Option Ast) × (Text → Option (List Ast → Ast))) : Name → Prop
  | .v x => T.1 x = T'.1 x
  | .f g => T.2 g = T'.2 g

theorem sameEntry_of_undefined {sc : Scope} {pos : Option Addr} {n : Name} (h : ¬ Defined sc n) (k l : Nat) :
    SameEntry (tables sc pos k) (tables sc pos l) n := by
  cases n with
  | v x =>
    have hx : sc.variables x = none := by simpa [Defined] using h
    have : ∀ k, (tables sc pos k).1 x = none := by intro k; cases k <;> simp [tables, hx]
    simp [SameEntry, this]
  | f x =>
    have hx : sc.functions x = none := by simpa [Defined] using h
    have : ∀ k, (tables sc pos k).2 x = none := by intro k; cases k <;> simp [tables, hx]
    simp [SameEntry, this]

/-- Entries are stable once the number of unfoldings exceeds the rank. -/
theorem tables_stable {sc : Scope} {pos : Option Addr} {order : List Name} (hw : Wf sc pos)
    (hac : Acyclic sc pos order) (k : Nat) : ∀ n, (Defined sc n → order.idxOf n < k) →
    SameEntry (tables sc pos k) (tables sc pos (k + 1)) n := by
  induction k with
  | zero =>
    intro n hn
    by_cases hd : Defined sc n
    · exact absurd (hn hd) (by omega)
    · exact sameEntry_of_undefined hd _ _
  | succ k ih =>
    intro n hn
    by_cases hd : Defined sc n
    · cases n with
      | v x =>
        obtain ⟨d, hd'⟩ := Option.isSome_iff_exists.mp hd
        obtain ⟨a, ha, _⟩ := hw.vars x d hd'
        show (tables sc pos (k + 1)).1 x = (tables sc pos (k + 2)).1 x
        rw [tables, tables]
        simp only [hd', ha, Option.map_some, Option.some.injEq]
        apply interp_congr
        · intro y hy _
          exact ih (.v y) fun hdy => by
            have := hac.2 (.v x) (.v y) hd hdy ⟨d, a, hd', ha, hy⟩
            have := hn hd; omega
        · intro y hy
          exact ih (.f y) fun hdy => by
            have := hac.2 (.v x) (.f y) hd hdy ⟨d, a, hd', ha, hy⟩
            have := hn hd; omega
      | f g =>
        obtain ⟨d, hd'⟩ := Option.isSome_iff_exists.mp hd
        obtain ⟨nm, ps, body, rfl, _⟩ := hw.fns g d hd'
        show (tables sc pos (k + 1)).2 g = (tables sc pos (k + 2)).2 g
        rw [tables, tables]
        simp only [hd', Option.some.injEq]
        funext es
        apply interp_congr
        · intro y hy hb
          have hyp : y ∉ ps := by
            intro h; simp [bindD, h] at hb
          exact ih (.v y) fun hdy => by
            have := hac.2 (.f g) (.v y) hd hdy ⟨nm, ps, body, hd', hy, by
              rintro p hp ⟨⟩; exact hyp hp⟩
            have := hn hd; omega
        · intro y hy
          exact ih (.f y) fun hdy => by
            have := hac.2 (.f g) (.f y) hd hdy ⟨nm, ps, body, hd', hy, by simp⟩
            have := hn hd; omega
    · exact sameEntry_of_undefined hd _ _

/-- The full expansion of a formula in an acyclic scope. -/
def expand (sc : Scope) (pos : Option Addr) (order : List Name) (a : Ast) : Ast :=
  interp (tables sc pos order.length).1 (tables sc pos order.length).2 noρ a

theorem interp_replaceVar {V : Text → Option Ast} {F : Text → Option (List Ast → Ast)} {x : Text} {r : Ast}
    (h : V x = some (interp V F noρ r)) (a : Ast) :
    interp V F noρ (replaceVar x r a) = interp V F noρ a := by
  induction a using Ast.ind with
  | hcall n args ih =>
    have : (args.map (replaceVar x r)).map (interp V F noρ) = args.map (interp V F noρ) := by
      rw [List.map_map]; exact List.map_congr_left ih
    simp only [replaceVar, replaceVars_eq, interp, interpL_eq, this]
  | hinfix l op r h1 h2 => simp only [replaceVar, interp, h1, h2]
  | hfn _ _ _ ih => simp only [replaceVar, interp, ih]
  | hvar _ _ ih => simp only [replaceVar, interp, ih]
  | href y =>
    simp only [replaceVar]
    by_cases hxy : x = y
    · subst hxy; simp [interp, h]
    · simp [hxy]
  | _ => simp [replaceVar, interp]

theorem interp_subst_bind {V : Text → Option Ast} {F : Text → Option (List Ast → Ast)} {ps : List Text}
    {es : List Ast} (hl : es.length = ps.length) (a : Ast) :
    interp V F noρ (subst (bind ps es) a) = interp V F (bindD ps (es.map (interp V F noρ))) a := by
  induction a using Ast.ind with
  | hcall n args ih =>
    have : (args.map (subst (bind ps es))).map (interp V F noρ) =
        args.map (interp V F (bindD ps (es.map (interp V F noρ)))) := by
      rw [List.map_map]; exact List.map_congr_left ih
    simp only [subst, substL_eq, interp, interpL_eq, this]
  | hinfix l op r h1 h2 => simp only [subst, interp, h1, h2]
  | hfn _ _ _ ih => simp only [subst, interp, ih]
  | hvar _ _ ih => simp only [subst, interp, ih]
  | href y =>
    simp only [subst, interp, bindD]
    by_cases hy : y ∈ ps
    · obtain ⟨e, he, hb⟩ := bind_mem ps es hl y hy
      have hb' : bind ps (es.map (interp V F noρ)) y = some (interp V F noρ e) := by
        clear he hy hl
        induction ps generalizing es with
        | nil => simp [bind] at hb
        | cons p ps ih =>
          cases es with
          | nil => simp [bind] at hb
          | cons e' es =>
            simp only [bind, List.zip_cons_cons, List.lookup_cons, List.map_cons] at hb ⊢
            by_cases hp : y = p
            · subst hp; simp at hb ⊢; rw [hb]
            · rw [beq_false_of_ne hp] at hb ⊢; exact ih hb
      simp [hb, hb', hy]
    · rw [bind_none ps es y hy]; simp [hy, interp]
  | _ => simp [subst, interp]

/-- A call preserves the full expansion. -/
theorem interp_callFn {V : Text → Option Ast} {F : Text → Option (List Ast → Ast)} {f nm : Text}
    {ps : List Text} {body a b : Ast} (hF : F f = some fun es => interp V F (bindD ps es) body)
    (h : callFn f (.fn nm ps body) a = .ok b) (hc : ∀ p ∈ ps, p ∉ refNames a) :
    interp V F noρ b = interp V F noρ a := by
  revert hc
  refine callFn_ind (P := fun a b => (∀ p ∈ ps, p ∉ refNames a) → interp V F noρ b = interp V F noρ a)
    ?_ ?_ ?_ ?_ ?_ ?_ h
  · intro args hl hc
    have hcl : ∀ e ∈ args, ∀ p ∈ ps, p ∉ refNames e := by
      intro e he p hp hpe
      exact hc p hp (by simp only [refNames, refNamesL_eq, List.mem_flatMap]; exact ⟨e, he, hpe⟩)
    rw [replaceSeq_eq_subst ps args body hcl hl, interp_subst_bind hl]
    simp only [interp, hF, interpL_eq]
  · intro n args args' hn hf hc
    have hA : args'.map (interp V F noρ) = args.map (interp V F noρ) := by
      have hc' : ∀ e ∈ args, ∀ p ∈ ps, p ∉ refNames e := by
        intro e he p hp hpe
        exact hc p hp (by simp only [refNames, refNamesL_eq, List.mem_flatMap]; exact ⟨e, he, hpe⟩)
      clear hc
      induction hf with
      | nil => rfl
      | cons h1 _ ih =>
        simp only [List.map_cons]
        rw [h1 (hc' _ (by simp)), ih fun e he => hc' e (by simp [he])]
    simp only [interp, interpL_eq, hA]
  · intro l op r l' r' h1 h2 hc
    simp only [refNames, List.mem_append, not_or] at hc
    simp only [interp, h1 fun p hp => (hc p hp).1, h2 fun p hp => (hc p hp).2]
  · intro n a a' h1 hc
    simp only [refNames] at hc; simp only [interp, h1 hc]
  · intro n qs b _; rfl
  · intro a _ _; rfl

/-- A formula without defined names is its own expansion. -/
theorem interp_noDef {V : Text → Option Ast} {F : Text → Option (List Ast → Ast)} (a : Ast)
    (hV : ∀ x ∈ refNames a, V x = none) (hF : ∀ x ∈ callNames a, F x = none) : interp V F noρ a = a := by
  induction a using Ast.ind with
  | hcall n args ih =>
    have : args.map (interp V F noρ) = args := by
      conv_rhs => rw [← List.map_id args]
      refine List.map_congr_left fun b hb => ih b hb (fun x hx => hV x ?_) (fun x hx => hF x ?_)
      · simp only [refNames, refNamesL_eq, List.mem_flatMap]; exact ⟨b, hb, hx⟩
      · simp only [callNames, callNamesL_eq, List.mem_flatMap, List.mem_cons]; exact .inr ⟨b, hb, hx⟩
    simp only [interp, interpL_eq, this, hF n (by simp [callNames])]
  | hinfix l op r h1 h2 =>
    simp only [refNames, callNames, List.mem_append] at hV hF
    simp only [interp, h1 (fun x hx => hV x (.inl hx)) (fun x hx => hF x (.inl hx)),
      h2 (fun x hx => hV x (.inr hx)) (fun x hx => hF x (.inr hx))]
  | hfn _ _ _ ih => simp only [interp, ih (by simpa [refNames] using hV) (by simpa [callNames] using hF)]
  | hvar _ _ ih => simp only [interp, ih (by simpa [refNames] using hV) (by simpa [callNames] using hF)]
  | href y => simp [interp, hV y (by simp [refNames])]
  | _ => simp [interp]

theorem table_var {sc : Scope} {pos : Option Addr} {order : List Name} (hw : Wf sc pos)
    (hac : Acyclic sc pos order) {x : Text} {a : Ast} (h : ValueOf sc pos x a) :
    (tables sc pos order.length).1 x = some (expand sc pos order a) := by
  obtain ⟨d, hd, ha⟩ := h
  have := tables_stable hw hac order.length (.v x) fun hd' => List.idxOf_lt_length_iff.mpr (hac.1 _ hd')
  simp only [SameEntry] at this
  rw [this, tables]
  simp [hd, ha, expand]

theorem table_fn {sc : Scope} {pos : Option Addr} {order : List Name} (hw : Wf sc pos)
    (hac : Acyclic sc pos order) {f nm : Text} {ps : List Text} {body : Ast}
    (h : sc.functions f = some (.fn nm ps body)) :
    (tables sc pos order.length).2 f = some fun es =>
      interp (tables sc pos order.length).1 (tables sc pos order.length).2 (bindD ps es) body := by
  have := tables_stable hw hac order.length (.f f) fun hd' => List.idxOf_lt_length_iff.mpr (hac.1 _ hd')
  simp only [SameEntry] at this
  rw [this, tables]
  simp [h]

/-- One round preserves the full expansion. -/
theorem expand_round {sc : Scope} {pos : Option Addr} {order : List Name} {P : Text → Prop}
    (hw : Wf sc pos) (hh : Hygienic sc pos P) (hac : Acyclic sc pos order)
    {a b : Ast} (ha : Inv P a) (h : Round sc pos a (.ok b)) :
    expand sc pos order b = expand sc pos order a := by
  obtain ⟨σ, fs, hσ, hval, hfs, he⟩ := round_ok hw h
  have h1 : expand sc pos order (replaceSeq σ a) = expand sc pos order a := by
    clear hσ he
    induction σ generalizing a with
    | nil => rfl
    | cons p σ ih =>
      simp only [replaceSeq, List.foldl_cons]
      have hv := hval p (by simp)
      have h2 : expand sc pos order (replaceVar p.1 p.2 a) = expand sc pos order a :=
        interp_replaceVar (table_var hw hac hv) a
      rw [← h2]
      clear ih
      have : ∀ (σ : List (Text × Ast)) (a : Ast), (∀ q ∈ σ, ValueOf sc pos q.1 q.2) →
          expand sc pos order (replaceSeq σ a) = expand sc pos order a := by
        intro σ
        induction σ with
        | nil => intro a _; rfl
        | cons q σ ih =>
          intro a hq
          simp only [replaceSeq, List.foldl_cons]
          have := ih (replaceVar q.1 q.2 a) fun q' h => hq q' (by simp [h])
          rw [replaceSeq] at this
          rw [this]
          exact interp_replaceVar (table_var hw hac (hq q (by simp))) a
      exact this σ _ fun q hq => hval q (by simp [hq])
  rw [← h1]
  have hinv : Inv P (replaceSeq σ a) := ha.replaceSeq fun p hp => (hval p hp).inv hw hh
  refine (evalFns_inv (I := fun b => Inv P b ∧ expand sc pos order b = expand sc pos order (replaceSeq σ a)) fs
    ?_ ⟨hinv, rfl⟩ he).2
  intro f _ d c c' hfd hc hcall
  obtain ⟨nm, ps, body, rfl, -⟩ := hw.fns f d hfd
  refine ⟨hc.1.callFn hw hh hfd hcall, ?_⟩
  rw [← hc.2]
  exact interp_callFn (table_fn hw hac hfd) hcall fun p hp hpa => hc.1.2 p hpa (hh.params f nm ps body hfd p hp)

theorem expand_loop {sc : Scope} {pos : Option Addr} {order : List Name} {P : Text → Prop}
    (hw : Wf sc pos) (hh : Hygienic sc pos P) (hac : Acyclic sc pos order)
    {last : Refs} {a : Ast} {o : Outcome} (h : Loop sc pos last a o) (ha : Inv P a) :
    ∀ b, o = .ok b → expand sc pos order b = expand sc pos order a := by
  induction h with
  | stop _ => rintro b ⟨⟩; rfl
  | again _ hr _ ih =>
    intro b hb
    rw [ih (inv_round hw hh ha hr) b hb, expand_round hw hh hac ha hr]
  | err => rintro b ⟨⟩
  | panic => rintro b ⟨⟩

theorem expand_of_empty {sc : Scope} {pos : Option Addr} {order : List Name} {b : Ast}
    (h : (refsOf sc b).Empty) : expand sc pos order b = b := by
  have hT : ∀ k, (∀ x, sc.variables x = none → (tables sc pos k).1 x = none) ∧
      (∀ x, sc.functions x = none → (tables sc pos k).2 x = none) := by
    intro k
    cases k with
    | zero => simp [tables]
    | succ k =>
      constructor
      · intro x hx; simp [tables, hx]
      · intro x hx; simp [tables, hx]
  apply interp_noDef
  · intro x hx
    apply (hT _).1
    by_contra hcon
    have : x ∈ varRefs sc b := (mem_varRefs ..).mpr ⟨hx, Option.isSome_iff_ne_none.mpr hcon⟩
    rw [show varRefs sc b = [] from h.2] at this; simp at this
  · intro x hx
    apply (hT _).2
    by_contra hcon
    have : x ∈ fnRefs sc b := (mem_fnRefs ..).mpr ⟨hx, Option.isSome_iff_ne_none.mpr hcon⟩
    rw [show fnRefs sc b = [] from h.1] at this; simp at this

end Verif.Ast
