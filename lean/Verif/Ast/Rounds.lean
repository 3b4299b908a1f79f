import Verif.Ast.Calls
namespace Verif.Ast

/-- The value of variable `x` at the position. -/
def ValueOf (sc : Scope) (pos : Option Addr) (x : Text) (a : Ast) : Prop :=
  ∃ d, sc.variables x = some d ∧ resolve pos d = some a

theorem resolveVars_spec {sc : Scope} {pos : Option Addr} (hw : Wf sc pos) (vs : List Text)
    (hv : ∀ v ∈ vs, (sc.variables v).isSome) :
    ∃ σ, resolveVars sc pos vs = some σ ∧ σ.map (·.1) = vs ∧ ∀ p ∈ σ, ValueOf sc pos p.1 p.2 := by
  induction vs with
  | nil => exact ⟨[], rfl, rfl, by simp⟩
  | cons v vs ih =>
    obtain ⟨σ, h1, h2, h3⟩ := ih fun w hw' => hv w (by simp [hw'])
    obtain ⟨d, hd⟩ := Option.isSome_iff_exists.mp (hv v (by simp))
    obtain ⟨a, ha, _⟩ := hw.vars v d hd
    refine ⟨(v, a) :: σ, by simp [resolveVars, hd, ha, h1], by simp [h2], ?_⟩
    intro p hp
    rcases List.mem_cons.mp hp with rfl | hp
    · exact ⟨d, hd, ha⟩
    · exact h3 p hp

theorem depth_replaceSeq (n : Name) (σ : List (Text × Ast)) (a : Ast) (h : ∀ p ∈ σ, ¬ Uses p.2 n) :
    depth n (replaceSeq σ a) ≤ depth n a ∧ ((∃ p ∈ σ, n = .v p.1) → depth n (replaceSeq σ a) = 0) := by
  induction σ generalizing a with
  | nil => exact ⟨Nat.le_refl _, by simp⟩
  | cons p σ ih =>
    simp only [replaceSeq, List.foldl_cons]
    obtain ⟨h1, h2⟩ := ih (replaceVar p.1 p.2 a) fun q hq => h q (by simp [hq])
    have h3 := depth_replaceVar n p.1 p.2 a (h p (by simp))
    refine ⟨?_, ?_⟩
    · refine Nat.le_trans h1 ?_; rw [h3]; split <;> omega
    · rintro ⟨q, hq, hn⟩
      rcases List.mem_cons.mp hq with rfl | hq
      · have := h1; simp only [replaceSeq] at this ⊢; rw [h3, if_pos hn] at this; omega
      · exact h2 ⟨q, hq, hn⟩

/-- The invariant of evaluation in hygienic scopes. -/
def Inv (isParam : Text → Prop) (a : Ast) : Prop := plain a ∧ ∀ r ∈ refNames a, ¬ isParam r

theorem Inv.replaceVar {P : Text → Prop} {x : Text} {r a : Ast} (ha : Inv P a) (hr : Inv P r) :
    Inv P (replaceVar x r a) := by
  refine ⟨plain_replaceVar _ _ _ ha.1 hr.1, fun y hy => ?_⟩
  rcases (mem_refNames_replaceVar ..).mp hy with h | h
  · exact ha.2 y h.1
  · exact hr.2 y h.2

theorem Inv.replaceSeq {P : Text → Prop} {σ : List (Text × Ast)} {a : Ast} (ha : Inv P a)
    (hσ : ∀ p ∈ σ, Inv P p.2) : Inv P (replaceSeq σ a) := by
  induction σ generalizing a with
  | nil => exact ha
  | cons p σ ih => exact ih (ha.replaceVar (hσ p (by simp))) fun q hq => hσ q (by simp [hq])

theorem ValueOf.inv {sc : Scope} {pos : Option Addr} {P : Text → Prop} (hw : Wf sc pos)
    (hh : Hygienic sc pos P) {x : Text} {a : Ast} (h : ValueOf sc pos x a) : Inv P a := by
  obtain ⟨d, hd, ha⟩ := h
  obtain ⟨a', ha', hp⟩ := hw.vars x d hd
  rw [ha] at ha'; cases ha'
  exact ⟨hp, hh.vars x d a hd ha⟩

theorem Inv.callFn {sc : Scope} {pos : Option Addr} {P : Text → Prop} (hw : Wf sc pos)
    (hh : Hygienic sc pos P) {f nm : Text} {ps : List Text} {body a b : Ast} (ha : Inv P a)
    (hf : sc.functions f = some (.fn nm ps body)) (h : callFn f (.fn nm ps body) a = .ok b) : Inv P b := by
  obtain ⟨nm', ps', body', he, hp⟩ := hw.fns f _ hf
  cases he
  refine ⟨callFn_plain h ha.1 hp, fun y hy => ?_⟩
  rcases callFn_refNames h y hy with h1 | ⟨_, h1, h2⟩
  · exact ha.2 y h1
  · exact hh.bodies f nm ps body hf y h1 h2

/-- An invariant of each call is an invariant of calling a list of functions. -/
theorem evalFns_inv {sc : Scope} {I : Ast → Prop} (fs : List Text)
    (hI : ∀ f ∈ fs, ∀ d a b, sc.functions f = some d → I a → callFn f d a = .ok b → I b)
    {a b : Ast} (ha : I a) (h : evalFns sc fs a = .ok b) : I b := by
  induction fs generalizing a with
  | nil => cases h; exact ha
  | cons f fs ih =>
    simp only [evalFns] at h
    cases hf : sc.functions f with
    | none => rw [hf] at h; exact ih (fun g hg => hI g (by simp [hg])) ha h
    | some d =>
      rw [hf] at h; simp only at h
      cases hc : callFn f d a with
      | error e => rw [hc] at h; cases h
      | ok a' =>
        rw [hc] at h
        exact ih (fun g hg => hI g (by simp [hg])) (hI f (by simp) d a a' hf ha hc) h

theorem depth_evalFns {sc : Scope} {pos : Option Addr} {P : Text → Prop} (hw : Wf sc pos)
    (hh : Hygienic sc pos P) (n : Name) (fs : List Text)
    (hn : ∀ f ∈ fs, ∀ nm ps body, sc.functions f = some (.fn nm ps body) →
      Uses body n → ∃ p ∈ ps, n = .v p)
    {a b : Ast} (ha : Inv P a) (h : evalFns sc fs a = .ok b) :
    depth n b ≤ depth n a ∧ ((∃ f ∈ fs, (sc.functions f).isSome ∧ n = .f f) → depth n b ≤ depth n a - 1) := by
  induction fs generalizing a with
  | nil => cases h; simp
  | cons f fs ih =>
    simp only [evalFns] at h
    cases hf : sc.functions f with
    | none =>
      rw [hf] at h
      obtain ⟨h1, h2⟩ := ih (fun g hg => hn g (by simp [hg])) ha h
      refine ⟨h1, ?_⟩
      rintro ⟨g, hg, hs, rfl⟩
      rcases List.mem_cons.mp hg with rfl | hg
      · rw [hf] at hs; simp at hs
      · exact h2 ⟨g, hg, hs, rfl⟩
    | some d =>
      rw [hf] at h; simp only at h
      obtain ⟨nm, ps, body, rfl, -⟩ := hw.fns f d hf
      cases hc : callFn f (.fn nm ps body) a with
      | error e => rw [hc] at h; cases h
      | ok a' =>
        rw [hc] at h
        obtain ⟨h1, h2⟩ := ih (fun g hg => hn g (by simp [hg])) (ha.callFn hw hh hf hc) h
        have h3 := depth_callFn hc n (hn f (by simp) nm ps body hf) ha.1
          (fun p hp hpa => ha.2 p hpa (hh.params f nm ps body hf p hp))
        refine ⟨?_, ?_⟩
        · split at h3 <;> omega
        · rintro ⟨g, hg, hs, rfl⟩
          rcases List.mem_cons.mp hg with rfl | hg
          · rw [if_pos rfl] at h3; omega
          · have := h2 ⟨g, hg, hs, rfl⟩
            split at h3 <;> omega

/-- Every name with at least the rank of all used definitions is not used by any of them. -/
theorem not_mentioned {sc : Scope} {pos : Option Addr} {order : List Name} (hac : Acyclic sc pos order)
    {n m : Name} (hn : Defined sc n) (hm : Defined sc m) (h : order.idxOf n ≤ order.idxOf m) :
    ¬ Mentions sc pos n m := by
  intro hme
  have := hac.2 n m hn hm hme
  omega

theorem round_ok {sc : Scope} {pos : Option Addr} (hw : Wf sc pos) {a b : Ast}
    (h : Round sc pos a (.ok b)) :
    ∃ σ fs, (∀ x, x ∈ σ.map (·.1) ↔ x ∈ varRefs sc a) ∧
      (∀ p ∈ σ, ValueOf sc pos p.1 p.2) ∧ (∀ f, f ∈ fs ↔ f ∈ fnRefs sc a) ∧
      evalFns sc fs (replaceSeq σ a) = .ok b := by
  obtain ⟨vs, fs, hvs, hfs, h⟩ := h
  obtain ⟨σ, h1, h2, h3⟩ := resolveVars_spec hw vs fun v hv => ((mem_varRefs ..).mp ((hvs.2 v).mp hv)).2
  refine ⟨σ, fs, by rw [h2]; exact hvs.2, h3, hfs.2, ?_⟩
  simp only [round, h1] at h
  cases he : evalFns sc fs (replaceSeq σ a) with
  | error e => rw [he] at h; cases h
  | ok b' => rw [he] at h; cases h; rfl

/-- In a hygienic, acyclic scope one round does not deepen names of top rank and reduces the depth of
those that are used. -/
theorem depth_round {sc : Scope} {pos : Option Addr} {order : List Name} {P : Text → Prop}
    (hw : Wf sc pos) (hh : Hygienic sc pos P) (hac : Acyclic sc pos order)
    {a b : Ast} (ha : Inv P a) (h : Round sc pos a (.ok b)) (n : Name) (hn : Defined sc n)
    (htop : ∀ m, Defined sc m → Uses a m → order.idxOf m ≤ order.idxOf n) :
    depth n b ≤ depth n a ∧ (Uses a n → depth n b < depth n a) := by
  obtain ⟨σ, fs, hσ, hval, hfs, he⟩ := round_ok hw h
  have hdef : ∀ p ∈ σ, Defined sc (.v p.1) ∧ Uses a (.v p.1) := by
    intro p hp
    have := (mem_varRefs ..).mp ((hσ p.1).mp (List.mem_map_of_mem hp))
    exact ⟨this.2, this.1⟩
  have h1 := depth_replaceSeq n σ a fun p hp hu => by
    obtain ⟨d, hd, hr⟩ := hval p hp
    exact not_mentioned hac (hdef p hp).1 hn (htop _ (hdef p hp).1 (hdef p hp).2) ⟨d, p.2, hd, hr, hu⟩
  have hinv : Inv P (replaceSeq σ a) := ha.replaceSeq fun p hp => (hval p hp).inv hw hh
  have hfdef : ∀ f ∈ fs, Defined sc (.f f) ∧ Uses a (.f f) := by
    intro f hf
    have := (mem_fnRefs ..).mp ((hfs f).mp hf)
    exact ⟨this.2, this.1⟩
  have h2 := depth_evalFns hw hh n fs (fun f hf nm ps body hfd hu => by
    by_contra hcon
    push Not at hcon
    exact not_mentioned hac (hfdef f hf).1 hn (htop _ (hfdef f hf).1 (hfdef f hf).2)
      ⟨nm, ps, body, hfd, hu, hcon⟩) hinv he
  refine ⟨Nat.le_trans h2.1 h1.1, fun hu => ?_⟩
  have hpos := (depth_pos n a).mpr hu
  cases n with
  | v x =>
    have : x ∈ σ.map (·.1) := (hσ x).mpr ((mem_varRefs ..).mpr ⟨hu, hn⟩)
    obtain ⟨p, hp, hpx⟩ := List.mem_map.mp this
    have := h1.2 ⟨p, hp, by rw [hpx]⟩
    omega
  | f g =>
    have : g ∈ fs := (hfs g).mpr ((mem_fnRefs ..).mpr ⟨hu, hn⟩)
    have := h2.2 ⟨g, this, hn, rfl⟩
    omega

theorem inv_round {sc : Scope} {pos : Option Addr} {P : Text → Prop}
    (hw : Wf sc pos) (hh : Hygienic sc pos P)
    {a b : Ast} (ha : Inv P a) (h : Round sc pos a (.ok b)) : Inv P b := by
  obtain ⟨σ, fs, hσ, hval, hfs, he⟩ := round_ok hw h
  refine evalFns_inv fs ?_ (ha.replaceSeq fun p hp => (hval p hp).inv hw hh) he
  intro f _ d a b hf ha hc
  obtain ⟨nm, ps, body, rfl, -⟩ := hw.fns f d hf
  exact ha.callFn hw hh hf hc

/-! ### termination -/

/-- `v` is below `w`: smaller at some index below `k` and not larger at higher ones. -/
def LexDec (k : Nat) (v w : Nat → Nat) : Prop :=
  ∃ r < k, v r < w r ∧ ∀ j, r < j → j < k → v j ≤ w j

theorem lexDec_acc (k : Nat) (w : Nat → Nat) : Acc (LexDec k) w := by
  induction k generalizing w with
  | zero => exact ⟨w, fun v ⟨r, hr, _⟩ => absurd hr (by omega)⟩
  | succ k ih =>
    have : ∀ d, ∀ w, w k ≤ d → Acc (LexDec (k + 1)) w := by
      intro d
      induction d using Nat.strongRecOn with
      | _ d ihd =>
        intro w hwd
        have hk := ih w
        induction hk with
        | intro w _ ihw =>
          refine ⟨w, fun v ⟨r, hr, hlt, hle⟩ => ?_⟩
          by_cases hrk : r = k
          · subst hrk; exact ihd (v r) (by omega) v (Nat.le_refl _)
          · have hvk := hle k (by omega) (by omega)
            by_cases h2 : v k < d
            · exact ihd (v k) h2 v (Nat.le_refl _)
            · exact ihw v ⟨r, by omega, hlt, fun j h1 h2 => hle j h1 (by omega)⟩ (by omega)
    exact this _ w (Nat.le_refl _)

open Classical in
/-- The depths of the defined names, by rank. -/
noncomputable def depths (sc : Scope) (order : List Name) (a : Ast) (i : Nat) : Nat :=
  match order[i]? with
  | some n => if Defined sc n ∧ order.idxOf n = i then depth n a else 0
  | none => 0

theorem depths_idxOf {sc : Scope} {order : List Name} {n : Name} (hn : Defined sc n) (hm : n ∈ order)
    (a : Ast) : depths sc order a (order.idxOf n) = depth n a := by
  have hlt : order.idxOf n < order.length := List.idxOf_lt_length_iff.mpr hm
  simp [depths, List.getElem?_eq_getElem hlt, List.getElem_idxOf hlt, hn]

/-- Among the used defined names there is one of largest rank. -/
theorem exists_top {sc : Scope} {order : List Name} (hdef : ∀ n, Defined sc n → n ∈ order) {a : Ast}
    (h : ¬ (refsOf sc a).Empty) :
    ∃ n, Defined sc n ∧ Uses a n ∧ ∀ m, Defined sc m → Uses a m → order.idxOf m ≤ order.idxOf n := by
  have hex : ∃ n, Defined sc n ∧ Uses a n := by
    by_contra hcon
    push Not at hcon
    apply h
    constructor
    · apply List.eq_nil_iff_forall_not_mem.mpr
      intro f hf; have := (mem_fnRefs ..).mp hf; exact hcon (.f f) this.2 this.1
    · apply List.eq_nil_iff_forall_not_mem.mpr
      intro f hf; have := (mem_varRefs ..).mp hf; exact hcon (.v f) this.2 this.1
  obtain ⟨n0, h1, h2⟩ := hex
  by_contra hcon
  push Not at hcon
  have : ∀ k, ∃ n, Defined sc n ∧ Uses a n ∧ k ≤ order.idxOf n := by
    intro k
    induction k with
    | zero => exact ⟨n0, h1, h2, by omega⟩
    | succ k ih =>
      obtain ⟨n, hn1, hn2, hk⟩ := ih
      obtain ⟨m, hm1, hm2, hlt⟩ := hcon n hn1 hn2
      exact ⟨m, hm1, hm2, by omega⟩
  obtain ⟨n, hn, _, hk⟩ := this order.length
  have := List.idxOf_lt_length_iff.mpr (hdef n hn)
  omega

theorem depths_round {sc : Scope} {pos : Option Addr} {order : List Name} {P : Text → Prop}
    (hw : Wf sc pos) (hh : Hygienic sc pos P) (hac : Acyclic sc pos order)
    {a b : Ast} (ha : Inv P a) (hne : ¬ (refsOf sc a).Empty) (h : Round sc pos a (.ok b)) :
    LexDec order.length (depths sc order b) (depths sc order a) := by
  obtain ⟨n, hn, hu, htop⟩ := exists_top hac.1 hne
  refine ⟨order.idxOf n, List.idxOf_lt_length_iff.mpr (hac.1 n hn), ?_, ?_⟩
  · rw [depths_idxOf hn (hac.1 n hn), depths_idxOf hn (hac.1 n hn)]
    exact (depth_round hw hh hac ha h n hn htop).2 hu
  · intro j hj hjl
    unfold depths
    cases ho : order[j]? with
    | none => simp
    | some m =>
      simp only
      split
      · rename_i hm
        exact (depth_round hw hh hac ha h m hm.1 fun m' h1 h2 => by
          have := htop m' h1 h2; omega).1
      · exact Nat.le_refl _

theorem step_acc {sc : Scope} {pos : Option Addr} {order : List Name} {P : Text → Prop}
    (hw : Wf sc pos) (hh : Hygienic sc pos P) (hac : Acyclic sc pos order)
    (last : Refs) (a : Ast) (ha : Inv P a) : Acc (fun t s => Step sc pos s t) (last, a) := by
  have key : ∀ w, Acc (LexDec order.length) w → ∀ last a, Inv P a → depths sc order a = w →
      Acc (fun t s => Step sc pos s t) (last, a) := by
    intro w hacc
    induction hacc with
    | intro w _ ih =>
      rintro last a ha rfl
      refine ⟨_, ?_⟩
      rintro ⟨l', b⟩ ⟨hns, hr, _⟩
      have hne : ¬ (refsOf sc a).Empty := fun he => hns (.inl he)
      exact ih _ (depths_round hw hh hac ha hne hr) l' b (inv_round hw hh ha hr) rfl
  exact key _ (lexDec_acc _ _) last a ha rfl

end Verif.Ast
