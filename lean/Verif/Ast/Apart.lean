import Verif.Ast.Props
import Mathlib.Logic.Relation
/-
Scopes in which nested calls do not get into each other's way: no function is used both by a called function and by the arguments of the call.
-/
namespace Verif.Ast

/-! ## Specification -/

/-- The definition of `n` needs `m`: it uses `m`, or a name that needs `m`, or it is `m`. -/
def Needs (sc : Scope) (pos : Option Addr) : Name → Name → Prop := Relation.ReflTransGen (Mentions sc pos)

mutual
/-- No defined function is needed both by a called function and by an argument of the call (except for the parameters `ps`). -/
def Apart (sc : Scope) (pos : Option Addr) (ps : List Text) : Ast → Prop
  | .call n args => ApartL sc pos ps args ∧ ((sc.functions n).isSome → ∀ a ∈ args, ∀ m, Uses a m → (∀ p ∈ ps, m ≠ .v p) →
      ∀ g, (sc.functions g).isSome → Needs sc pos (.f n) (.f g) → ¬ Needs sc pos m (.f g))
  | .fn _ _ body => Apart sc pos ps body
  | .infix l _ r => Apart sc pos ps l ∧ Apart sc pos ps r
  | .var _ a => Apart sc pos ps a
  | _ => True
/-- `Apart` for a list of formulas. -/
def ApartL (sc : Scope) (pos : Option Addr) (ps : List Text) : List Ast → Prop
  | [] => True
  | a :: as => Apart sc pos ps a ∧ ApartL sc pos ps as
end

/-- The values of variables and the bodies of functions are `Apart`. -/
structure ApartScope (sc : Scope) (pos : Option Addr) : Prop where
  vars : ∀ x d a, sc.variables x = some d → resolve pos d = some a → Apart sc pos [] a
  fns : ∀ g nm ps body, sc.functions g = some (.fn nm ps body) → Apart sc pos ps body

/-! ## Proofs -/

theorem ApartL_iff (sc pos ps as) : ApartL sc pos ps as ↔ ∀ a ∈ as, Apart sc pos ps a := by
  induction as <;> simp [ApartL, *]

theorem uses_call {n : Text} {args : List Ast} {a : Ast} (ha : a ∈ args) {m : Name} (hu : Uses a m) : Uses (.call n args) m := by
  cases m with
  | v x => simp only [Uses, refNames, refNamesL_eq, List.mem_flatMap] at hu ⊢; exact ⟨a, ha, hu⟩
  | f x => simp only [Uses, callNames, callNamesL_eq, List.mem_flatMap, List.mem_cons] at hu ⊢; exact .inr ⟨a, ha, hu⟩

theorem uses_call_inv {n : Text} {args : List Ast} {m : Name} (hu : Uses (.call n args) m) : m = .f n ∨ ∃ b ∈ args, Uses b m := by
  cases m with
  | v x => simp only [Uses, refNames, refNamesL_eq, List.mem_flatMap] at hu ⊢; exact .inr hu
  | f x =>
    simp only [Uses, callNames, callNamesL_eq, List.mem_flatMap, List.mem_cons] at hu ⊢
    rcases hu with rfl | hu
    · exact .inl rfl
    · exact .inr hu

theorem uses_infix {l r : Ast} {op : Text} {m : Name} : Uses (.infix l op r) m ↔ Uses l m ∨ Uses r m := by
  cases m <;> simp [Uses, refNames, callNames]

theorem uses_var {n : Text} {a : Ast} {m : Name} : Uses (.var n a) m ↔ Uses a m := by
  cases m <;> simp [Uses, refNames, callNames]

theorem uses_fn {n : Text} {ps : List Text} {a : Ast} {m : Name} : Uses (.fn n ps a) m ↔ Uses a m := by
  cases m <;> simp [Uses, refNames, callNames]

theorem uses_subst {σ : Text → Option Ast} (a : Ast) {m : Name} (h : Uses (subst σ a) m) :
    (Uses a m ∧ ∀ x, m = .v x → σ x = none) ∨ ∃ x e, x ∈ refNames a ∧ σ x = some e ∧ Uses e m := by
  induction a using Ast.ind with
  | hcall n args ih =>
    simp only [subst, substL_eq] at h
    rcases uses_call_inv h with rfl | ⟨b, hb, hu⟩
    · exact .inl ⟨by simp [Uses, callNames], by simp⟩
    · obtain ⟨a, ha, rfl⟩ := List.mem_map.mp hb
      rcases ih a ha hu with ⟨h1, h2⟩ | ⟨x, e, h1, h2⟩
      · exact .inl ⟨uses_call ha h1, h2⟩
      · exact .inr ⟨x, e, uses_call (m := .v x) ha h1, h2⟩
  | hinfix l op r h1 h2 =>
    simp only [subst] at h
    rcases uses_infix.mp h with h | h
    · rcases h1 h with ⟨h1, h2⟩ | ⟨x, e, h1, h2⟩
      · exact .inl ⟨uses_infix.mpr (.inl h1), h2⟩
      · exact .inr ⟨x, e, (uses_infix (m := .v x)).mpr (.inl h1), h2⟩
    · rcases h2 h with ⟨h1, h2⟩ | ⟨x, e, h1, h2⟩
      · exact .inl ⟨uses_infix.mpr (.inr h1), h2⟩
      · exact .inr ⟨x, e, (uses_infix (m := .v x)).mpr (.inr h1), h2⟩
  | hfn n ps b ih =>
    simp only [subst] at h
    rcases ih (uses_fn.mp h) with ⟨h1, h2⟩ | ⟨x, e, h1, h2⟩
    · exact .inl ⟨uses_fn.mpr h1, h2⟩
    · exact .inr ⟨x, e, (uses_fn (m := .v x)).mpr h1, h2⟩
  | hvar n b ih =>
    simp only [subst] at h
    rcases ih (uses_var.mp h) with ⟨h1, h2⟩ | ⟨x, e, h1, h2⟩
    · exact .inl ⟨uses_var.mpr h1, h2⟩
    · exact .inr ⟨x, e, (uses_var (m := .v x)).mpr h1, h2⟩
  | href y =>
    simp only [subst] at h
    cases hy : σ y with
    | none =>
      rw [hy] at h
      refine .inl ⟨h, ?_⟩
      rintro x rfl
      simp only [Uses, refNames, Option.getD_none, List.mem_singleton] at h
      rw [h]; exact hy
    | some e => rw [hy] at h; exact .inr ⟨y, e, by simp [refNames], hy, h⟩
  | _ => simp only [subst] at h; cases m <;> simp [Uses, refNames, callNames] at h

/-- Instantiating a body. -/
theorem apart_subst {sc : Scope} {pos : Option Addr} {f : Text} {ps : List Text} {args : List Ast} (hl : args.length = ps.length)
    (hargs : ∀ e ∈ args, Apart sc pos [] e)
    (hsep : ∀ e ∈ args, ∀ m, Uses e m → ∀ g, (sc.functions g).isSome → Needs sc pos (.f f) (.f g) → ¬ Needs sc pos m (.f g))
    (a : Ast) (ha : Apart sc pos ps a) (hcalls : ∀ h ∈ callNames a, Needs sc pos (.f f) (.f h)) : Apart sc pos [] (subst (bind ps args) a) := by
  induction a using Ast.ind with
  | hcall n as ih =>
    simp only [Apart, ApartL_iff, subst, substL_eq, List.mem_map, forall_exists_index, and_imp, forall_apply_eq_imp_iff₂] at ha ⊢
    refine ⟨fun a h => ih a h (ha.1 a h) fun x hx => hcalls x (by
      simp only [callNames, callNamesL_eq, List.mem_flatMap, List.mem_cons]; exact .inr ⟨a, h, hx⟩), fun hn a h m hu _ g hg hng hmg => ?_⟩
    rcases uses_subst a hu with ⟨h1, h2⟩ | ⟨x, e, h1, h2, h3⟩
    · refine ha.2 hn a h m h1 ?_ g hg hng hmg
      rintro p hp rfl
      obtain ⟨e, he⟩ := bind_mem ps args hl p hp
      rw [h2 p rfl] at he; simp at he
    · exact hsep e (bind_some_mem ps args x e h2).2 m h3 g hg ((hcalls n (by simp [callNames])).trans hng) hmg
  | hinfix l op r h1 h2 =>
    simp only [Apart, subst, callNames, List.mem_append] at ha hcalls ⊢
    exact ⟨h1 ha.1 fun x hx => hcalls x (.inl hx), h2 ha.2 fun x hx => hcalls x (.inr hx)⟩
  | hfn _ _ _ ih => simp only [Apart, subst, callNames] at ha hcalls ⊢; exact ih ha hcalls
  | hvar _ _ ih => simp only [Apart, subst, callNames] at ha hcalls ⊢; exact ih ha hcalls
  | href y =>
    simp only [subst]
    cases hy : bind ps args y with
    | none => simp [Apart]
    | some e => exact hargs e (bind_some_mem ps args y e hy).2
  | _ => simp [Apart, subst]

theorem apart_replaceVar {sc : Scope} {pos : Option Addr} {x : Text} {r : Ast} (a : Ast)
    (hr : Apart sc pos [] r) (hm : ∀ m, Uses r m → Mentions sc pos (.v x) m) (ha : Apart sc pos [] a) : Apart sc pos [] (replaceVar x r a) := by
  induction a using Ast.ind with
  | hcall n args ih =>
    simp only [Apart, ApartL_iff, replaceVar, replaceVars_eq, List.mem_map, forall_exists_index, and_imp, forall_apply_eq_imp_iff₂] at ha ⊢
    refine ⟨fun a h => ih a h (ha.1 a h), fun hn a h m hu _ g hg hng hmg => ?_⟩
    rcases uses_replaceVar hu with ⟨h1, h2⟩ | ⟨h1, h2⟩
    · exact ha.2 hn a h m h1 (by simp) g hg hng hmg
    · exact ha.2 hn a h (.v x) h1 (by simp) g hg hng (Relation.ReflTransGen.head (hm m h2) hmg)
  | hinfix l op r h1 h2 => simp only [Apart, replaceVar] at ha ⊢; exact ⟨h1 ha.1, h2 ha.2⟩
  | hfn _ _ _ ih => simp only [Apart, replaceVar] at ha ⊢; exact ih ha
  | hvar _ _ ih => simp only [Apart, replaceVar] at ha ⊢; exact ih ha
  | href y =>
    simp only [replaceVar]
    split
    · exact hr
    · simp [Apart]
  | _ => simp [Apart, replaceVar]

theorem apart_callFn {sc : Scope} {pos : Option Addr} {P : Text → Prop} (hh : Hygienic sc pos P) {f nm : Text} {ps : List Text} {body a b : Ast}
    (hf : sc.functions f = some (.fn nm ps body)) (hb : Apart sc pos ps body)
    (h : callFn f (.fn nm ps body) a = .ok b) (hp : ∀ r ∈ refNames a, ¬ P r) (ha : Apart sc pos [] a) : Apart sc pos [] b := by
  have hfs : (sc.functions f).isSome := by simp [hf]
  have hment : ∀ m, Uses body m → (∀ p ∈ ps, m ≠ .v p) → Mentions sc pos (.f f) m := fun m h1 h2 => ⟨nm, ps, body, hf, h1, h2⟩
  have := callFn_ind (P := fun a b => (∀ r ∈ refNames a, ¬ P r) → Apart sc pos [] a → Apart sc pos [] b ∧
      ∀ m, Uses b m → Uses a m ∨ (Uses a (.f f) ∧ Mentions sc pos (.f f) m)) ?_ ?_ ?_ ?_ ?_ ?_ h
  exact (this hp ha).1
  · intro args hl hp ha
    simp only [Apart, ApartL_iff] at ha
    have hnc : ∀ e ∈ args, ∀ p ∈ ps, p ∉ refNames e := by
      intro e he p hpp hpe
      exact hp p (by simp only [refNames, refNamesL_eq, List.mem_flatMap]; exact ⟨e, he, hpe⟩) (hh.params f nm ps body hf p hpp)
    rw [replaceSeq_eq_subst ps args body hnc hl]
    constructor
    · exact apart_subst hl ha.1 (fun e he m hu g hg => ha.2 hfs e he m hu (by simp) g hg) body hb
        fun h' hh' => Relation.ReflTransGen.single (hment (.f h') hh' (by simp))
    · intro m hu
      rcases uses_subst body hu with ⟨h1, h2⟩ | ⟨x, e, h1, h2, h3⟩
      · refine .inr ⟨by simp [Uses, callNames], hment m h1 ?_⟩
        rintro p hpp rfl
        obtain ⟨e, he⟩ := bind_mem ps args hl p hpp
        rw [h2 p rfl] at he; simp at he
      · exact .inl (uses_call (bind_some_mem ps args x e h2).2 h3)
  · intro n args args' hn hF hp ha
    simp only [Apart, ApartL_iff] at ha ⊢
    have hpa : ∀ a ∈ args, ∀ r ∈ refNames a, ¬ P r := by
      intro a ha r hr
      exact hp r (by simp only [refNames, refNamesL_eq, List.mem_flatMap]; exact ⟨a, ha, hr⟩)
    refine ⟨⟨?_, ?_⟩, ?_⟩
    · intro b hb
      obtain ⟨a, ha', hR⟩ := forall₂_mem_right' hF hb
      exact (hR (hpa a ha') (ha.1 a ha')).1
    · intro hns b hb m hu _ g hg hng hmg
      obtain ⟨a, ha', hR⟩ := forall₂_mem_right' hF hb
      rcases (hR (hpa a ha') (ha.1 a ha')).2 m hu with h | ⟨h1, h2⟩
      · exact ha.2 hns a ha' m h (by simp) g hg hng hmg
      · exact ha.2 hns a ha' (.f f) h1 (by simp) g hg hng (Relation.ReflTransGen.head h2 hmg)
    · intro m hu
      rcases uses_call_inv hu with rfl | ⟨b, hb, hu⟩
      · left; simp [Uses, callNames]
      · obtain ⟨a, ha', hR⟩ := forall₂_mem_right' hF hb
        rcases (hR (hpa a ha') (ha.1 a ha')).2 m hu with h | ⟨h1, h2⟩
        · exact .inl (uses_call ha' h)
        · exact .inr ⟨uses_call ha' h1, h2⟩
  · intro l op r l' r' h1 h2 hp ha
    simp only [Apart, refNames, List.mem_append] at ha hp ⊢
    have h1 := h1 (fun r hr => hp r (.inl hr)) ha.1
    have h2 := h2 (fun r hr => hp r (.inr hr)) ha.2
    refine ⟨⟨h1.1, h2.1⟩, fun m hu => ?_⟩
    simp only [uses_infix] at hu ⊢
    rcases hu with hu | hu
    · rcases h1.2 m hu with h | h
      · exact .inl (.inl h)
      · exact .inr ⟨.inl h.1, h.2⟩
    · rcases h2.2 m hu with h | h
      · exact .inl (.inr h)
      · exact .inr ⟨.inr h.1, h.2⟩
  · intro n a a' h1 hp ha
    simp only [Apart, refNames] at ha hp ⊢
    refine ⟨(h1 hp ha).1, fun m hu => ?_⟩
    simp only [uses_var] at hu ⊢
    exact (h1 hp ha).2 m hu
  · intro n qs b _ hp; exact ⟨hp, fun m hu => .inl hu⟩
  · intro a _ _ hp; exact ⟨hp, fun m hu => .inl hu⟩

/-- After calling `f` there is no call of `f` left. -/
theorem apart_callFn_gone {sc : Scope} {pos : Option Addr} {f nm : Text} {ps : List Text} {body a b : Ast}
    (hf : sc.functions f = some (.fn nm ps body)) (hbody : f ∉ callNames body)
    (h : callFn f (.fn nm ps body) a = .ok b) (ha : Apart sc pos [] a) (hpl : plain a) : f ∉ callNames b := by
  have hfs : (sc.functions f).isSome := by simp [hf]
  revert ha hpl
  refine callFn_ind (P := fun a b => Apart sc pos [] a → plain a → f ∉ callNames b) ?_ ?_ ?_ ?_ ?_ ?_ h
  · intro args hl hp _ hm
    rcases mem_callNames_replaceSeq _ body f hm with h | ⟨e, he, h⟩
    · exact hbody h
    · simp only [Apart] at hp
      exact hp.2 hfs e.2 (List.of_mem_zip he).2 (.f f) h (by simp) f hfs .refl .refl
  · intro n args args' hn hF hp hpl hm
    simp only [Apart, ApartL_iff, plain, plainL_iff] at hp hpl
    simp only [callNames, callNamesL_eq, List.mem_cons, List.mem_flatMap] at hm
    rcases hm with rfl | ⟨b, hb, hm⟩
    · exact hn rfl
    · obtain ⟨a, ha, hR⟩ := forall₂_mem_right' hF hb
      exact hR (hp.1 a ha) (hpl a ha) hm
  · intro l op r l' r' h1 h2 hp hpl hm
    simp only [Apart, plain, Bool.and_eq_true] at hp hpl
    simp only [callNames, List.mem_append] at hm
    rcases hm with hm | hm
    · exact h1 hp.1 hpl.1 hm
    · exact h2 hp.2 hpl.2 hm
  · intro n a a' h1 hp hpl hm
    simp only [Apart, plain, callNames] at hp hpl hm
    exact h1 hp hpl hm
  · intro n qs b _ hpl; simp [plain] at hpl
  · intro a hl _ _ hm
    cases a <;> simp [isLeaf] at hl <;> simp [callNames] at hm

theorem apart_replaceSeq {sc : Scope} {pos : Option Addr} (has : ApartScope sc pos) (σ : List (Text × Ast)) (a : Ast)
    (hσ : ∀ p ∈ σ, ValueOf sc pos p.1 p.2) (ha : Apart sc pos [] a) : Apart sc pos [] (replaceSeq σ a) := by
  induction σ generalizing a with
  | nil => exact ha
  | cons p σ ih =>
    simp only [replaceSeq, List.foldl_cons]
    obtain ⟨d, hd, hr⟩ := hσ p (by simp)
    exact ih _ (fun q hq => hσ q (by simp [hq])) (apart_replaceVar a (has.vars _ _ _ hd hr) (fun m hu => ⟨d, p.2, hd, hr, hu⟩) ha)

/-- What is kept during evaluation. -/
def ApartInv (sc : Scope) (pos : Option Addr) (P : Text → Prop) (a : Ast) : Prop := Inv P a ∧ Apart sc pos [] a

theorem ApartInv.callFn {sc : Scope} {pos : Option Addr} {P : Text → Prop} (hw : Wf sc pos) (hh : Hygienic sc pos P) (has : ApartScope sc pos)
    {f : Text} {d a b : Ast} (ha : ApartInv sc pos P a) (hf : sc.functions f = some d) (h : Ast.callFn f d a = .ok b) : ApartInv sc pos P b := by
  obtain ⟨nm, ps, body, rfl, -⟩ := hw.fns f d hf
  exact ⟨ha.1.callFn hw hh hf h, apart_callFn hh hf (has.fns f nm ps body hf) h ha.1.2 ha.2⟩

/-- A used name of top rank is gone after a round. -/
theorem apart_round {sc : Scope} {pos : Option Addr} {order : List Name} {P : Text → Prop}
    (hw : Wf sc pos) (hh : Hygienic sc pos P) (has : ApartScope sc pos) (hac : Acyclic sc pos order)
    {a b : Ast} (ha : ApartInv sc pos P a) (h : Round sc pos a (.ok b)) :
    ApartInv sc pos P b ∧ ∀ n, Defined sc n →
      (∀ m, Defined sc m → Uses a m → order.idxOf m ≤ order.idxOf n) → ¬ Uses b n := by
  obtain ⟨σ, fs, hσ, hval, hfs, he⟩ := round_ok hw h
  have hdef : ∀ p ∈ σ, Defined sc (.v p.1) ∧ Uses a (.v p.1) := by
    intro p hp
    have := (mem_varRefs ..).mp ((hσ p.1).mp (List.mem_map_of_mem hp))
    exact ⟨this.2, this.1⟩
  have hfdef : ∀ f ∈ fs, Defined sc (.f f) ∧ Uses a (.f f) := by
    intro f hf
    have := (mem_fnRefs ..).mp ((hfs f).mp hf)
    exact ⟨this.2, this.1⟩
  have hinv1 : ApartInv sc pos P (replaceSeq σ a) :=
    ⟨ha.1.replaceSeq fun p hp => (hval p hp).inv hw hh, apart_replaceSeq has σ a hval ha.2⟩
  refine ⟨evalFns_inv fs (fun f _ d a b hfd ha hc => ha.callFn hw hh has hfd hc) hinv1 he, ?_⟩
  intro n hn htop
  have hnb : ∀ f ∈ fs, ∀ nm ps body, sc.functions f = some (.fn nm ps body) →
      Uses body n → ∃ p ∈ ps, n = .v p := by
    intro f hf nm ps body hfd hu
    by_contra hcon
    push Not at hcon
    exact not_mentioned hac (hfdef f hf).1 hn (htop _ (hfdef f hf).1 (hfdef f hf).2)
      ⟨nm, ps, body, hfd, hu, hcon⟩
  have h1 := depth_replaceSeq n σ a fun p hp hu => by
    obtain ⟨d, hd, hr⟩ := hval p hp
    exact not_mentioned hac (hdef p hp).1 hn (htop _ (hdef p hp).1 (hdef p hp).2) ⟨d, p.2, hd, hr, hu⟩
  have keep : ∀ f ∈ fs, ∀ d a b, sc.functions f = some d → ¬ Uses a n → callFn f d a = .ok b → ¬ Uses b n := by
    intro f hf d a b hfd hna hc hu
    obtain ⟨nm, ps, body, rfl, hpb⟩ := hw.fns f d hfd
    cases n with
    | v x =>
      rcases callFn_refNames hc x hu with h | ⟨_, h1, h2⟩
      · exact hna h
      · obtain ⟨p, hp, hpx⟩ := hnb f hf nm ps body hfd h1
        cases hpx; exact h2 hp
    | f g =>
      rcases callFn_callNames hc g hu with h | ⟨_, h1⟩
      · exact hna h
      · obtain ⟨p, hp, hpx⟩ := hnb f hf nm ps body hfd h1
        cases hpx
  cases n with
  | v x =>
    have h0 : ¬ Uses (replaceSeq σ a) (.v x) := by
      by_cases hu : Uses a (.v x)
      · have : x ∈ σ.map (·.1) := (hσ x).mpr ((mem_varRefs ..).mpr ⟨hu, hn⟩)
        obtain ⟨p, hp, hpx⟩ := List.mem_map.mp this
        exact (depth_eq_zero _ _).mp (h1.2 ⟨p, hp, by rw [hpx]⟩)
      · rw [← depth_eq_zero]
        have := (depth_eq_zero _ _).mpr hu
        have := h1.1
        omega
    exact evalFns_inv (I := fun a => ¬ Uses a (.v x)) fs keep h0 he
  | f g =>
    by_cases hu : Uses a (.f g)
    · have hg : g ∈ fs := (hfs g).mpr ((mem_fnRefs ..).mpr ⟨hu, hn⟩)
      clear h1 hfdef hfs hσ hdef
      have : ∀ fs : List Text, (∀ f ∈ fs, ∀ d a b, sc.functions f = some d → ¬ Uses a (.f g) →
            callFn f d a = .ok b → ¬ Uses b (.f g)) → g ∈ fs →
          (∀ f ∈ fs, ∀ nm ps body, sc.functions f = some (.fn nm ps body) →
            Uses body (.f g) → ∃ p ∈ ps, Name.f g = .v p) →
          ∀ a, ApartInv sc pos P a → evalFns sc fs a = .ok b → ¬ Uses b (.f g) := by
        intro fs
        induction fs with
        | nil => intro _ h; simp at h
        | cons f fs ih =>
          intro keep hg hnb a hia he
          simp only [evalFns] at he
          cases hfd : sc.functions f with
          | none =>
            rw [hfd] at he
            rcases List.mem_cons.mp hg with rfl | hg
            · simp [Defined, hfd] at hn
            · exact ih (fun f hf => keep f (by simp [hf])) hg (fun f hf => hnb f (by simp [hf])) a hia he
          | some d =>
            rw [hfd] at he; simp only at he
            obtain ⟨nm, ps, body, rfl, hpb⟩ := hw.fns f d hfd
            cases hc : callFn f (.fn nm ps body) a with
            | error e => rw [hc] at he; cases he
            | ok a' =>
              rw [hc] at he; simp only at he
              by_cases hfg : f = g
              · subst hfg
                refine evalFns_inv (I := fun a => ¬ Uses a (.f f)) fs (fun f' hf' => keep f' (by simp [hf'])) ?_ he
                refine apart_callFn_gone hfd ?_ hc hia.2 hia.1.1
                intro hb
                obtain ⟨p, _, hp⟩ := hnb f (by simp) nm ps body hfd hb
                cases hp
              · have hg : g ∈ fs := by
                  rcases List.mem_cons.mp hg with rfl | hg
                  · exact absurd rfl hfg
                  · exact hg
                exact ih (fun f hf => keep f (by simp [hf])) hg (fun f hf => hnb f (by simp [hf])) a'
                  (hia.callFn hw hh has hfd hc) he
      exact this fs keep hg hnb _ hinv1 he
    · refine evalFns_inv (I := fun a => ¬ Uses a (.f g)) fs keep ?_ he
      rw [← depth_eq_zero]
      have := (depth_eq_zero _ _).mpr hu
      have := h1.1
      omega

/-- The loop only stops when no defined name is left. -/
theorem apart_loop {sc : Scope} {pos : Option Addr} {order : List Name} {P : Text → Prop}
    (hw : Wf sc pos) (hh : Hygienic sc pos P) (has : ApartScope sc pos) (hac : Acyclic sc pos order)
    {last : Refs} {a : Ast} {o : Outcome} (h : Loop sc pos last a o) (ha : ApartInv sc pos P a)
    (hlast : (refsOf sc a).Same last → (refsOf sc a).Empty) :
    ∀ b, o = .ok b → (refsOf sc b).Empty := by
  induction h with
  | stop hs =>
    rintro b ⟨⟩
    rcases hs with h | h
    · exact h
    · exact hlast h
  | again hns hr _ ih =>
    rename_i last a a' o
    obtain ⟨h1, h3⟩ := apart_round hw hh has hac ha hr
    refine ih h1 ?_
    intro hsame
    obtain ⟨n, hn, hu, htop⟩ := exists_top hac.1 (fun he => hns (.inl he))
    exfalso
    apply h3 n hn htop
    cases n with
    | v x => exact ((mem_varRefs ..).mp ((hsame.2 x).mpr ((mem_varRefs ..).mpr ⟨hu, hn⟩))).1
    | f x => exact ((mem_fnRefs ..).mp ((hsame.1 x).mpr ((mem_fnRefs ..).mpr ⟨hu, hn⟩))).1
  | err => rintro b ⟨⟩
  | panic => rintro b ⟨⟩

theorem same_nil {sc : Scope} {a : Ast} (hs : (refsOf sc a).Same ⟨[], []⟩) : (refsOf sc a).Empty := by
  constructor
  · apply List.eq_nil_iff_forall_not_mem.mpr
    intro f hf; exact absurd ((hs.1 f).mp hf) (by simp)
  · apply List.eq_nil_iff_forall_not_mem.mpr
    intro f hf; exact absurd ((hs.2 f).mp hf) (by simp)

/-! ## The meaning of a formula -/

/-- `b` is what `a` means: variables are replaced by what their values mean, and calls of defined functions by what the body means with all the
arguments put in for the parameters at once. -/
inductive Means (sc : Scope) (pos : Option Addr) : Ast → Ast → Prop
  | leaf {a} : (∀ m, ¬ Uses a m) → Means sc pos a a
  | ref {x} : sc.variables x = none → Means sc pos (.ref x) (.ref x)
  | value {x d a b} : sc.variables x = some d → resolve pos d = some a → Means sc pos a b → Means sc pos (.ref x) b
  | call {f args bs} : sc.functions f = none → bs.length = args.length →
      (∀ (i : Nat) a b, args[i]? = some a → bs[i]? = some b → Means sc pos a b) → Means sc pos (.call f args) (.call f bs)
  | body {f nm ps body args b} : sc.functions f = some (.fn nm ps body) → args.length = ps.length → Means sc pos (subst (bind ps args) body) b →
      Means sc pos (.call f args) b
  | infix {l op r l' r'} : Means sc pos l l' → Means sc pos r r' → Means sc pos (.infix l op r) (.infix l' op r')
  | var {n a a'} : Means sc pos a a' → Means sc pos (.var n a) (.var n a')

theorem interp_leaf {V : Text → Option Ast} {F : Text → Option (List Ast → Ast)} {a : Ast} (h : ∀ m, ¬ Uses a m) : interp V F noρ a = a :=
  interp_noDef a (fun x hx => absurd hx (h (.v x))) (fun x hx => absurd hx (h (.f x)))

/-- There is at most one meaning. -/
theorem means_expand {sc : Scope} {pos : Option Addr} {order : List Name} (hw : Wf sc pos) (hac : Acyclic sc pos order) {a b : Ast}
    (h : Means sc pos a b) : b = expand sc pos order a := by
  induction h with
  | leaf h => exact (interp_leaf h).symm
  | @ref x h =>
    rw [expand, interp]
    have : (tables sc pos order.length).1 x = none := by
      cases order.length with
      | zero => rfl
      | succ k => simp [tables, h]
    simp [this]
  | value h1 h2 _ ih => rw [expand, interp]; simp only; rw [table_var hw hac ⟨_, h1, h2⟩, ih]; rfl
  | @call f args bs h hl _ ih =>
    rw [expand, interp]
    have : (tables sc pos order.length).2 f = none := by
      cases order.length with
      | zero => rfl
      | succ k => simp [tables, h]
    simp only [this, interpL_eq]
    congr 1
    refine List.ext_getElem (by simp [hl]) fun i h1 h2 => ?_
    rw [List.getElem_map]
    exact ih i _ _ (List.getElem?_eq_getElem (by omega)) (List.getElem?_eq_getElem h1)
  | body h1 h2 _ ih =>
    rw [ih, expand, interp_subst_bind h2, expand, interp, table_fn hw hac h1, interpL_eq]
  | «infix» _ _ ih1 ih2 => rw [ih1, ih2]; rfl
  | var _ ih => rw [ih]; rfl

/-- Every formula whose calls have the right number of arguments has a meaning. -/
theorem means_exists {sc : Scope} {pos : Option Addr} {order : List Name} (hw : Wf sc pos) (hac : Acyclic sc pos order)
    (hv : ∀ x d v, sc.variables x = some d → resolve pos d = some v → arityOk sc v)
    (hb : ∀ g nm ps body, sc.functions g = some (.fn nm ps body) → arityOk sc body) (a : Ast) (hpl : plain a) (har : arityOk sc a) :
    ∃ b, Means sc pos a b := by
  have key : ∀ (k : Nat) (a : Ast), plain a → arityOk sc a → ∀ σ : Text → Option Ast,
      (∀ m, Uses a m → (∀ x, m = .v x → σ x = none) → Defined sc m → order.idxOf m < k) → (∀ x e, σ x = some e → ∃ b, Means sc pos e b) →
      ∃ b, Means sc pos (subst σ a) b := by
    intro k
    induction k using Nat.strongRecOn with
    | ind k ihk =>
      intro a
      induction a using Ast.ind with
      | hcall n args ih =>
        intro hpl har σ hk hσ
        simp only [plain, plainL_iff] at hpl
        simp only [arityOk, arityOkL_iff] at har
        have hargs : ∀ a ∈ args, ∃ b, Means sc pos (subst σ a) b := fun a ha =>
          ih a ha (hpl a ha) (har.1 a ha) σ (fun m hu => hk m (uses_call ha hu)) hσ
        rw [subst, substL_eq]
        cases hf : sc.functions n with
        | none =>
          choose! φ hφ using hargs
          refine ⟨_, .call hf (bs := args.map φ) (by simp) fun i a b h1 h2 => ?_⟩
          simp only [List.getElem?_map, Option.map_eq_some_iff] at h1 h2
          obtain ⟨a', h1, rfl⟩ := h1
          obtain ⟨a'', h2, rfl⟩ := h2
          rw [h1] at h2; cases h2
          exact hφ a' (List.mem_of_getElem? h1)
        | some d =>
          obtain ⟨nm, ps, body, rfl, hpb⟩ := hw.fns n d hf
          have hlen : (args.map (subst σ)).length = ps.length := by
            rw [List.length_map]; exact har.2 nm ps body hf
          have hd : Defined sc (.f n) := by simp [Defined, hf]
          have hlt : order.idxOf (.f n) < k := hk (.f n) (by simp [Uses, callNames]) (by simp) hd
          obtain ⟨b, hb'⟩ := ihk _ hlt body hpb (hb n nm ps body hf) (bind ps (args.map (subst σ)))
            (fun m hu hps hm => hac.2 _ _ hd hm ⟨nm, ps, body, hf, hu, fun p hp he => by
              obtain ⟨e, -, he'⟩ := bind_mem ps _ hlen p hp
              rw [hps p he] at he'; cases he'⟩)
            (fun x e he => by
              obtain ⟨a, ha, rfl⟩ := List.mem_map.mp (bind_some_mem _ _ _ _ he).2
              exact hargs a ha)
          exact ⟨b, .body hf hlen hb'⟩
      | hinfix l op r h1 h2 =>
        intro hpl har σ hk hσ
        simp only [plain, Bool.and_eq_true] at hpl
        simp only [arityOk] at har
        obtain ⟨l', hl⟩ := h1 hpl.1 har.1 σ (fun m hu => hk m (uses_infix.mpr (.inl hu))) hσ
        obtain ⟨r', hr⟩ := h2 hpl.2 har.2 σ (fun m hu => hk m (uses_infix.mpr (.inr hu))) hσ
        exact ⟨_, .infix hl hr⟩
      | hvar n a ih =>
        intro hpl har σ hk hσ
        obtain ⟨l', hl⟩ := ih (by simpa [plain] using hpl) (by simpa [arityOk] using har) σ (fun m hu => hk m (uses_var.mpr hu)) hσ
        exact ⟨_, .var hl⟩
      | hfn n ps b => intro hpl; simp [plain] at hpl
      | href y =>
        intro _ _ σ hk hσ
        rw [subst]
        cases hy : σ y with
        | some e => exact hσ y e hy
        | none =>
          cases hd : sc.variables y with
          | none => exact ⟨_, .ref hd⟩
          | some d =>
            obtain ⟨v, hr, hpv⟩ := hw.vars y d hd
            have hdef : Defined sc (.v y) := by simp [Defined, hd]
            have hlt : order.idxOf (.v y) < k := hk (.v y) (by simp [Uses, refNames]) (by rintro x ⟨⟩; exact hy) hdef
            obtain ⟨b, hb'⟩ := ihk _ hlt v hpv (hv y d v hd hr) (fun _ => none)
              (fun m hu _ hm => hac.2 _ _ hdef hm ⟨d, v, hd, hr, hu⟩) (by simp)
            rw [subst_none] at hb'
            exact ⟨b, .value hd hr hb'⟩
      | _ => exact fun _ _ σ _ _ => ⟨_, .leaf fun m => by cases m <;> simp [subst, Uses, refNames, callNames]⟩
  obtain ⟨b, h⟩ := key (order.length) a hpl har (fun _ => none) (fun m _ _ hm => List.idxOf_lt_length_iff.mpr (hac.1 m hm)) (by simp)
  rw [subst_none] at h
  exact ⟨b, h⟩

/-! ## C17, C18, C21 -/

/-- C17: if no function is needed both by a called function and by the arguments of the call, the result uses no defined variable and no defined
function. -/
theorem C17_no_defined_names_apart_partial (sc : Scope) (pos : Option Addr) (order : List Name) (isParam : Text → Prop)
    (hw : Wf sc pos) (hac : Acyclic sc pos order) (hh : Hygienic sc pos isParam) (has : ApartScope sc pos)
    (a b : Ast) (hpl : plain a) (hp : ∀ r ∈ refNames a, ¬ isParam r) (ha : Apart sc pos [] a) (h : Eval sc pos a (.ok b)) :
    ∀ n, Defined sc n → ¬ Uses b n := by
  have he := apart_loop hw hh has hac h ⟨⟨hpl, hp⟩, ha⟩ same_nil b rfl
  intro n hn hu
  cases n with
  | v x =>
    have : x ∈ varRefs sc b := (mem_varRefs ..).mpr ⟨hu, hn⟩
    rw [show varRefs sc b = [] from he.2] at this; simp at this
  | f x =>
    have : x ∈ fnRefs sc b := (mem_fnRefs ..).mpr ⟨hu, hn⟩
    rw [show fnRefs sc b = [] from he.1] at this; simp at this

/-- C18, C21: then, if every call has as many arguments as the function has parameters, every evaluation ends, and whatever the hash orders, with
the meaning of the formula. -/
theorem C21_meaning_partial (sc : Scope) (pos : Option Addr) (order : List Name) (isParam : Text → Prop)
    (hw : Wf sc pos) (hac : Acyclic sc pos order) (hh : Hygienic sc pos isParam) (has : ApartScope sc pos)
    (hv : ∀ x d v, sc.variables x = some d → resolve pos d = some v → arityOk sc v)
    (hb : ∀ g nm ps body, sc.functions g = some (.fn nm ps body) → arityOk sc body)
    (a : Ast) (hpl : plain a) (hp : ∀ r ∈ refNames a, ¬ isParam r) (ha : Apart sc pos [] a) (har : arityOk sc a) :
    Terminates sc pos a ∧ ∃ b, Means sc pos a b ∧ (∀ b', Means sc pos a b' → b' = b) ∧ ∀ o, Eval sc pos a o ↔ o = .ok b := by
  obtain ⟨ht, o, ho, -⟩ := C19_terminates_partial sc pos order isParam hw hac hh a hpl hp
  have key : ∀ o, Eval sc pos a o → o = .ok (expand sc pos order a) := by
    intro o ho
    obtain ⟨b, rfl⟩ := C20_right_arity sc pos hw hv hb a har o ho
    rw [C21_full_expansion_partial sc pos order isParam hw hac hh a b hpl hp ho
      (C17_no_defined_names_apart_partial sc pos order isParam hw hac hh has a b hpl hp ha ho)]
  obtain ⟨b, hmb⟩ := means_exists hw hac hv hb a hpl har
  refine ⟨ht, b, hmb, fun b' hb' => by rw [means_expand hw hac hmb, means_expand hw hac hb'], fun o' => ?_⟩
  rw [means_expand hw hac hmb]
  exact ⟨key o', fun h => by rw [h, ← key o ho]; exact ho⟩

/-! ### A concrete case -/

theorem needs_closed {sc : Scope} {pos : Option Addr} {S : Name → Prop} (hS : ∀ n m, S n → Mentions sc pos n m → S m) {n m : Name} (hn : S n)
    (h : Needs sc pos n m) : S m := by
  induction h with
  | refl => exact hn
  | tail _ h ih => exact hS _ _ ih h

/-- `rate := 5`, `fn double(n) n * 2`, `fn add(a, b) a + b`. -/
def demo2 : Scope := .ofLists [var' "rate" (I 5)]
  [def' "double" ["n"] (op (R "n") "*" (I 2)), def' "add" ["a", "b"] (op (R "a") "+" (R "b"))]

/-- `=add(double(rate), rate) - SUM(double(1))` -/
def demo2Formula : Ast := op (call "add" [call "double" [R "rate"], R "rate"]) "-" (call "SUM" [call "double" [I 1]])

theorem demo2_vars {x : Text} {d : Ast} (h : demo2.variables x = some d) : x = T "rate" ∧ d = .var (T "rate") (I 5) := by
  have := mem_of_lookup _ _ _ h
  simp only [List.mem_cons, Prod.mk.injEq, List.not_mem_nil, or_false] at this
  exact this

theorem demo2_fns {x : Text} {d : Ast} (h : demo2.functions x = some d) :
    (x = T "double" ∧ d = .fn (T "double") [T "n"] (op (R "n") "*" (I 2))) ∨
    (x = T "add" ∧ d = .fn (T "add") [T "a", T "b"] (op (R "a") "+" (R "b"))) := by
  have := mem_of_lookup _ _ _ h
  simp only [List.mem_cons, Prod.mk.injEq, List.not_mem_nil, or_false] at this
  exact this

/-- Nothing in `demo2` uses another definition. -/
theorem demo2_mentions {pos : Option Addr} {n m : Name} (h : Mentions demo2 pos n m) : False := by
  cases n with
  | v x =>
    obtain ⟨d, a, hd, ha, hu⟩ := h
    obtain ⟨rfl, rfl⟩ := demo2_vars hd
    cases ha; cases m <;> simp [Uses, refNames, callNames] at hu
  | f x =>
    obtain ⟨nm, ps, body, hd, hu, hps⟩ := h
    rcases demo2_fns hd with ⟨rfl, h⟩ | ⟨rfl, h⟩ <;> cases h <;> cases m <;> simp [Uses, refNames, callNames] at hu hps
    · exact hps hu
    · rcases hu with hu | hu
      · exact hps.1 hu
      · exact hps.2 hu

theorem demo2_needs {pos : Option Addr} {n m : Name} (h : Needs demo2 pos n m) : m = n :=
  needs_closed (S := fun m => m = n) (fun _ _ _ h => (demo2_mentions h).elim) rfl h

theorem demo2_wf (pos : Option Addr) : Wf demo2 pos where
  fns := by
    intro g d h
    rcases demo2_fns h with ⟨-, rfl⟩ | ⟨-, rfl⟩
    · exact ⟨_, _, _, rfl, by decide⟩
    · exact ⟨_, _, _, rfl, by decide⟩
  vars := by
    intro g d h
    obtain ⟨-, rfl⟩ := demo2_vars h
    exact ⟨_, rfl, by decide⟩

theorem demo2_hygienic (pos : Option Addr) : Hygienic demo2 pos (fun p => p = T "n" ∨ p = T "a" ∨ p = T "b") where
  params := by
    intro g nm ps body h p hp
    rcases demo2_fns h with ⟨-, h⟩ | ⟨-, h⟩ <;> cases h
    · left; simpa using hp
    · right; simpa using hp
  vars := by
    intro x d a h ha r hr
    obtain ⟨-, rfl⟩ := demo2_vars h
    cases ha; simp [refNames] at hr
  bodies := by
    intro g nm ps body h r hr hps
    rcases demo2_fns h with ⟨-, h⟩ | ⟨-, h⟩ <;> cases h <;> simp [refNames] at hr hps
    · exact absurd hr hps
    · rcases hr with rfl | rfl
      · exact absurd rfl hps.1
      · exact absurd rfl hps.2

theorem demo2_acyclic (pos : Option Addr) : Acyclic demo2 pos [.v (T "rate"), .f (T "double"), .f (T "add")] := by
  refine ⟨?_, fun _ _ _ _ h => (demo2_mentions h).elim⟩
  intro n hn
  cases n with
  | v x =>
    obtain ⟨d, hd⟩ := Option.isSome_iff_exists.mp hn
    obtain ⟨rfl, -⟩ := demo2_vars hd; simp
  | f x =>
    obtain ⟨d, hd⟩ := Option.isSome_iff_exists.mp hn
    rcases demo2_fns hd with ⟨rfl, -⟩ | ⟨rfl, -⟩ <;> simp

theorem demo2_apart (pos : Option Addr) : ApartScope demo2 pos where
  vars := by
    intro x d a h ha
    obtain ⟨-, rfl⟩ := demo2_vars h
    cases ha; simp [Apart]
  fns := by
    intro g nm ps body h
    rcases demo2_fns h with ⟨-, h⟩ | ⟨-, h⟩ <;> cases h <;> simp [Apart]

theorem demo2Formula_apart (pos : Option Addr) : Apart demo2 pos [] demo2Formula := by
  have hd : ∀ (n : Text) (as : List Ast), (∀ a ∈ as, ∀ m, Uses a m → m ≠ .f n) → (∀ a ∈ as, Apart demo2 pos [] a) → Apart demo2 pos [] (.call n as) := by
    intro n as h1 h2
    rw [Apart, ApartL_iff]
    refine ⟨h2, fun _ a ha m hu _ g _ hn hm => ?_⟩
    have e1 := demo2_needs hn
    have e2 := demo2_needs hm
    exact h1 a ha m hu (by rw [← e1, e2])
  refine ⟨hd _ _ ?_ ?_, hd _ _ ?_ ?_⟩
  · intro a ha m hu
    simp only [List.mem_cons, List.not_mem_nil, or_false] at ha
    rcases ha with rfl | rfl <;> cases m <;> simp [Uses, refNames, callNames, refNamesL, callNamesL] at hu ⊢
    subst hu; decide
  · intro a ha
    simp only [List.mem_cons, List.not_mem_nil, or_false] at ha
    rcases ha with rfl | rfl
    · refine hd _ _ ?_ ?_
      · intro a ha m hu
        simp only [List.mem_cons, List.not_mem_nil, or_false] at ha
        subst ha; cases m <;> simp [Uses, refNames, callNames] at hu ⊢
      · simp [Apart]
    · simp [Apart]
  · intro a ha m hu
    simp only [List.mem_cons, List.not_mem_nil, or_false] at ha
    subst ha; cases m <;> simp [Uses, refNames, callNames, refNamesL, callNamesL] at hu ⊢
    subst hu; decide
  · intro a ha
    simp only [List.mem_cons, List.not_mem_nil, or_false] at ha
    subst ha
    refine hd _ _ ?_ ?_
    · intro a ha m hu
      simp only [List.mem_cons, List.not_mem_nil, or_false] at ha
      subst ha; cases m <;> simp [Uses, refNames, callNames] at hu
    · simp [Apart]

theorem demo2_arity (pos : Option Addr) : (∀ x d v, demo2.variables x = some d → resolve pos d = some v → arityOk demo2 v) ∧
    (∀ g nm ps body, demo2.functions g = some (.fn nm ps body) → arityOk demo2 body) ∧ arityOk demo2 demo2Formula := by
  refine ⟨?_, ?_, ?_⟩
  · intro x d v h hv
    obtain ⟨-, rfl⟩ := demo2_vars h
    cases hv; simp [arityOk]
  · intro g nm ps body h
    rcases demo2_fns h with ⟨-, h⟩ | ⟨-, h⟩ <;> cases h <;> simp [arityOk]
  · have h1 : ∀ nm ps body, demo2.functions (T "double") = some (.fn nm ps body) → 1 = ps.length := by
      intro nm ps body h
      rcases demo2_fns h with ⟨-, h⟩ | ⟨h, -⟩
      · cases h; rfl
      · exact absurd h (by decide)
    have h2 : ∀ nm ps body, demo2.functions (T "add") = some (.fn nm ps body) → 2 = ps.length := by
      intro nm ps body h
      rcases demo2_fns h with ⟨h, -⟩ | ⟨-, h⟩
      · exact absurd h (by decide)
      · cases h; rfl
    have h3 : ∀ nm ps body, demo2.functions (T "SUM") = some (.fn nm ps body) → 1 = ps.length := by
      intro nm ps body h
      rcases demo2_fns h with ⟨h, -⟩ | ⟨h, -⟩ <;> exact absurd h (by decide)
    simp only [demo2Formula, arityOk, arityOkL, and_true, true_and]
    exact ⟨⟨h1, h2⟩, h1, h3⟩

/-- `=add(double(rate), rate) - SUM(double(1))` means `=((5 * 2) + 5) - SUM(1 * 2)`, and that is what it is evaluated to. -/
example (o : Outcome) : Eval demo2 none demo2Formula o ↔
    o = .ok (op (op (op (I 5) "*" (I 2)) "+" (I 5)) "-" (call "SUM" [op (I 1) "*" (I 2)])) := by
  obtain ⟨-, b, h1, -, h3⟩ := C21_meaning_partial demo2 none _ _ (demo2_wf _) (demo2_acyclic _) (demo2_hygienic _) (demo2_apart _)
    (demo2_arity none).1 (demo2_arity none).2.1 demo2Formula (by decide) (by intro r hr; simp [demo2Formula, refNames, refNamesL] at hr; subst hr; decide)
    (demo2Formula_apart _) (demo2_arity none).2.2
  rw [h3, means_expand (demo2_wf _) (demo2_acyclic _) h1]
  exact Iff.of_eq (congrArg (fun x => o = Outcome.ok x) rfl)

end Verif.Ast
