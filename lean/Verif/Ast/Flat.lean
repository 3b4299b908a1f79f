import Verif.Ast.Rounds
namespace Verif.Ast

/-- The formula uses no defined name. -/
def NoDef (sc : Scope) (a : Ast) : Prop := ∀ m, Uses a m → ¬ Defined sc m

theorem uses_replaceVar {x : Text} {r a : Ast} {m : Name} (h : Uses (replaceVar x r a) m) :
    (Uses a m ∧ m ≠ .v x) ∨ (x ∈ refNames a ∧ Uses r m) := by
  cases m with
  | v y =>
    rcases (mem_refNames_replaceVar ..).mp h with h | h
    · exact .inl ⟨h.1, by simpa using h.2⟩
    · exact .inr h
  | f g =>
    rcases (mem_callNames_replaceVar ..).mp h with h | h
    · exact .inl ⟨h, by simp⟩
    · exact .inr h

theorem flat_weaken {sc : Scope} {ps qs : List Text} (a : Ast) (hs : ∀ p ∈ ps, p ∈ qs)
    (h : Flat sc ps a) : Flat sc qs a := by
  induction a using Ast.ind with
  | hcall n args ih =>
    simp only [Flat, FlatL_iff] at h ⊢
    refine ⟨fun a ha => ih a ha (h.1 a ha), fun hn a ha m hu hd => ?_⟩
    obtain ⟨p, hp, hm⟩ := h.2 hn a ha m hu hd
    exact ⟨p, hs p hp, hm⟩
  | hinfix l op r h1 h2 => simp only [Flat] at h ⊢; exact ⟨h1 h.1, h2 h.2⟩
  | hfn _ _ _ ih => simp only [Flat] at h ⊢; exact ih h
  | hvar _ _ ih => simp only [Flat] at h ⊢; exact ih h
  | _ => simp [Flat]

theorem flat_of_noDef {sc : Scope} (a : Ast) (h : NoDef sc a) : Flat sc [] a := by
  induction a using Ast.ind with
  | hcall n args ih =>
    simp only [Flat, FlatL_iff]
    have harg : ∀ a ∈ args, NoDef sc a := by
      intro a ha m hu
      apply h m
      cases m with
      | v x => simp only [Uses, refNames, refNamesL_eq, List.mem_flatMap] at hu ⊢; exact ⟨a, ha, hu⟩
      | f x => simp only [Uses, callNames, callNamesL_eq, List.mem_flatMap, List.mem_cons] at hu ⊢; exact .inr ⟨a, ha, hu⟩
    exact ⟨fun a ha => ih a ha (harg a ha), fun _ a ha m hu hd => absurd hd (harg a ha m hu)⟩
  | hinfix l op r h1 h2 =>
    simp only [Flat]
    refine ⟨h1 fun m hu => h m ?_, h2 fun m hu => h m ?_⟩ <;> cases m <;>
      simp only [Uses, refNames, callNames, List.mem_append] at hu ⊢ <;> tauto
  | hfn _ _ _ ih =>
    simp only [Flat]; apply ih; intro m hu; apply h m
    cases m <;> simpa [Uses, refNames, callNames] using hu
  | hvar _ _ ih =>
    simp only [Flat]; apply ih; intro m hu; apply h m
    cases m <;> simpa [Uses, refNames, callNames] using hu
  | _ => simp [Flat]

/-- Replacing a parameter by something without defined names. -/
theorem flat_replaceVar_noDef {sc : Scope} {p : Text} {ps : List Text} {e : Ast} (a : Ast)
    (ha : Flat sc (p :: ps) a) (he : NoDef sc e) : Flat sc ps (replaceVar p e a) := by
  induction a using Ast.ind with
  | hcall n args ih =>
    simp only [Flat, FlatL_iff, replaceVar, replaceVars_eq, List.mem_map, forall_exists_index, and_imp,
      forall_apply_eq_imp_iff₂] at ha ⊢
    refine ⟨fun a h => ih a h (ha.1 a h), fun hn a h m hu hd => ?_⟩
    rcases uses_replaceVar hu with ⟨h1, h2⟩ | ⟨_, h1⟩
    · obtain ⟨q, hq, rfl⟩ := ha.2 hn a h m h1 hd
      rcases List.mem_cons.mp hq with rfl | hq
      · exact absurd rfl h2
      · exact ⟨q, hq, rfl⟩
    · exact absurd hd (he m h1)
  | hinfix l op r h1 h2 => simp only [Flat, replaceVar] at ha ⊢; exact ⟨h1 ha.1, h2 ha.2⟩
  | hfn _ _ _ ih => simp only [Flat, replaceVar] at ha ⊢; exact ih ha
  | hvar _ _ ih => simp only [Flat, replaceVar] at ha ⊢; exact ih ha
  | href y =>
    simp only [replaceVar]
    split
    · exact flat_weaken e (by simp) (flat_of_noDef e he)
    · simp [Flat]
  | _ => simp [Flat, replaceVar]

theorem flat_replaceSeq_noDef {sc : Scope} {ps : List Text} {args : List Ast} (a : Ast)
    (hl : args.length = ps.length) (ha : Flat sc ps a) (he : ∀ e ∈ args, NoDef sc e) :
    Flat sc [] (replaceSeq (ps.zip args) a) := by
  induction ps generalizing args a with
  | nil => simpa [replaceSeq] using ha
  | cons p ps ih =>
    cases args with
    | nil => simp at hl
    | cons e es =>
      simp only [List.zip_cons_cons, replaceSeq, List.foldl_cons]
      exact ih _ (by simpa using hl) (flat_replaceVar_noDef a ha (he e (by simp))) fun e' h => he e' (by simp [h])

/-- Replacing a defined variable by a flat value. -/
theorem flat_replaceVar {sc : Scope} {x : Text} {r : Ast} (a : Ast) (hx : (sc.variables x).isSome)
    (ha : Flat sc [] a) (hr : Flat sc [] r) : Flat sc [] (replaceVar x r a) := by
  induction a using Ast.ind with
  | hcall n args ih =>
    simp only [Flat, FlatL_iff, replaceVar, replaceVars_eq, List.mem_map, forall_exists_index, and_imp,
      forall_apply_eq_imp_iff₂] at ha ⊢
    refine ⟨fun a h => ih a h (ha.1 a h), fun hn a h m hu hd => ?_⟩
    have hxa : x ∉ refNames a := by
      intro hxa
      obtain ⟨q, hq, _⟩ := ha.2 hn a h (.v x) hxa hx
      simp at hq
    rw [replaceVar_not_mem _ _ _ hxa] at hu
    exact ha.2 hn a h m hu hd
  | hinfix l op r h1 h2 => simp only [Flat, replaceVar] at ha ⊢; exact ⟨h1 ha.1, h2 ha.2⟩
  | hfn _ _ _ ih => simp only [Flat, replaceVar] at ha ⊢; exact ih ha
  | hvar _ _ ih => simp only [Flat, replaceVar] at ha ⊢; exact ih ha
  | href y =>
    simp only [replaceVar]
    split
    · exact hr
    · simp [Flat]
  | _ => simp [Flat, replaceVar]

theorem flat_replaceSeq {sc : Scope} (σ : List (Text × Ast)) (a : Ast)
    (hσ : ∀ p ∈ σ, (sc.variables p.1).isSome ∧ Flat sc [] p.2) (ha : Flat sc [] a) :
    Flat sc [] (replaceSeq σ a) := by
  induction σ generalizing a with
  | nil => exact ha
  | cons p σ ih =>
    simp only [replaceSeq, List.foldl_cons]
    exact ih _ (fun q hq => hσ q (by simp [hq]))
      (flat_replaceVar a (hσ p (by simp)).1 ha (hσ p (by simp)).2)

theorem noDef_args {sc : Scope} {n : Text} {args : List Ast} (h : Flat sc [] (.call n args))
    (hn : (sc.functions n).isSome) : ∀ a ∈ args, NoDef sc a := by
  intro a ha m hu hd
  simp only [Flat] at h
  obtain ⟨q, hq, _⟩ := h.2 hn a ha m hu hd
  simp at hq

/-- A call keeps formulas flat. -/
theorem flat_callFn {sc : Scope} {f nm : Text} {ps : List Text} {body a b : Ast}
    (hf : sc.functions f = some (.fn nm ps body)) (hb : Flat sc ps body)
    (h : callFn f (.fn nm ps body) a = .ok b) (ha : Flat sc [] a) : Flat sc [] b := by
  have hfs : (sc.functions f).isSome := by simp [hf]
  have := callFn_ind (P := fun a b => Flat sc [] a → Flat sc [] b ∧
      ∀ m, Defined sc m → Uses b m → Uses a m ∨ Uses a (.f f)) ?_ ?_ ?_ ?_ ?_ ?_ h
  exact (this ha).1
  · intro args hl hp
    exact ⟨flat_replaceSeq_noDef body hl hb (noDef_args hp hfs),
      fun m _ _ => .inr (by simp [Uses, callNames])⟩
  · intro n args args' hn hF hp
    simp only [Flat, FlatL_iff] at hp ⊢
    refine ⟨⟨?_, ?_⟩, ?_⟩
    · intro b hb
      obtain ⟨a, ha, hR⟩ := forall₂_mem_right' hF hb
      exact (hR (hp.1 a ha)).1
    · intro hns b hb m hu hd
      obtain ⟨a, ha, hR⟩ := forall₂_mem_right' hF hb
      rcases (hR (hp.1 a ha)).2 m hd hu with h | h
      · exact hp.2 hns a ha m h hd
      · obtain ⟨q, hq, _⟩ := hp.2 hns a ha (.f f) h hfs
        simp at hq
    · intro m hd hu
      have lift : ∀ a ∈ args, ∀ m, Uses a m → Uses (.call n args) m := by
        intro a ha m hu
        cases m with
        | v x => simp only [Uses, refNames, refNamesL_eq, List.mem_flatMap] at hu ⊢; exact ⟨a, ha, hu⟩
        | f x => simp only [Uses, callNames, callNamesL_eq, List.mem_flatMap, List.mem_cons] at hu ⊢; exact .inr ⟨a, ha, hu⟩
      have low : Uses (.call n args') m → m = .f n ∨ ∃ b ∈ args', Uses b m := by
        intro hu
        cases m with
        | v x => simp only [Uses, refNames, refNamesL_eq, List.mem_flatMap] at hu ⊢; exact .inr hu
        | f x =>
          simp only [Uses, callNames, callNamesL_eq, List.mem_flatMap, List.mem_cons] at hu ⊢
          rcases hu with rfl | hu
          · exact .inl rfl
          · exact .inr hu
      rcases low hu with rfl | ⟨b, hb, hu⟩
      · left; simp [Uses, callNames]
      · obtain ⟨a, ha, hR⟩ := forall₂_mem_right' hF hb
        rcases (hR (hp.1 a ha)).2 m hd hu with h | h
        · exact .inl (lift a ha m h)
        · exact .inr (lift a ha _ h)
  · intro l op r l' r' h1 h2 hp
    simp only [Flat] at hp ⊢
    have h1 := h1 hp.1; have h2 := h2 hp.2
    refine ⟨⟨h1.1, h2.1⟩, fun m hd hu => ?_⟩
    have hu' : Uses l' m ∨ Uses r' m := by
      cases m <;> simpa [Uses, refNames, callNames] using hu
    have hl : ∀ m, Uses l m ∨ Uses r m → Uses (.infix l op r) m := by
      intro m; cases m <;> simp [Uses, refNames, callNames]
    rcases hu' with hu' | hu'
    · rcases h1.2 m hd hu' with h | h
      · exact .inl (hl _ (.inl h))
      · exact .inr (hl _ (.inl h))
    · rcases h2.2 m hd hu' with h | h
      · exact .inl (hl _ (.inr h))
      · exact .inr (hl _ (.inr h))
  · intro n a a' h1 hp
    simp only [Flat] at hp ⊢
    refine ⟨(h1 hp).1, fun m hd hu => ?_⟩
    have : ∀ (n : Text) (a : Ast) m, Uses (.var n a) m ↔ Uses a m := by
      intro n a m; cases m <;> simp [Uses, refNames, callNames]
    rw [this] at hu
    simpa only [this] using (h1 hp).2 m hd hu
  · intro n qs b hp; exact ⟨hp, fun m _ hu => .inl hu⟩
  · intro a _ hp; exact ⟨hp, fun m _ hu => .inl hu⟩

/-- After calling `f` in a flat formula there is no call of `f` left. -/
theorem flat_callFn_gone {sc : Scope} {f nm : Text} {ps : List Text} {body a b : Ast}
    (hf : sc.functions f = some (.fn nm ps body)) (hbody : f ∉ callNames body)
    (h : callFn f (.fn nm ps body) a = .ok b) (ha : Flat sc [] a) (hpl : plain a) :
    f ∉ callNames b := by
  have hfs : (sc.functions f).isSome := by simp [hf]
  revert ha hpl
  refine callFn_ind (P := fun a b => Flat sc [] a → plain a → f ∉ callNames b) ?_ ?_ ?_ ?_ ?_ ?_ h
  · intro args hl hp _ hm
    rcases mem_callNames_replaceSeq _ body f hm with h | ⟨e, he, h⟩
    · exact hbody h
    · exact noDef_args hp hfs e.2 (List.of_mem_zip he).2 (.f f) h hfs
  · intro n args args' hn hF hp hpl hm
    simp only [Flat, FlatL_iff, plain, plainL_iff] at hp hpl
    simp only [callNames, callNamesL_eq, List.mem_cons, List.mem_flatMap] at hm
    rcases hm with rfl | ⟨b, hb, hm⟩
    · exact hn rfl
    · obtain ⟨a, ha, hR⟩ := forall₂_mem_right' hF hb
      exact hR (hp.1 a ha) (hpl a ha) hm
  · intro l op r l' r' h1 h2 hp hpl hm
    simp only [Flat, plain, Bool.and_eq_true] at hp hpl
    simp only [callNames, List.mem_append] at hm
    rcases hm with hm | hm
    · exact h1 hp.1 hpl.1 hm
    · exact h2 hp.2 hpl.2 hm
  · intro n a a' h1 hp hpl hm
    simp only [Flat, plain, callNames] at hp hpl hm
    exact h1 hp hpl hm
  · intro n qs b _ hpl; simp [plain] at hpl
  · intro a hl _ _ hm
    cases a <;> simp [isLeaf] at hl <;> simp [callNames] at hm

/-- In a flat acyclic scope a used name of top rank is gone after a round. -/
theorem flat_round {sc : Scope} {pos : Option Addr} {order : List Name}
    (hw : Wf sc pos) (hfl : FlatScope sc pos) (hac : Acyclic sc pos order)
    {a b : Ast} (hpl : plain a) (ha : Flat sc [] a) (h : Round sc pos a (.ok b)) :
    plain b ∧ Flat sc [] b ∧ ∀ n, Defined sc n →
      (∀ m, Defined sc m → Uses a m → order.idxOf m ≤ order.idxOf n) → ¬ Uses b n := by
  obtain ⟨σ, fs, hσ, hval, hfs, he⟩ := round_ok hw h
  have hdef : ∀ p ∈ σ, Defined sc (.v p.1) ∧ Uses a (.v p.1) := by
    intro p hp
    have := (mem_varRefs ..).mp ((hσ p.1).mp (List.mem_map_of_mem hp))
    exact ⟨this.2, this.1⟩
  have hfdef : ∀ f ∈ fs, Defined sc (.f f) ∧ Uses a (.f f) := by
    intro f hf
    have := (mem_fnRefs ..).mp ((hfs f).mp hf)
    exact ⟨this.2, this.1⟩
  have hvflat : ∀ p ∈ σ, Flat sc [] p.2 ∧ plain p.2 := by
    intro p hp
    obtain ⟨d, hd, hr⟩ := hval p hp
    obtain ⟨a', ha', hp'⟩ := hw.vars p.1 d hd
    rw [hr] at ha'; cases ha'
    exact ⟨hfl.vars p.1 d p.2 hd hr, hp'⟩
  have hpl1 : plain (replaceSeq σ a) := plain_replaceSeq _ _ hpl fun p hp => (hvflat p hp).2
  have hfl1 : Flat sc [] (replaceSeq σ a) :=
    flat_replaceSeq σ a (fun p hp => ⟨(hdef p hp).1, (hvflat p hp).1⟩) ha
  have base := evalFns_inv (I := fun a => plain a ∧ Flat sc [] a) fs (by
    intro f hf d a b hfd ha hc
    obtain ⟨nm, ps, body, rfl, hpb⟩ := hw.fns f d hfd
    exact ⟨callFn_plain hc ha.1 hpb, flat_callFn hfd (hfl.fns f nm ps body hfd) hc ha.2⟩) ⟨hpl1, hfl1⟩ he
  refine ⟨base.1, base.2, ?_⟩
  intro n hn htop
  have hnb : ∀ f ∈ fs, ∀ nm ps body, sc.functions f = some (.fn nm ps body) →
      Uses body n → ∃ p ∈ ps, n = .v p := by
    intro f hf nm ps body hfd hu
    by_contra hcon
    push Not at hcon
    exact not_mentioned hac (hfdef f hf).1 hn (htop _ (hfdef f hf).1 (hfdef f hf).2)
      ⟨nm, ps, body, hfd, hu, hcon⟩
  have h1 := depth_replaceSeq n σ a fun p hp hu => by
    obtain ⟨d, hd, hr⟩ := hval p hp
    exact not_mentioned hac (hdef p hp).1 hn (htop _ (hdef p hp).1 (hdef p hp).2) ⟨d, p.2, hd, hr, hu⟩
  have keep : ∀ f ∈ fs, ∀ d a b, sc.functions f = some d → ¬ Uses a n → callFn f d a = .ok b → ¬ Uses b n := by
    intro f hf d a b hfd hna hc hu
    obtain ⟨nm, ps, body, rfl, hpb⟩ := hw.fns f d hfd
    cases n with
    | v x =>
      rcases callFn_refNames hc x hu with h | ⟨_, h1, h2⟩
      · exact hna h
      · obtain ⟨p, hp, hpx⟩ := hnb f hf nm ps body hfd h1
        cases hpx; exact h2 hp
    | f g =>
      rcases callFn_callNames hc g hu with h | ⟨_, h1⟩
      · exact hna h
      · obtain ⟨p, hp, hpx⟩ := hnb f hf nm ps body hfd h1
        cases hpx
  -- it is enough that the name is not used after the variables have been replaced, or is a function called
  cases n with
  | v x =>
    have h0 : ¬ Uses (replaceSeq σ a) (.v x) := by
      by_cases hu : Uses a (.v x)
      · have : x ∈ σ.map (·.1) := (hσ x).mpr ((mem_varRefs ..).mpr ⟨hu, hn⟩)
        obtain ⟨p, hp, hpx⟩ := List.mem_map.mp this
        exact (depth_eq_zero _ _).mp (h1.2 ⟨p, hp, by rw [hpx]⟩)
      · rw [← depth_eq_zero]
        have := (depth_eq_zero _ _).mpr hu
        have := h1.1
        omega
    exact evalFns_inv (I := fun a => ¬ Uses a (.v x)) fs keep h0 he
  | f g =>
    by_cases hu : Uses a (.f g)
    · have hg : g ∈ fs := (hfs g).mpr ((mem_fnRefs ..).mpr ⟨hu, hn⟩)
      clear h1 hfdef hfs hσ hdef
      -- split the list of calls at `g`
      have : ∀ fs : List Text, (∀ f ∈ fs, ∀ d a b, sc.functions f = some d → ¬ Uses a (.f g) →
            callFn f d a = .ok b → ¬ Uses b (.f g)) → g ∈ fs →
          (∀ f ∈ fs, ∀ nm ps body, sc.functions f = some (.fn nm ps body) →
            Uses body (.f g) → ∃ p ∈ ps, Name.f g = .v p) →
          ∀ a, plain a → Flat sc [] a → evalFns sc fs a = .ok b → ¬ Uses b (.f g) := by
        intro fs
        induction fs with
        | nil => intro _ h; simp at h
        | cons f fs ih =>
          intro keep hg hnb a hpa hfa he
          simp only [evalFns] at he
          cases hfd : sc.functions f with
          | none =>
            rw [hfd] at he
            rcases List.mem_cons.mp hg with rfl | hg
            · simp [Defined, hfd] at hn
            · exact ih (fun f hf => keep f (by simp [hf])) hg (fun f hf => hnb f (by simp [hf])) a hpa hfa he
          | some d =>
            rw [hfd] at he; simp only at he
            obtain ⟨nm, ps, body, rfl, hpb⟩ := hw.fns f d hfd
            cases hc : callFn f (.fn nm ps body) a with
            | error e => rw [hc] at he; cases he
            | ok a' =>
              rw [hc] at he; simp only at he
              by_cases hfg : f = g
              · subst hfg
                refine evalFns_inv (I := fun a => ¬ Uses a (.f f)) fs (fun f' hf' => keep f' (by simp [hf'])) ?_ he
                refine flat_callFn_gone hfd ?_ hc hfa hpa
                intro hb
                obtain ⟨p, _, hp⟩ := hnb f (by simp) nm ps body hfd hb
                cases hp
              · have hg : g ∈ fs := by
                  rcases List.mem_cons.mp hg with rfl | hg
                  · exact absurd rfl hfg
                  · exact hg
                exact ih (fun f hf => keep f (by simp [hf])) hg (fun f hf => hnb f (by simp [hf])) a'
                  (callFn_plain hc hpa hpb) (flat_callFn hfd (hfl.fns f nm ps body hfd) hc hfa) he
      exact this fs keep hg hnb _ hpl1 hfl1 he
    · refine evalFns_inv (I := fun a => ¬ Uses a (.f g)) fs keep ?_ he
      rw [← depth_eq_zero]
      have := (depth_eq_zero _ _).mpr hu
      have := h1.1
      omega

/-- In a flat acyclic scope the loop only stops when no defined name is left. -/
theorem flat_loop {sc : Scope} {pos : Option Addr} {order : List Name}
    (hw : Wf sc pos) (hfl : FlatScope sc pos) (hac : Acyclic sc pos order)
    {last : Refs} {a : Ast} {o : Outcome} (h : Loop sc pos last a o) (hpl : plain a) (ha : Flat sc [] a)
    (hlast : (refsOf sc a).Same last → (refsOf sc a).Empty) :
    ∀ b, o = .ok b → (refsOf sc b).Empty := by
  induction h with
  | stop hs =>
    rintro b ⟨⟩
    rcases hs with h | h
    · exact h
    · exact hlast h
  | again hns hr _ ih =>
    rename_i last a a' o
    obtain ⟨h1, h2, h3⟩ := flat_round hw hfl hac hpl ha hr
    refine ih h1 h2 ?_
    intro hsame
    obtain ⟨n, hn, hu, htop⟩ := exists_top hac.1 (fun he => hns (.inl he))
    exfalso
    apply h3 n hn htop
    cases n with
    | v x => exact ((mem_varRefs ..).mp ((hsame.2 x).mpr ((mem_varRefs ..).mpr ⟨hu, hn⟩))).1
    | f x => exact ((mem_fnRefs ..).mp ((hsame.1 x).mpr ((mem_fnRefs ..).mpr ⟨hu, hn⟩))).1
  | err => rintro b ⟨⟩
  | panic => rintro b ⟨⟩

end Verif.Ast
