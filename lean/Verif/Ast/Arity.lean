import Verif.Ast.Denote
namespace Verif.Ast

/-! ### what evaluation may alter -/

theorem mem_zip_map {α β : Type} (g : α → β) (l : List α) (p : α × β) (h : p ∈ l.zip (l.map g)) :
    p.1 ∈ l ∧ p.2 = g p.1 := by
  induction l with
  | nil => simp at h
  | cons a l ih =>
    simp only [List.map_cons, List.zip_cons_cons, List.mem_cons] at h
    rcases h with rfl | h
    · simp
    · exact ⟨by simp [(ih h).1], (ih h).2⟩

theorem Alters.refl (sc : Scope) (a : Ast) : Alters sc a a := by
  induction a using Ast.ind with
  | hcall n args ih =>
    refine .undefCall rfl ?_
    intro p hp
    have := mem_zip_map id args p (by simpa using hp)
    rw [this.2]
    exact ih p.1 this.1
  | hinfix l op r h1 h2 => exact .infix h1 h2
  | hfn _ _ _ ih => exact .fn ih
  | hvar _ _ ih => exact .var ih
  | hbool => exact .bool
  | hdate => exact .date
  | hfloat => exact .float
  | hint => exact .int
  | href => exact .undefRef
  | htext => exact .text
  | hcv => exact .cellVar

theorem zip_exists_left {α β : Type} {as : List α} {bs : List β} (hl : as.length = bs.length) {b : β}
    (hb : b ∈ bs) : ∃ a, (a, b) ∈ as.zip bs := by
  induction as generalizing bs with
  | nil => cases bs <;> simp_all
  | cons x as ih =>
    cases bs with
    | nil => simp at hl
    | cons y bs =>
      rcases List.mem_cons.mp hb with rfl | hb
      · exact ⟨x, by simp⟩
      · obtain ⟨a, ha⟩ := ih (by simpa using hl) hb
        exact ⟨a, by simp [ha]⟩

theorem zip_trans {α : Type} {S : α → α → Prop} {as bs cs : List α} (h1 : as.length = bs.length)
    (h2 : bs.length = cs.length) (hR : ∀ p ∈ as.zip bs, ∀ c, (p.2, c) ∈ bs.zip cs → S p.1 c) :
    ∀ p ∈ as.zip cs, S p.1 p.2 := by
  induction as generalizing bs cs with
  | nil => simp
  | cons a as ih =>
    cases bs with
    | nil => simp at h1
    | cons b bs =>
      cases cs with
      | nil => simp at h2
      | cons c cs =>
        intro p hp
        rcases List.mem_cons.mp hp with rfl | hp
        · exact hR (a, b) (by simp) c (by simp)
        · exact ih (by simpa using h1) (by simpa using h2)
            (fun q hq d hd => hR q (by simp [hq]) d (by simp [hd])) p hp

theorem Alters.trans {sc : Scope} {a b c : Ast} (h1 : Alters sc a b) (h2 : Alters sc b c) :
    Alters sc a c := by
  induction a using Ast.ind generalizing b c with
  | hcall n args ih =>
    cases h1 with
    | defCall h => exact .defCall h
    | undefCall hl h1 =>
      cases h2 with
      | defCall h => exact .defCall h
      | undefCall hl2 h2 =>
        refine .undefCall (hl.trans hl2) (zip_trans hl hl2 fun p hp d hd => ?_)
        exact ih p.1 (List.of_mem_zip hp).1 (h1 p hp) (h2 _ hd)
  | hinfix l op r i1 i2 =>
    cases h1 with | «infix» a1 a2 => cases h2 with | «infix» b1 b2 => exact .infix (i1 a1 b1) (i2 a2 b2)
  | hfn _ _ _ ih => cases h1 with | fn a1 => cases h2 with | fn b1 => exact .fn (ih a1 b1)
  | hvar _ _ ih => cases h1 with | var a1 => cases h2 with | var b1 => exact .var (ih a1 b1)
  | href r => cases h1 with
    | undefRef => exact h2
    | defRef h => exact .defRef h
  | hbool => cases h1; exact h2
  | hdate => cases h1; exact h2
  | hfloat => cases h1; exact h2
  | hint => cases h1; exact h2
  | htext => cases h1; exact h2
  | hcv => cases h1; exact h2

theorem alters_replaceVar {sc : Scope} {x : Text} {r : Ast} (hx : (sc.variables x).isSome) (a : Ast) :
    Alters sc a (replaceVar x r a) := by
  induction a using Ast.ind with
  | hcall n args ih =>
    simp only [replaceVar, replaceVars_eq]
    refine .undefCall (by simp) fun p hp => ?_
    have := mem_zip_map _ args p hp
    rw [this.2]
    exact ih p.1 this.1
  | hinfix l op r h1 h2 => exact .infix h1 h2
  | hfn _ _ _ ih => exact .fn ih
  | hvar _ _ ih => exact .var ih
  | href y =>
    simp only [replaceVar]
    split
    · subst_vars; exact .defRef hx
    · exact .undefRef
  | _ => exact Alters.refl ..

theorem alters_callFn {sc : Scope} {f : Text} {d : Ast} (hf : (sc.functions f).isSome) {a b : Ast}
    (h : callFn f d a = .ok b) : Alters sc a b := by
  induction a using Ast.ind generalizing b with
  | hcall n args ih =>
    simp only [callFn] at h
    by_cases hn : n = f
    · subst hn; exact .defCall hf
    · rw [if_neg hn] at h
      cases h2 : callFns f d args with
      | error e => rw [h2] at h; cases h
      | ok bs =>
        rw [h2] at h; cases h
        have hF := (callFns_ok ..).mp h2
        refine .undefCall hF.length_eq ?_
        intro p hp
        exact ih p.1 (List.of_mem_zip hp).1 (List.forall₂_zip hF hp)
  | hinfix l op r h1 h2 =>
    simp only [callFn] at h
    cases hl : callFn f d l with
    | error e => rw [hl] at h; cases h
    | ok l' =>
      cases hr : callFn f d r with
      | error e => rw [hl] at h; simp only [hr] at h; cases h
      | ok r' => rw [hl] at h; simp only [hr] at h; cases h; exact .infix (h1 hl) (h2 hr)
  | hvar n a ih =>
    simp only [callFn] at h
    cases hl : callFn f d a with
    | error e => rw [hl] at h; cases h
    | ok l' => rw [hl] at h; cases h; exact .var (ih hl)
  | _ => simp only [callFn] at h; cases h; exact Alters.refl ..

theorem resolveVars_mem {sc : Scope} {pos : Option Addr} {vs : List Text} {σ : List (Text × Ast)}
    (h : resolveVars sc pos vs = some σ) : ∀ p ∈ σ, ValueOf sc pos p.1 p.2 := by
  induction vs generalizing σ with
  | nil => cases h; simp
  | cons v vs ih =>
    simp only [resolveVars] at h
    cases hv : sc.variables v with
    | none => rw [hv] at h; exact ih h
    | some d =>
      rw [hv] at h; simp only at h
      cases h1 : resolve pos d with
      | none => rw [h1] at h; simp at h
      | some a =>
        cases h2 : resolveVars sc pos vs with
        | none => rw [h1, h2] at h; simp at h
        | some rest =>
          rw [h1, h2] at h; cases h
          intro p hp
          rcases List.mem_cons.mp hp with rfl | hp
          · exact ⟨d, hv, h1⟩
          · exact ih h2 p hp

theorem alters_round {sc : Scope} {pos : Option Addr} {a b : Ast} (h : Round sc pos a (.ok b)) :
    Alters sc a b := by
  obtain ⟨vs, fs, hvs, hfs, h⟩ := h
  simp only [round] at h
  cases hσ : resolveVars sc pos vs with
  | none => rw [hσ] at h; cases h
  | some σ =>
    rw [hσ] at h; simp only at h
    cases he : evalFns sc fs (replaceSeq σ a) with
    | error e => rw [he] at h; cases h
    | ok b' =>
      rw [he] at h; cases h
      have h1 : Alters sc a (replaceSeq σ a) := by
        have hm := resolveVars_mem hσ
        clear hσ he
        induction σ generalizing a with
        | nil => exact Alters.refl ..
        | cons p σ ih =>
          obtain ⟨d, hd, _⟩ := hm p (by simp)
          have h1 : Alters sc a (replaceVar p.1 p.2 a) := alters_replaceVar (by simp [hd]) a
          have : ∀ (σ : List (Text × Ast)) (a : Ast), (∀ q ∈ σ, ValueOf sc pos q.1 q.2) →
              Alters sc a (replaceSeq σ a) := by
            intro σ
            induction σ with
            | nil => intro a _; exact Alters.refl ..
            | cons q σ ih =>
              intro a hq
              obtain ⟨d, hd, _⟩ := hq q (by simp)
              exact (alters_replaceVar (x := q.1) (r := q.2) (by simp [hd]) a).trans
                (ih _ fun q' h => hq q' (by simp [h]))
          exact h1.trans (this σ _ fun q hq => hm q (by simp [hq]))
      refine evalFns_inv (I := fun b => Alters sc a b) fs ?_ h1 he
      intro f _ d x y hfd hx hy
      exact hx.trans (alters_callFn (by simp [hfd]) hy)

theorem alters_loop {sc : Scope} {pos : Option Addr} {last : Refs} {a : Ast} {o : Outcome}
    (h : Loop sc pos last a o) : ∀ b, o = .ok b → Alters sc a b := by
  induction h with
  | stop _ => rintro b ⟨⟩; exact Alters.refl ..
  | again _ hr _ ih => intro b hb; exact (alters_round hr).trans (ih b hb)
  | err => rintro b ⟨⟩
  | panic => rintro b ⟨⟩

/-! ### arity -/

theorem exposed_replaceVar {sc : Scope} {c a : Ast} (x : Text) (r : Ast) (h : Exposed sc c a) :
    Exposed sc (replaceVar x r c) (replaceVar x r a) := by
  induction h with
  | here => exact .here
  | arg hn ha _ ih =>
    simp only [replaceVar, replaceVars_eq]
    exact .arg hn (List.mem_map_of_mem ha) ih
  | left _ ih => simp only [replaceVar]; exact .left ih
  | right _ ih => simp only [replaceVar]; exact .right ih
  | var _ ih => simp only [replaceVar]; exact .var ih

/-- There is an exposed call of `f` with a number of arguments that does not match `ps`. -/
def BadCall (sc : Scope) (f : Text) (ps : List Text) (a : Ast) : Prop :=
  ∃ args, args.length ≠ ps.length ∧ Exposed sc (.call f args) a

theorem badCall_replaceVar {sc : Scope} {f : Text} {ps : List Text} {a : Ast} (x : Text) (r : Ast)
    (h : BadCall sc f ps a) : BadCall sc f ps (replaceVar x r a) := by
  obtain ⟨args, hl, he⟩ := h
  refine ⟨args.map (replaceVar x r), by simpa using hl, ?_⟩
  have := exposed_replaceVar x r he
  simpa only [replaceVar, replaceVars_eq] using this

theorem badCall_replaceSeq {sc : Scope} {f : Text} {ps : List Text} {a : Ast} (σ : List (Text × Ast))
    (h : BadCall sc f ps a) : BadCall sc f ps (replaceSeq σ a) := by
  induction σ generalizing a with
  | nil => exact h
  | cons p σ ih => exact ih (badCall_replaceVar _ _ h)

theorem exposed_uses {sc : Scope} {f : Text} {args : List Ast} {a : Ast}
    (h : Exposed sc (.call f args) a) : f ∈ callNames a := by
  induction h with
  | here => simp [callNames]
  | arg _ ha _ ih => simp only [callNames, callNamesL_eq, List.mem_cons, List.mem_flatMap]; exact .inr ⟨_, ha, ih⟩
  | left _ ih => simp [callNames, ih]
  | right _ ih => simp [callNames, ih]
  | var _ ih => simpa [callNames] using ih

theorem callFns_error {f : Text} {d : Ast} {as : List Ast} {a : Ast} {e : EvalError} (ha : a ∈ as)
    (h : callFn f d a = .error e) : ∃ e, callFns f d as = .error e := by
  cases hc : callFns f d as with
  | error e => exact ⟨e, rfl⟩
  | ok bs =>
    obtain ⟨b, _, hb⟩ := forall₂_mem_left' ((callFns_ok ..).mp hc) ha
    rw [h] at hb; cases hb

/-- Calling `f` when there is an exposed call of it with the wrong number of arguments fails. -/
theorem badCall_error {sc : Scope} {f nm : Text} {ps : List Text} {body a : Ast}
    (hf : (sc.functions f).isSome) (h : BadCall sc f ps a) :
    ∃ e, callFn f (.fn nm ps body) a = .error e := by
  obtain ⟨args, hl, h⟩ := h
  induction h with
  | here => simp only [callFn, if_true, if_pos hl]; exact ⟨_, rfl⟩
  | arg hn ha _ ih =>
    rename_i n args' a' _
    obtain ⟨e, he⟩ := ih
    obtain ⟨e', he'⟩ := callFns_error ha he
    refine ⟨e', ?_⟩
    have hnf : n ≠ f := by rintro rfl; simp [hn] at hf
    simp only [callFn, if_neg hnf, he']
  | left _ ih => obtain ⟨e, he⟩ := ih; exact ⟨e, by simp only [callFn, he]⟩
  | right _ ih =>
    rename_i l op r _
    obtain ⟨e, he⟩ := ih
    cases hl : callFn f (.fn nm ps body) l with
    | error e' => exact ⟨e', by simp only [callFn, hl]⟩
    | ok l' => exact ⟨e, by simp only [callFn, hl, he]⟩
  | var _ ih => obtain ⟨e, he⟩ := ih; exact ⟨e, by simp only [callFn, he]⟩

/-- Calling another function leaves the exposed call in place. -/
theorem badCall_keep {sc : Scope} {f g : Text} {d : Ast} {ps : List Text} {a b : Ast} (hfg : g ≠ f)
    (hg : (sc.functions g).isSome) (h : BadCall sc f ps a) (hc : callFn g d a = .ok b) :
    BadCall sc f ps b := by
  obtain ⟨args, hl, h⟩ := h
  induction h generalizing b with
  | here =>
    simp only [callFn, if_neg hfg.symm] at hc
    cases h2 : callFns g d args with
    | error e => rw [h2] at hc; cases hc
    | ok bs =>
      rw [h2] at hc; cases hc
      exact ⟨bs, by rw [← ((callFns_ok ..).mp h2).length_eq]; exact hl, .here⟩
  | arg hn ha _ ih =>
    rename_i n args' a' _
    have hng : n ≠ g := by rintro rfl; simp [hn] at hg
    simp only [callFn, if_neg hng] at hc
    cases h2 : callFns g d args' with
    | error e => rw [h2] at hc; cases hc
    | ok bs =>
      rw [h2] at hc; cases hc
      obtain ⟨b', hb', hcb⟩ := forall₂_mem_left' ((callFns_ok ..).mp h2) ha
      obtain ⟨args'', hl'', he''⟩ := ih hcb
      exact ⟨args'', hl'', .arg hn hb' he''⟩
  | left _ ih =>
    rename_i l op r _
    simp only [callFn] at hc
    cases hl : callFn g d l with
    | error e => rw [hl] at hc; cases hc
    | ok l' =>
      cases hr : callFn g d r with
      | error e => rw [hl] at hc; simp only [hr] at hc; cases hc
      | ok r' =>
        rw [hl] at hc; simp only [hr] at hc; cases hc
        obtain ⟨x, hx, he⟩ := ih hl; exact ⟨x, hx, .left he⟩
  | right _ ih =>
    rename_i l op r _
    simp only [callFn] at hc
    cases hl : callFn g d l with
    | error e => rw [hl] at hc; cases hc
    | ok l' =>
      cases hr : callFn g d r with
      | error e => rw [hl] at hc; simp only [hr] at hc; cases hc
      | ok r' =>
        rw [hl] at hc; simp only [hr] at hc; cases hc
        obtain ⟨x, hx, he⟩ := ih hr; exact ⟨x, hx, .right he⟩
  | var _ ih =>
    rename_i n a _
    simp only [callFn] at hc
    cases hl : callFn g d a with
    | error e => rw [hl] at hc; cases hc
    | ok l' => rw [hl] at hc; cases hc; obtain ⟨x, hx, he⟩ := ih hl; exact ⟨x, hx, .var he⟩

theorem badCall_evalFns {sc : Scope} {f nm : Text} {ps : List Text} {body : Ast}
    (hf : sc.functions f = some (.fn nm ps body)) (fs : List Text) (hm : f ∈ fs) {a : Ast}
    (h : BadCall sc f ps a) : ∃ e, evalFns sc fs a = .error e := by
  induction fs generalizing a with
  | nil => simp at hm
  | cons g fs ih =>
    simp only [evalFns]
    by_cases hgf : g = f
    · subst hgf
      obtain ⟨e, he⟩ := badCall_error (nm := nm) (body := body) (by simp [hf]) h
      rw [hf]; simp only [he]; exact ⟨e, rfl⟩
    · have hm' : f ∈ fs := by
        rcases List.mem_cons.mp hm with rfl | h
        · exact absurd rfl hgf
        · exact h
      cases hg : sc.functions g with
      | none => exact ih hm' h
      | some d =>
        simp only
        cases hc : callFn g d a with
        | error e => exact ⟨e, rfl⟩
        | ok a' => exact ih hm' (badCall_keep hgf (by simp [hg]) h hc)

/-! ### right arities -/

theorem arityOk_replaceVar {sc : Scope} {x : Text} {r : Ast} (hr : arityOk sc r) (a : Ast)
    (ha : arityOk sc a) : arityOk sc (replaceVar x r a) := by
  induction a using Ast.ind with
  | hcall n args ih =>
    simp only [arityOk, arityOkL_iff, replaceVar, replaceVars_eq, List.mem_map, forall_exists_index, and_imp,
      forall_apply_eq_imp_iff₂, List.length_map] at ha ⊢
    exact ⟨fun a h => ih a h (ha.1 a h), ha.2⟩
  | hinfix l op r h1 h2 => simp only [arityOk, replaceVar] at ha ⊢; exact ⟨h1 ha.1, h2 ha.2⟩
  | hfn _ _ _ ih => simp only [arityOk, replaceVar] at ha ⊢; exact ih ha
  | hvar _ _ ih => simp only [arityOk, replaceVar] at ha ⊢; exact ih ha
  | href y => simp only [replaceVar]; split; exact hr; simp [arityOk]
  | _ => simp [arityOk, replaceVar]

theorem arityOk_replaceSeq {sc : Scope} (σ : List (Text × Ast)) (a : Ast)
    (hσ : ∀ p ∈ σ, arityOk sc p.2) (ha : arityOk sc a) : arityOk sc (replaceSeq σ a) := by
  induction σ generalizing a with
  | nil => exact ha
  | cons p σ ih => exact ih _ (fun q hq => hσ q (by simp [hq])) (arityOk_replaceVar (hσ p (by simp)) a ha)

theorem arityOk_callFn {sc : Scope} {f nm : Text} {ps : List Text} {body : Ast}
    (hf : sc.functions f = some (.fn nm ps body)) (hb : arityOk sc body) (a : Ast) (ha : arityOk sc a) :
    ∃ b, callFn f (.fn nm ps body) a = .ok b ∧ arityOk sc b := by
  induction a using Ast.ind with
  | hcall n args ih =>
    simp only [arityOk, arityOkL_iff] at ha
    by_cases hn : n = f
    · subst hn
      have hl := ha.2 nm ps body hf
      refine ⟨replaceSeq (ps.zip args) body, by simp [callFn, hl], ?_⟩
      exact arityOk_replaceSeq _ _ (fun p hp => ha.1 _ (List.of_mem_zip hp).2) hb
    · have : ∃ bs, callFns f (.fn nm ps body) args = .ok bs ∧ ∀ b ∈ bs, arityOk sc b := by
        clear hn
        have h1 := ha.1
        clear ha
        induction args with
        | nil => exact ⟨[], rfl, by simp⟩
        | cons x xs ihx =>
          obtain ⟨b, hb1, hb2⟩ := ih x (by simp) (h1 x (by simp))
          obtain ⟨bs, hbs1, hbs2⟩ := ihx (fun a ha => ih a (by simp [ha])) (fun a ha => h1 a (by simp [ha]))
          exact ⟨b :: bs, by simp [callFns, hb1, hbs1], by simpa using ⟨hb2, hbs2⟩⟩
      obtain ⟨bs, h1, h2⟩ := this
      refine ⟨.call n bs, by simp [callFn, hn, h1], ?_⟩
      simp only [arityOk, arityOkL_iff]
      exact ⟨h2, fun nm ps body h => by
        rw [← ((callFns_ok ..).mp h1).length_eq]; exact ha.2 nm ps body h⟩
  | hinfix l op r h1 h2 =>
    simp only [arityOk] at ha
    obtain ⟨l', hl, hl'⟩ := h1 ha.1
    obtain ⟨r', hr, hr'⟩ := h2 ha.2
    exact ⟨.infix l' op r', by simp [callFn, hl, hr], hl', hr'⟩
  | hvar n a ih =>
    simp only [arityOk] at ha
    obtain ⟨l', hl, hl'⟩ := ih ha
    exact ⟨.var n l', by simp [callFn, hl], hl'⟩
  | _ => exact ⟨_, rfl, ha⟩

theorem arityOk_evalFns {sc : Scope} {pos : Option Addr} (hw : Wf sc pos)
    (hb : ∀ g nm ps body, sc.functions g = some (.fn nm ps body) → arityOk sc body)
    (fs : List Text) (a : Ast) (ha : arityOk sc a) : ∃ b, evalFns sc fs a = .ok b ∧ arityOk sc b := by
  induction fs generalizing a with
  | nil => exact ⟨a, rfl, ha⟩
  | cons f fs ih =>
    simp only [evalFns]
    cases hf : sc.functions f with
    | none => exact ih a ha
    | some d =>
      obtain ⟨nm, ps, body, rfl, -⟩ := hw.fns f d hf
      obtain ⟨b, h1, h2⟩ := arityOk_callFn hf (hb f nm ps body hf) a ha
      simp only [h1]
      exact ih b h2

/-- Errors are raised with the number of arguments in the place of the expected number. -/
theorem callFn_error_numbers {f nm : Text} {ps : List Text} {body a : Ast} {e : EvalError}
    (h : callFn f (.fn nm ps body) a = .error e) :
    e.source = .fn nm ps body ∧ e.received = ps.length ∧ e.expected ≠ ps.length := by
  induction a using Ast.ind with
  | hcall n args ih =>
    simp only [callFn] at h
    by_cases hn : n = f
    · rw [if_pos hn] at h
      by_cases hl : args.length ≠ ps.length
      · rw [if_pos hl] at h; cases h; exact ⟨rfl, rfl, hl⟩
      · rw [if_neg hl] at h; cases h
    · rw [if_neg hn] at h
      cases h2 : callFns f (.fn nm ps body) args with
      | ok bs => rw [h2] at h; cases h
      | error e' =>
        rw [h2] at h; cases h
        clear hn
        induction args with
        | nil => simp [callFns] at h2
        | cons x xs ihx =>
          simp only [callFns] at h2
          cases hx : callFn f (.fn nm ps body) x with
          | error e2 => rw [hx] at h2; cases h2; exact ih x (by simp) hx
          | ok x' =>
            rw [hx] at h2; simp only at h2
            cases hxs : callFns f (.fn nm ps body) xs with
            | ok ys => rw [hxs] at h2; cases h2
            | error e2 =>
              rw [hxs] at h2; cases h2
              exact ihx (fun a ha => ih a (by simp [ha])) hxs
  | hinfix l op r h1 h2 =>
    simp only [callFn] at h
    cases hl : callFn f (.fn nm ps body) l with
    | error e' => rw [hl] at h; cases h; exact h1 hl
    | ok l' =>
      rw [hl] at h; simp only at h
      cases hr : callFn f (.fn nm ps body) r with
      | error e' => rw [hr] at h; cases h; exact h2 hr
      | ok r' => rw [hr] at h; cases h
  | hvar n a ih =>
    simp only [callFn] at h
    cases hl : callFn f (.fn nm ps body) a with
    | error e' => rw [hl] at h; cases h; exact ih hl
    | ok l' => rw [hl] at h; cases h
  | _ => simp [callFn] at h

end Verif.Ast
