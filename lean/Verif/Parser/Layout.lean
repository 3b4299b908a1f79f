import Verif.Parser.Lexical
/-
C75, layout: the tokens of a text in order, with only white space and comments around them.
-/
namespace Verif.Parser
open Verif.Ast

/-! ## Specification -/

/-- White space and comments (up to the end of their line). -/
inductive Gap : Text → Prop
  | nil : Gap []
  | ws {c : Char} {g : Text} : isWs c = true → Gap g → Gap (c :: g)
  | comment {b g : Text} : '\n' ∉ b → Gap ('\n' :: g) → Gap ('#' :: b ++ '\n' :: g)

/-- What may follow the last token: white space and comments, the last of which may end the text. -/
inductive End : Text → Prop
  | gap {g : Text} : Gap g → End g
  | comment {g b : Text} : Gap g → '\n' ∉ b → End (g ++ '#' :: b)

/-- The text `rest`, after the text `pre`, consists of the tokens `pts` at the lines and columns they are said to be at, and gaps. -/
inductive Laid : Text → List PTok → Text → Prop
  | nil {pre rest : Text} : End rest → Laid pre [] rest
  | cons {pre g rest : Text} {pt : PTok} {pts : List PTok} : Gap g → pt.tok.s ≠ [] → pt.line = lineOf (pre ++ g) → pt.offset = colOf (pre ++ g) →
      Laid (pre ++ g ++ pt.tok.s) pts rest → Laid pre (pt :: pts) (g ++ pt.tok.s ++ rest)

/-! ## Lemmas -/

theorem Gap.append_ws {w g : Text} (hw : ∀ c ∈ w, isWs c = true) (h : Gap g) : Gap (w ++ g) := by
  induction w with
  | nil => exact h
  | cons c w ih => exact .ws (hw c (by simp)) (ih fun c hc => hw c (by simp [hc]))

theorem Gap.of_ws {w : Text} (hw : ∀ c ∈ w, isWs c = true) : Gap w := by simpa using Gap.append_ws hw .nil

theorem End.append_ws {w g : Text} (hw : ∀ c ∈ w, isWs c = true) (h : End g) : End (w ++ g) := by
  cases h with
  | gap h => exact .gap (h.append_ws hw)
  | comment h hb => rw [← List.append_assoc]; exact .comment (h.append_ws hw) hb

theorem Laid.append_ws {pre w rest : Text} {pts : List PTok} (hw : ∀ c ∈ w, isWs c = true) (h : Laid (pre ++ w) pts rest) : Laid pre pts (w ++ rest) := by
  cases h with
  | nil h => exact .nil (h.append_ws hw)
  | cons hg hne hl hc ht =>
    rw [← List.append_assoc, ← List.append_assoc]
    rw [List.append_assoc pre] at hl hc ht
    exact .cons (hg.append_ws hw) hne hl hc (by simpa using ht)

theorem firstMatch_layout {u : Uni} {p : Text} {k b full rest} (h : firstMatch u p = some (k, b, full, rest)) (hk : k ≠ .newline) :
    ∃ bl w, full = bl ++ trim full ++ w ∧ bl.length = b ∧ '\n' ∉ bl ∧ (∀ c ∈ bl, isWs c = true) ∧ (∀ c ∈ w, isWs c = true) ∧ ∃ c s, trim full = c :: s ∧ isWs c = false := by
  obtain ⟨m, s, hm, hs, hfull, hb⟩ := firstMatch_mem h
  have hs' := matcher_some u hm hs
  have hbl : ∀ c ∈ p.takeWhile isBlank, isWs c = true := takeWhile_blank p
  obtain ⟨c, s', rfl⟩ := List.exists_cons_of_ne_nil hs'.2
  have hcb := List.head?_dropWhile_not isBlank p
  rw [hs'.1] at hcb
  simp at hcb
  have hcw : isWs c = false := by
    by_contra hw
    have hc := isBlank_ws hcb (by simpa using hw)
    rw [hs'.1, List.cons_append] at hs
    exact hk (matcher_ws hm hc hs)
  have ht : trim full = trimEnd (c :: s') := by
    rw [trim, hfull, trimStart]
    rw [(takeWhile_stop (rest := c :: s') hbl (by intro d hd; simp at hd; subst hd; exact hcw)).2]
  have he : ∃ w, c :: s' = trimEnd (c :: s') ++ w ∧ ∀ c ∈ w, isWs c = true := by
    refine ⟨((c :: s').reverse.takeWhile isWs).reverse, ?_, fun d hd => ?_⟩
    · unfold trimEnd
      rw [← List.reverse_append, List.takeWhile_append_dropWhile, List.reverse_reverse]
    · rw [List.mem_reverse] at hd; exact mem_takeWhile hd
  obtain ⟨w, hw, hww⟩ := he
  refine ⟨p.takeWhile isBlank, w, ?_, hb.symm, ?_, hbl, hww, ?_⟩
  · rw [ht, List.append_assoc, ← hw]; exact hfull
  · intro hn
    have := mem_takeWhile hn
    cases this
  · have hne : trimEnd (c :: s') ≠ [] := by rw [← ht]; exact trim_ne_nil (c := c) (by rw [hfull]; simp) hcw
    obtain ⟨d, t, hd⟩ := List.exists_cons_of_ne_nil hne
    refine ⟨d, t, by rw [ht, hd], ?_⟩
    rw [hd, List.cons_append] at hw
    injection hw with h1 _
    rw [← h1]; exact hcw

theorem firstMatch_newline {u : Uni} {p : Text} {b full rest} (h : firstMatch u p = some (.newline, b, full, rest)) : ∀ c ∈ full, isWs c = true := by
  obtain ⟨m, s, hm, hs, hfull, _⟩ := firstMatch_mem h
  have hs2 : s = ['\n'] := by
    simp only [matchers, List.mem_cons, Prod.mk.injEq, List.not_mem_nil, or_false] at hm
    simp only [reduceCtorEq, false_and, or_false, true_and] at hm
    subst hm
    exact (mLit_some hs).2
  intro c hc
  rw [hfull, hs2] at hc
  rcases List.mem_append.mp hc with hc | hc
  · exact takeWhile_blank p c hc
  · simp only [List.mem_cons, List.not_mem_nil, or_false] at hc; subst hc; decide

theorem firstMatch_comment {u : Uni} {p : Text} {b full rest} (h : firstMatch u p = some (.comment, b, full, rest)) :
    ∃ bl body, full = bl ++ '#' :: body ∧ (∀ c ∈ bl, isWs c = true) ∧ '\n' ∉ body ∧ (rest = [] ∨ ∃ r, rest = '\n' :: r) := by
  obtain ⟨m, s, hm, hs, hfull, _⟩ := firstMatch_mem h
  have hm' : m = mComment := by
    simp only [matchers, List.mem_cons, Prod.mk.injEq, List.not_mem_nil, or_false] at hm
    simpa only [reduceCtorEq, false_and, or_false, true_and, false_or] using hm
  subst hm'
  cases hd : p.dropWhile isBlank with
  | nil => rw [hd] at hs; cases hs
  | cons c r =>
    rw [hd, mComment] at hs
    split at hs
    · cases hs
      refine ⟨_, _, hfull, takeWhile_blank p, fun hn => (by simpa using mem_takeWhile hn), ?_⟩
      cases hr : r.dropWhile (· != '\n') with
      | nil => exact .inl rfl
      | cons d r' =>
        have := List.head?_dropWhile_not (· != '\n') r
        rw [hr] at this
        simp at this
        exact .inr ⟨r', by rw [this]⟩
    · cases hs

theorem lexLoop_laid {u : Uni} {T : Text} (hflat : Flat u T) (hasc : Ascii T) (n : Nat) :
    ∀ pre p pts eo el, T = pre ++ p → lexLoop u n p (colOf pre) (lineOf pre) = .ok (pts, eo, el) →
      Laid pre pts p ∧ ∀ pt ∈ pts, '\n' ∉ pt.tok.s ∧ ∃ c s, pt.tok.s = c :: s ∧ isWs c = false := by
  induction n with
  | zero => intro pre p pts eo el _ h; cases h
  | succ n ih =>
    intro pre p pts eo el hT h
    rw [lexLoop] at h
    cases hf : firstMatch u p with
    | none =>
      rw [hf] at h
      simp only at h
      split at h
      · rename_i ht
        cases h
        exact ⟨.nil (.gap (.of_ws (takeWhile_ws_nil ht))), by simp⟩
      · cases h
    | some r =>
      obtain ⟨k, b, full, rest⟩ := r
      rw [hf] at h
      simp only at h
      have hap := (firstMatch_append hf).1
      have hT' : T = (pre ++ full) ++ rest := by rw [hT, hap, List.append_assoc]
      have hasc' : Ascii full := fun c hc => hasc c (by rw [hT']; simp [hc])
      have hpos : (if k = .newline then 0 else colOf pre + byteLen full) = colOf (pre ++ full) ∧
          (if k = .newline then lineOf pre + 1 else lineOf pre) = lineOf (pre ++ full) := by
        by_cases hk : k = .newline
        · subst hk
          obtain ⟨m, s, hm, hs, hfull, _⟩ := firstMatch_mem hf
          have hs2 : s = ['\n'] := by
            simp only [matchers, List.mem_cons, Prod.mk.injEq, List.not_mem_nil, or_false] at hm
            simp only [reduceCtorEq, false_and, or_false, true_and] at hm
            subst hm
            exact (mLit_some hs).2
          have hbl : '\n' ∉ p.takeWhile isBlank := by
            intro hn
            have := mem_takeWhile hn; cases this
          rw [hfull, hs2]
          refine ⟨by rw [if_pos rfl, ← List.append_assoc]; exact (colOf_newline _).symm, ?_⟩
          simp only [if_true, lineOf_append, lineOf_flat hbl]
          simp [lineOf]
        · have hn := hflat pre p k b full rest hT hf hk
          rw [if_neg hk, if_neg hk]
          simp [colOf_flat hn, lineOf_append, lineOf_flat hn, byteLen_ascii hasc']
      rw [hpos.1, hpos.2] at h
      -- the tokens of the rest
      obtain ⟨ts, hts, hrest⟩ : ∃ ts, pts = (if k = .newline ∨ k = .comment then [] else [(⟨⟨k, trim full⟩, colOf pre + b, lineOf pre⟩ : PTok)]) ++ ts ∧
          Laid (pre ++ full) ts rest ∧ ∀ pt ∈ ts, '\n' ∉ pt.tok.s ∧ ∃ c s, pt.tok.s = c :: s ∧ isWs c = false := by
        split at h
        · rename_i ht
          cases h
          exact ⟨[], by simp, .nil (.gap (.of_ws (takeWhile_ws_nil ht))), by simp⟩
        · split at h
          · rename_i ts e hl
            cases h
            exact ⟨ts, rfl, ih _ _ _ _ _ hT' hl⟩
          · cases h
      subst hts
      obtain ⟨hlaid, hprop⟩ := hrest
      by_cases hk : k = .newline
      · subst hk
        rw [if_pos (.inl rfl), List.nil_append, hap]
        exact ⟨hlaid.append_ws (firstMatch_newline hf), hprop⟩
      by_cases hk2 : k = .comment
      · subst hk2
        rw [if_pos (.inr rfl), List.nil_append, hap]
        refine ⟨?_, hprop⟩
        obtain ⟨bl, body, rfl, hbl, hbody, hr⟩ := firstMatch_comment hf
        rw [List.append_assoc]
        apply Laid.append_ws hbl
        rw [← List.append_assoc] at hlaid
        rcases hr with rfl | ⟨r, rfl⟩
        · generalize hx : ([] : Text) = x at hlaid
          cases hlaid with
          | nil _ => subst hx; rw [List.append_nil]; exact .nil (by simpa using End.comment .nil hbody)
          | cons _ hne _ _ _ => simp at hx; exact absurd hx.2.1 hne
        · generalize hx : '\n' :: r = x at hlaid
          cases hlaid with
          | nil he =>
            refine .nil ?_
            cases he with
            | gap hg => subst hx; exact .gap (.comment hbody hg)
            | @comment g b' hg hb' =>
              cases g with
              | nil => rw [List.nil_append] at hx; cases hx
              | cons c g =>
                rw [List.cons_append] at hx
                injection hx with h1 h2
                subst h1 h2
                have := End.comment (Gap.comment hbody hg) hb'
                simpa using this
          | @cons _ g _ pt pts' hg hne hl hc ht =>
            obtain ⟨-, c, s, hcs, hcw⟩ := hprop pt (by simp)
            cases g with
            | nil =>
              rw [List.nil_append, hcs, List.cons_append] at hx
              injection hx with h1 _
              subst h1
              exact absurd hcw (by decide)
            | cons d g =>
              rw [List.cons_append, List.cons_append] at hx
              injection hx with h1 _
              subst h1
              have := Laid.cons (pre := pre ++ bl) (g := '#' :: body ++ '\n' :: g) (pt := pt) (pts := pts') (Gap.comment hbody hg) hne
                (by rw [hl]; simp) (by rw [hc]; simp) (by simpa using ht)
              simpa using this
      · rw [if_neg (by tauto)]
        obtain ⟨bl, w, hfull, hb, hnl, hblw, hww, c, s, hcs, hcw⟩ := firstMatch_layout hf hk
        have hn := hflat pre p k b full rest hT hf hk
        refine ⟨?_, ?_⟩
        · have e : p = bl ++ trim full ++ (w ++ rest) := by
            rw [hap]
            conv_lhs => rw [hfull]
            simp
          rw [e]
          refine Laid.cons (pt := ⟨⟨k, trim full⟩, colOf pre + b, lineOf pre⟩) (.of_ws hblw) (by rw [hcs]; simp) ?_ ?_ (Laid.append_ws hww ?_)
          · simp [lineOf_append, lineOf_flat hnl]
          · simp [colOf_flat hnl, hb]
          · have : pre ++ bl ++ trim full ++ w = pre ++ full := by
              conv_rhs => rw [hfull]
              simp
            simp only
            rw [this]; exact hlaid
        · intro pt hpt
          rcases List.mem_cons.mp hpt with rfl | hpt
          · exact ⟨fun h => hn (by rw [hfull]; simp [h]), c, s, hcs, hcw⟩
          · exact hprop pt hpt

/-- The layout before and from a token on. -/
theorem Laid.split {pre rest : Text} {p₁ p₂ : List PTok} {pt : PTok} (h : Laid pre (p₁ ++ pt :: p₂) rest) :
    ∃ b a, rest = b ++ (pt.tok.s ++ a) ∧ Laid pre p₁ b ∧ Laid (pre ++ b) (pt :: p₂) (pt.tok.s ++ a) ∧ pt.tok.s ≠ [] ∧ pt.line = lineOf (pre ++ b) ∧ pt.offset = colOf (pre ++ b) := by
  induction p₁ generalizing pre rest with
  | nil =>
    rw [List.nil_append] at h
    cases h with
    | @cons _ g a _ _ hg hne hl hc ht =>
      refine ⟨g, a, by simp, .nil (.gap hg), ?_, hne, hl, hc⟩
      have := Laid.cons (pre := pre ++ g) (g := []) Gap.nil hne (by simpa using hl) (by simpa using hc) (by simpa using ht)
      simpa using this
  | cons q p₁ ih =>
    rw [List.cons_append] at h
    cases h with
    | @cons _ g a _ _ hg hne hl hc ht =>
      obtain ⟨b, a', rfl, h1, h2, h3, h4, h5⟩ := ih ht
      refine ⟨g ++ q.tok.s ++ b, a', by simp, .cons hg hne hl hc h1, ?_, h3, ?_, ?_⟩
      · simpa using h2
      · rw [h4]; simp
      · rw [h5]; simp

/-- C75 (part), layout: the text (after one leading `=`, which is dropped) consists of exactly the tokens, in order and at the lines and columns they are reported with, and of white
space and comments. -/
theorem C75_layout_partial (u : Uni) (t : Text) (h : Simple t) (pts : List PTok) (eo el : Nat) (hl : lex u t = .ok (pts, eo, el)) :
    (∃ eq rest, t = eq ++ rest ∧ (eq = [] ∨ eq = ['=']) ∧ Laid eq pts rest) ∧ ∀ pt ∈ pts, '\n' ∉ pt.tok.s := by
  unfold lex at hl
  split at hl
  · rename_i r
    have := lexLoop_laid h.flat h.1 _ ['='] r pts eo el rfl hl
    exact ⟨⟨['='], r, rfl, .inr rfl, this.1⟩, fun pt hpt => (this.2 pt hpt).1⟩
  · have := lexLoop_laid h.flat h.1 _ [] t pts eo el rfl hl
    exact ⟨⟨[], t, rfl, .inl rfl, this.1⟩, fun pt hpt => (this.2 pt hpt).1⟩

end Verif.Parser
