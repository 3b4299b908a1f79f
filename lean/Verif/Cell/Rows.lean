import Verif.Cell.Safe2
import Verif.Parser.Props
/-
What holds of every successfully parsed row, whatever its text.
-/
namespace Verif.Cell
open Verif.Ast Verif.Parser

theorem bind_inv {m : P α} {f : α → P β} {l l'' : Lx} {b : β} (h : (m >>= f) l = .ok b l'') :
    ∃ a l', m l = .ok a l' ∧ f a l' = .ok b l'' := by
  rw [bind_apply] at h
  cases hm : m l with
  | panic => rw [hm] at h; cases h
  | err o => rw [hm] at h; cases h
  | ok a l' => rw [hm] at h; exact ⟨a, l', rfl, h⟩

theorem failAt_ne {npos off : Nat} {a : α} {l : Lx} : failAt npos off ≠ .ok a l := by
  unfold failAt; split <;> simp

theorem pure_inv {a b : α} {l l' : Lx} (h : (pure a : P α) l = .ok b l') : a = b ∧ l = l' := by
  rw [pure_apply] at h; cases h; exact ⟨rfl, rfl⟩

theorem optionUpdate_settled {E : Env} {npos : Nat} {k : OKind} (hk : k ≠ .fill) {l l' : Lx} {f : Opts → Opts}
    (h : optionUpdate E npos k l = .ok f l') : ∃ s, f = settled [s] := by
  cases k with
  | fill => exact absurd rfl hk
  | lock => exact ⟨.lock, by rw [optionUpdate] at h; rw [← (pure_inv h).1]; rfl⟩
  | fontSize =>
    rw [optionUpdate] at h
    obtain ⟨_, l1, _, h⟩ := bind_inv h
    obtain ⟨t, l2, _, h⟩ := bind_inv h
    cases hp : parseUInt 256 t.s with
    | none => simp only [hp] at h; exact (failAt_ne h).elim
    | some n =>
      simp only [hp] at h
      exact ⟨.fontSize (UInt8.ofNat n), by rw [← (pure_inv h).1]; rfl⟩
  | border =>
    rw [optionUpdate] at h
    obtain ⟨a, l1, _, h⟩ := bind_inv h
    exact ⟨.border a, by
      rw [← (pure_inv h).1]; funext o
      simp only [settled, given, lastOr, List.any_cons, List.any_nil, Bool.or_false, List.foldl_cons, List.foldl_nil,
        Option.getD_none, Bool.false_or]⟩
  | text =>
    rw [optionUpdate] at h
    obtain ⟨a, l1, _, h⟩ := bind_inv h
    exact ⟨.textFmt a, by
      rw [← (pure_inv h).1]; funext o
      simp only [settled, given, lastOr, List.any_cons, List.any_nil, Bool.or_false, List.foldl_cons, List.foldl_nil,
        Option.getD_none, Bool.false_or]⟩
  | borderColor => rw [optionUpdate] at h; obtain ⟨a, l1, _, h⟩ := bind_inv h; exact ⟨.borderColor a, by rw [← (pure_inv h).1]; rfl⟩
  | borderStyle => rw [optionUpdate] at h; obtain ⟨a, l1, _, h⟩ := bind_inv h; exact ⟨.borderStyle a, by rw [← (pure_inv h).1]; rfl⟩
  | color => rw [optionUpdate] at h; obtain ⟨a, l1, _, h⟩ := bind_inv h; exact ⟨.color a, by rw [← (pure_inv h).1]; rfl⟩
  | validate => rw [optionUpdate] at h; obtain ⟨a, l1, _, h⟩ := bind_inv h; exact ⟨.validation a, by rw [← (pure_inv h).1]; rfl⟩
  | fontColor => rw [optionUpdate] at h; obtain ⟨a, l1, _, h⟩ := bind_inv h; exact ⟨.fontColor a, by rw [← (pure_inv h).1]; rfl⟩
  | fontFamily => rw [optionUpdate] at h; obtain ⟨a, l1, _, h⟩ := bind_inv h; exact ⟨.fontFamily a, by rw [← (pure_inv h).1]; rfl⟩
  | halign => rw [optionUpdate] at h; obtain ⟨a, l1, _, h⟩ := bind_inv h; exact ⟨.halign a, by rw [← (pure_inv h).1]; rfl⟩
  | note => rw [optionUpdate] at h; obtain ⟨a, l1, _, h⟩ := bind_inv h; exact ⟨.note a, by rw [← (pure_inv h).1]; rfl⟩
  | numFmt => rw [optionUpdate] at h; obtain ⟨a, l1, _, h⟩ := bind_inv h; exact ⟨.numFmt a, by rw [← (pure_inv h).1]; rfl⟩
  | var => rw [optionUpdate] at h; obtain ⟨a, l1, _, h⟩ := bind_inv h; exact ⟨.var a.s, by rw [← (pure_inv h).1]; rfl⟩
  | valign => rw [optionUpdate] at h; obtain ⟨a, l1, _, h⟩ := bind_inv h; exact ⟨.valign a, by rw [← (pure_inv h).1]; rfl⟩
  | wrap => rw [optionUpdate] at h; obtain ⟨a, l1, _, h⟩ := bind_inv h; exact ⟨.wrap a, by rw [← (pure_inv h).1]; rfl⟩

/-- An option in a cell's list changes the cell by a setting and nothing else. -/
theorem option_cell {E : Env} {npos y : Nat} {t t' : Target} {l l' : Lx}
    (h : option E npos false y t l = .ok t' l') : t'.row = t.row ∧ ∃ s, t'.cell = settled [s] t.cell := by
  rw [option] at h
  obtain ⟨name, l1, _, h⟩ := bind_inv h
  cases hk : optionNames.lookup name.s with
  | none => simp only [hk] at h; exact (failAt_ne h).elim
  | some k =>
    by_cases hf : k = .fill
    · subst hf
      simp only [hk, fillOption, Bool.false_eq_true, if_false] at h
      exact (failAt_ne h).elim
    · have h' : (optionUpdate E npos k >>= fun f => pure (t.assign false f)) l1 = .ok t' l' := by
        cases k <;> first | exact absurd rfl hf | (simp only [hk] at h; exact h)
      obtain ⟨f, l2, h2, h3⟩ := bind_inv h'
      obtain ⟨s, rfl⟩ := optionUpdate_settled hf h2
      rw [← (pure_inv h3).1]
      exact ⟨rfl, s, rfl⟩

/-- A cell's option list changes the cell by settings and nothing else. -/
theorem optionsLoop_cell {E : Env} {npos y : Nat} (n : Nat) {t t' : Target} {l l' : Lx}
    (h : optionsLoop E npos false y n t l = .ok t' l') : t'.row = t.row ∧ ∃ ss, t'.cell = settled ss t.cell := by
  induction n generalizing t l with
  | zero => cases h
  | succ n ih =>
    rw [optionsLoop] at h
    obtain ⟨t1, l1, h1, h⟩ := bind_inv h
    obtain ⟨hr, s, hs⟩ := option_cell h1
    obtain ⟨m, l2, h2, h⟩ := bind_inv h
    have cont : ∀ {l}, optionsLoop E npos false y n t1 l = .ok t' l' → t'.row = t.row ∧ ∃ ss, t'.cell = settled ss t.cell := by
      intro l h3
      obtain ⟨hr', ss, hs'⟩ := ih h3
      exact ⟨hr'.trans hr, s :: ss, by rw [hs', hs, ← settled_append]; rfl⟩
    cases m with
    | some _ => exact cont h
    | none =>
      obtain ⟨m, l3, h3, h⟩ := bind_inv h
      cases m with
      | some _ => rw [← (pure_inv h).1]; exact ⟨hr, [s], hs⟩
      | none => exact cont h

/-- Outside the first column the row stays as it is, and the cell's options are the row's without the
variable name, changed by settings. -/
theorem listsLoop_later {E : Env} {npos x y : Nat} (hx : x ≠ 0) (n : Nat) {row row' : RowS} {parsed : Option Opts}
    {o : Opts} {v : Text} {l l' : Lx} (hp : ∀ p ∈ parsed, ∃ ss, p = settled ss (withoutVar row.opts))
    (h : listsLoop E npos x y n row parsed l = .ok (row', o, v) l') :
    row' = row ∧ ∃ ss, o = settled ss (withoutVar row.opts) := by
  induction n generalizing parsed l with
  | zero => cases h
  | succ n ih =>
    rw [listsLoop] at h
    obtain ⟨m, l1, _, h⟩ := bind_inv h
    cases m with
    | none =>
      simp only [R.ok.injEq, Prod.mk.injEq] at h
      obtain ⟨⟨rfl, rfl, -⟩, -⟩ := h
      refine ⟨rfl, ?_⟩
      cases parsed with
      | none => exact ⟨[], by rw [settled_nil]; rfl⟩
      | some p => exact hp p rfl
    | some m =>
      obtain ⟨isRow, tok⟩ := m
      cases isRow with
      | true => dsimp only at h; rw [if_pos ⟨rfl, hx⟩] at h; exact (failAt_ne h).elim
      | false =>
        dsimp only at h
        rw [if_neg (by simp)] at h
        by_cases hs : parsed.isSome = true
        · rw [if_pos ⟨rfl, hs⟩] at h; exact (failAt_ne h).elim
        · rw [if_neg (by simp [hs])] at h
          obtain ⟨t, l2, h2, h⟩ := bind_inv h
          obtain ⟨hr, ss, hc⟩ := optionsLoop_cell _ h2
          rw [if_neg (by simp), hr] at h
          refine ih (fun p hp => ?_) h
          cases hp
          exact ⟨ss, hc⟩

/-- The value of a parsed cell has no white space around it. -/
theorem listsLoop_value {E : Env} {npos x y : Nat} (n : Nat) {row row' : RowS} {parsed : Option Opts}
    {o : Opts} {v : Text} {l l' : Lx}
    (h : listsLoop E npos x y n row parsed l = .ok (row', o, v) l') : ∃ r, v = trim r := by
  induction n generalizing row parsed l with
  | zero => cases h
  | succ n ih =>
    rw [listsLoop] at h
    obtain ⟨m, l1, _, h⟩ := bind_inv h
    cases m with
    | none =>
      simp only [R.ok.injEq, Prod.mk.injEq] at h
      exact ⟨_, h.1.2.2.symm⟩
    | some m =>
      obtain ⟨isRow, tok⟩ := m
      simp only at h
      split at h
      · exact (failAt_ne h).elim
      · split at h
        · exact (failAt_ne h).elim
        · obtain ⟨t, l2, h2, h⟩ := bind_inv h
          exact ih h

/-! ### the value is a piece of the field -/

/-- The step leaves a rest of its input. -/
def Suf (m : P α) : Prop := ∀ l a l', m l = .ok a l' → l'.input <:+ l.input

theorem Suf.bind {m : P α} {f : α → P β} (hm : Suf m) (hf : ∀ a, Suf (f a)) : Suf (m >>= f) := by
  intro l b l'' h
  obtain ⟨a, l', h1, h2⟩ := bind_inv h
  exact (hf a _ _ _ h2).trans (hm _ _ _ h1)
theorem Suf.pure (a : α) : Suf (pure a) := fun l b l' h => by rw [(pure_inv h).2]; exact List.suffix_refl _
theorem Suf.fail {o : Lx → Nat} {npos : Nat} : Suf (fun l => failAt npos (o l) : P α) := fun _ _ _ h => (failAt_ne h).elim
theorem Suf_move (n : Nat) : Suf (moveInput n) := by
  intro l a l' h
  rw [moveInput] at h
  cases hd : dropBytes n l.input with
  | none => rw [hd] at h; cases h
  | some r =>
    rw [hd] at h; cases h
    obtain ⟨p, h1, -⟩ := dropBytes_some hd
    exact ⟨p, h1.symm⟩
theorem Suf_ws : Suf takeWhitespace := fun l a l' h => Suf_move _ l a l' h
theorem Suf_tok (s : Text) : Suf (matchToken s) := fun l a l' h => by cases h; exact List.suffix_refl _
theorem Suf.at {m : P α} (f : Lx → P α) (h : ∀ l, m l = f l l) (hf : ∀ l, Suf (f l)) : Suf m := by
  intro l a l' h1
  rw [h] at h1
  exact hf l l a l' h1
theorem Suf_unknown {npos : Nat} : Suf (unknown npos : P α) := Suf.fail
theorem Suf_tokErr {npos : Nat} {t : CTok} : Suf (tokErr npos t : P α) := Suf.fail
theorem Suf_panic : Suf (fun _ => .panic : P α) := fun _ _ _ h => by cases h
theorem Suf_maybeTake (sub : Text) : Suf (maybeTake sub) := by
  refine Suf_ws.bind fun _ => ?_
  intro l a l' h
  dsimp only at h
  split at h
  · cases h; exact List.drop_suffix _ _
  · cases h; exact List.suffix_refl _
theorem Suf_take (npos : Nat) (sub : Text) : Suf (take npos sub) := by
  refine Suf_ws.bind fun _ => ?_
  intro l a l' h
  dsimp only at h
  split at h
  · cases h; exact List.drop_suffix _ _
  · exact Suf_unknown l a l' h
theorem Suf_takeWhile (npos : Nat) (f : Char → Bool) : Suf (takeWhile npos f) := by
  refine Suf_ws.bind fun _ => ?_
  intro l a l' h
  dsimp only at h
  split at h
  · exact Suf_unknown l a l' h
  · exact (Suf_move _).bind (fun _ => Suf_tok _) l a l' h
theorem Suf_regex (m : Text → Match) : Suf (maybeTakeRegex m) := by
  intro l a l' h
  rw [maybeTakeRegex] at h
  split at h
  · cases h; exact List.suffix_refl _
  · exact (Suf_move _).bind (fun _ => (Suf_tok _).bind fun _ => (Suf_move _).bind fun _ => Suf.pure _) l a l' h
theorem Suf_squoted (npos : Nat) : Suf (takeSingleQuoted npos) := by
  refine Suf_ws.bind fun _ => ?_
  intro l a l' h
  dsimp only at h
  split at h
  · exact Suf_unknown l a l' h
  · split at h
    · split at h
      · exact (Suf_tok _).bind (fun _ => (Suf_move _).bind fun _ => Suf.pure _) l a l' h
      · exact Suf_unknown l a l' h
    · exact Suf_unknown l a l' h
theorem Suf_string (E : Env) (npos : Nat) : Suf (takeString E npos) := by
  refine Suf_ws.bind fun _ => ?_
  intro l a l' h
  dsimp only at h
  split at h
  · exact Suf_squoted npos l a l' h
  · exact Suf_takeWhile npos _ l a l' h
theorem Suf_color (E : Env) (npos : Nat) : Suf (takeColor E npos) := by
  refine Suf_ws.bind fun _ => ?_
  intro l a l' h
  dsimp only at h
  split at h
  · exact Suf_unknown l a l' h
  · exact (Suf_tok _).bind (fun _ => (Suf_move _).bind fun _ => Suf.pure _) l a l' h
theorem Suf_date (E : Env) (npos : Nat) : Suf (takeDate E npos) := by
  refine Suf_ws.bind fun _ => (Suf_regex _).bind fun m => ?_
  cases m with
  | none => exact Suf_unknown
  | some t => exact Suf.pure t
theorem Suf_right (E : Env) (npos : Nat) : Suf (takeRight E npos) := (Suf_take _ _).bind fun _ => Suf_takeWhile _ _
theorem Suf_enum (E : Env) (npos : Nat) (table : List (Text × α)) : Suf (takeEnum E npos table) := by
  refine (Suf_right E npos).bind fun t => ?_
  split
  · exact Suf.pure _
  · exact Suf_tokErr
theorem Suf_rgb (E : Env) (npos : Nat) : Suf (takeRgb E npos) := by
  refine (Suf_take _ _).bind fun _ => (Suf_color E npos).bind fun t => ?_
  split
  · exact Suf.pure _
  · exact Suf_tokErr
  · exact Suf_panic
theorem Suf_eqString (E : Env) (npos : Nat) : Suf (takeEqString E npos) :=
  (Suf_take _ _).bind fun _ => (Suf_string E npos).bind fun t => Suf.pure _
theorem Suf_oneString (E : Env) (npos : Nat) : Suf (oneString E npos) :=
  (Suf_take _ _).bind fun _ => (Suf_string E npos).bind fun _ => (Suf_take _ _).bind fun _ => Suf.pure _
theorem Suf_intoNumber (npos : Nat) (t : CTok) : Suf (intoNumber npos t) := by
  unfold intoNumber; split
  · exact Suf.pure _
  · exact Suf_tokErr
theorem Suf_intoDate (E : Env) (npos : Nat) (t : CTok) : Suf (intoDate E npos t) := by
  unfold intoDate; split
  · exact Suf.pure _
  · exact Suf_tokErr
theorem Suf_delayed (npos : Nat) {v : P α} (hv : Suf v) : Suf (delayed npos v) := by
  intro l a l' h
  rw [delayed] at h
  split at h
  · cases h
  · rename_i b l1 h1
    exact ((Suf_take _ _).bind (fun _ => Suf.pure _) _ _ _ h).trans (hv _ _ _ h1)
  · split at h <;> cases h
theorem Suf_oneNumber (npos : Nat) : Suf (oneNumber npos) :=
  (Suf_take _ _).bind fun _ => (Suf_takeWhile _ _).bind fun _ => Suf_delayed _ (Suf_intoNumber _ _)
theorem Suf_oneDate (E : Env) (npos : Nat) : Suf (oneDate E npos) :=
  (Suf_take _ _).bind fun _ => (Suf_date _ _).bind fun _ => Suf_delayed _ (Suf_intoDate _ _ _)
theorem Suf_twoNumbers (npos : Nat) : Suf (twoNumbers npos) :=
  (Suf_take _ _).bind fun _ => (Suf_takeWhile _ _).bind fun _ => (Suf_intoNumber _ _).bind fun _ =>
    (Suf_takeWhile _ _).bind fun _ => (Suf_intoNumber _ _).bind fun _ => (Suf_take _ _).bind fun _ => Suf.pure _
theorem Suf_twoDates (E : Env) (npos : Nat) : Suf (twoDates E npos) :=
  (Suf_take _ _).bind fun _ => (Suf_date _ _).bind fun _ => (Suf_intoDate _ _ _).bind fun _ =>
    (Suf_date _ _).bind fun _ => (Suf_intoDate _ _ _).bind fun _ => (Suf_take _ _).bind fun _ => Suf.pure _
theorem Suf_inRange (E : Env) (npos : Nat) : Suf (inRange E npos) := by
  refine (Suf_take _ _).bind fun _ => (Suf_takeWhile _ _).bind fun t => ?_
  split
  · exact (Suf_take _ _).bind fun _ => Suf.pure _
  · exact Suf_tokErr
theorem Suf_maybeSquoted (npos : Nat) : Suf (maybeSingleQuoted npos) := by
  intro l a l' h
  rw [maybeSingleQuoted] at h
  split at h
  · cases h; exact List.suffix_refl _
  · split at h
    · rename_i h1; cases h; exact Suf_squoted _ _ _ _ h1
    · cases h
    · exact Suf_ws.bind (fun _ => Suf.pure _) _ _ _ h
theorem Suf_listValue (E : Env) (npos : Nat) : Suf (listValue E npos) := by
  refine (Suf_regex _).bind fun m => ?_
  cases m with
  | some t => exact (Suf_intoDate _ _ _).bind fun _ => Suf.pure _
  | none =>
    refine (Suf_regex _).bind fun m => ?_
    cases m with
    | some t =>
      dsimp only
      split
      · split
        · exact Suf.pure _
        · exact Suf_tokErr
      · exact (Suf_intoNumber _ _).bind fun _ => Suf.pure _
    | none =>
      refine (Suf_maybeSquoted _).bind fun m => ?_
      cases m with
      | some t =>
        dsimp only
        split
        · exact Suf.pure _
        · exact Suf_tokErr
      | none =>
        refine (Suf_regex _).bind fun m => ?_
        cases m with
        | some t => exact Suf.pure _
        | none => exact Suf_unknown
theorem Suf_listLoop (E : Env) (npos n : Nat) : Suf (listLoop E npos n) := by
  induction n with
  | zero => exact Suf_panic
  | succ n ih =>
    rw [listLoop]
    refine (Suf_listValue E npos).bind fun v => ?_
    intro l a l' h
    dsimp only at h
    split at h
    · cases h; exact List.suffix_refl _
    · exact ih.bind (fun _ => Suf.pure _) _ _ _ h
theorem Suf_inList (E : Env) (npos : Nat) : Suf (inList E npos) :=
  (Suf_take _ _).bind fun _ => Suf.bind (fun l a l' h => Suf_listLoop E npos _ l a l' h) fun _ =>
    (Suf_take _ _).bind fun _ => Suf.pure _
theorem Suf_validator (E : Env) (npos : Nat) (k : VKind) : Suf (validator E npos k) := by
  cases k with
  | custom => exact (Suf_oneString _ _).bind fun _ => Suf.pure _
  | dateAfter => exact (Suf_oneDate _ _).bind fun _ => Suf.pure _
  | dateBefore => exact (Suf_oneDate _ _).bind fun _ => Suf.pure _
  | dateBetween => exact (Suf_twoDates _ _).bind fun ⟨_, _⟩ => Suf.pure _
  | dateEqualTo => exact (Suf_oneDate _ _).bind fun _ => Suf.pure _
  | inList => exact (Suf_inList _ _).bind fun _ => Suf.pure _
  | inRange => exact (Suf_inRange _ _).bind fun _ => Suf.pure _
  | dateIsValid => exact Suf.pure _
  | email => exact Suf.pure _
  | url => exact Suf.pure _
  | dateNotBetween => exact (Suf_twoDates _ _).bind fun ⟨_, _⟩ => Suf.pure _
  | dateOnOrAfter => exact (Suf_oneDate _ _).bind fun _ => Suf.pure _
  | dateOnOrBefore => exact (Suf_oneDate _ _).bind fun _ => Suf.pure _
  | numBetween => exact (Suf_twoNumbers _).bind fun ⟨_, _⟩ => Suf.pure _
  | numEq => exact (Suf_oneNumber _).bind fun _ => Suf.pure _
  | numGt => exact (Suf_oneNumber _).bind fun _ => Suf.pure _
  | numGte => exact (Suf_oneNumber _).bind fun _ => Suf.pure _
  | numLt => exact (Suf_oneNumber _).bind fun _ => Suf.pure _
  | numLte => exact (Suf_oneNumber _).bind fun _ => Suf.pure _
  | numNotBetween => exact (Suf_twoNumbers _).bind fun ⟨_, _⟩ => Suf.pure _
  | numNeq => exact (Suf_oneNumber _).bind fun _ => Suf.pure _
  | textContains => exact (Suf_oneString _ _).bind fun _ => Suf.pure _
  | textDoesNotContain => exact (Suf_oneString _ _).bind fun _ => Suf.pure _
  | textEq => exact (Suf_oneString _ _).bind fun _ => Suf.pure _
theorem Suf_validation (E : Env) (npos : Nat) : Suf (takeValidation E npos) := by
  refine (Suf_right E npos).bind fun t => ?_
  split
  · exact Suf_validator _ _ _
  · exact Suf_tokErr
theorem Suf_update (E : Env) (npos : Nat) (k : OKind) : Suf (optionUpdate E npos k) := by
  cases k with
  | border => exact (Suf_enum _ _ _).bind fun _ => Suf.pure _
  | borderColor => exact (Suf_rgb _ _).bind fun _ => Suf.pure _
  | borderStyle => exact (Suf_enum _ _ _).bind fun _ => Suf.pure _
  | color => exact (Suf_rgb _ _).bind fun _ => Suf.pure _
  | validate => exact (Suf_validation _ _).bind fun _ => Suf.pure _
  | fontColor => exact (Suf_rgb _ _).bind fun _ => Suf.pure _
  | fontFamily => exact (Suf_eqString _ _).bind fun _ => Suf.pure _
  | halign => exact (Suf_enum _ _ _).bind fun _ => Suf.pure _
  | lock => exact Suf.pure _
  | note => exact (Suf_eqString _ _).bind fun _ => Suf.pure _
  | numFmt => exact (Suf_enum _ _ _).bind fun _ => Suf.pure _
  | text => exact (Suf_enum _ _ _).bind fun _ => Suf.pure _
  | var => exact (Suf_right _ _).bind fun _ => Suf.pure _
  | valign => exact (Suf_enum _ _ _).bind fun _ => Suf.pure _
  | wrap => exact (Suf_enum _ _ _).bind fun _ => Suf.pure _
  | fill => exact Suf.pure _
  | fontSize =>
    refine (Suf_take _ _).bind fun _ => (Suf_takeWhile _ _).bind fun t => ?_
    split
    · exact Suf.pure _
    · exact Suf_tokErr
theorem Suf_fill (npos : Nat) (isRow : Bool) (y : Nat) (name : CTok) (t : Target) : Suf (fillOption npos isRow y name t) := by
  unfold fillOption
  split
  · refine (Suf_maybeTake _).bind fun m => ?_
    cases m with
    | none => exact Suf.pure _
    | some _ =>
      refine (Suf_takeWhile _ _).bind fun a => ?_
      split
      · exact Suf.pure _
      · exact Suf_tokErr
  · exact Suf_tokErr
theorem Suf_option (E : Env) (npos : Nat) (isRow : Bool) (y : Nat) (t : Target) : Suf (option E npos isRow y t) := by
  refine (Suf_takeWhile _ _).bind fun name => ?_
  split
  · exact Suf_tokErr
  · exact Suf_fill _ _ _ _ _
  · exact (Suf_update _ _ _).bind fun _ => Suf.pure _
theorem Suf_optionsLoop (E : Env) (npos : Nat) (isRow : Bool) (y n : Nat) (t : Target) : Suf (optionsLoop E npos isRow y n t) := by
  induction n generalizing t with
  | zero => exact Suf_panic
  | succ n ih =>
    rw [optionsLoop]
    refine (Suf_option _ _ _ _ _).bind fun t => (Suf_maybeTake _).bind fun m => ?_
    cases m with
    | some _ => exact ih _
    | none =>
      refine (Suf_maybeTake _).bind fun m => ?_
      cases m with
      | some _ => exact Suf.pure _
      | none => exact ih _
theorem Suf_maybeStart : Suf maybeStart := by
  refine (Suf_maybeTake _).bind fun m => ?_
  cases m with
  | some _ => exact Suf.pure _
  | none =>
    refine (Suf_maybeTake _).bind fun m => ?_
    cases m <;> exact Suf.pure _

theorem trim_infix (s : Text) : trim s <:+: s :=
  (Csvp.trimEnd_prefix (trimStart s)).isInfix.trans (List.dropWhile_suffix _).isInfix

/-- The value of a cell is a piece of the text of its field. -/
theorem listsLoop_infix {E : Env} {npos x y : Nat} (n : Nat) {row row' : RowS} {parsed : Option Opts}
    {o : Opts} {v : Text} {l l' : Lx}
    (h : listsLoop E npos x y n row parsed l = .ok (row', o, v) l') : v <:+: l.input := by
  induction n generalizing row parsed l with
  | zero => cases h
  | succ n ih =>
    rw [listsLoop] at h
    obtain ⟨m, l1, h1, h⟩ := bind_inv h
    have hs := Suf_maybeStart _ _ _ h1
    cases m with
    | none =>
      simp only [R.ok.injEq, Prod.mk.injEq] at h
      rw [← h.1.2.2]
      exact (trim_infix _).trans hs.isInfix
    | some m =>
      obtain ⟨isRow, tok⟩ := m
      simp only at h
      split at h
      · exact (failAt_ne h).elim
      · split at h
        · exact (failAt_ne h).elim
        · obtain ⟨t, l2, h2, h⟩ := bind_inv h
          exact (ih h).trans ((Suf_optionsLoop _ _ _ _ _ _ _ _ _ h2).trans hs).isInfix

end Verif.Cell
