import Verif.Cell.Safe
/-
Parsing an ASCII cell never panics: options and option lists.
-/
namespace Verif.Cell
open Verif.Ast Verif.Parser

variable {npos : Nat}

theorem Safe.zero {m : P α} {k : Nat} {good good' : α → Prop} (h : Safe npos k m good) (hg : ∀ a, good a → good' a) :
    Safe npos 0 m good' := h.mono (Nat.zero_le _) hg

/-- Sequencing where consumption does not matter. -/
theorem Safe.seq {m : P α} {f : α → P β} {k : Nat} {good : α → Prop} {good' : β → Prop}
    (hm : Safe npos k m good) (hf : ∀ a, good a → Safe npos 0 (f a) good') : Safe npos 0 (m >>= f) good' :=
  (Safe.bind0 hm hf).mono (Nat.zero_le _) (fun _ h => h)

theorem Safe_right (E : Env) : Safe npos 0 (takeRight E npos) (TokIn npos) :=
  (Safe_take _).seq fun _ _ => (Safe_takeWhile _).zero fun _ h => h

theorem Safe_enum (E : Env) (table : List (Text × α)) : Safe npos 0 (takeEnum E npos table) T := by
  refine (Safe_right E).seq fun t ht => ?_
  split
  · exact Safe.pure trivial
  · exact Safe_tokErr ht

theorem Safe_rgb (E : Env) : Safe npos 0 (takeRgb E npos) T := by
  refine (Safe_take _).seq fun _ _ => (Safe_color E).seq fun t ht => ?_
  have := rgb_ascii ht.2
  split
  · exact Safe.pure trivial
  · exact Safe_tokErr ht.1
  · contradiction

theorem Safe_eqString (E : Env) : Safe npos 0 (takeEqString E npos) T :=
  (Safe_take _).seq fun _ _ => (Safe_string E).seq fun _ _ => Safe.pure trivial

theorem Safe_oneString (E : Env) : Safe npos 0 (oneString E npos) T :=
  (Safe_take _).seq fun _ _ => (Safe_string E).seq fun _ _ => (Safe_take _).seq fun _ _ => Safe.pure trivial

theorem Safe_intoNumber {t : CTok} (ht : TokIn npos t) : Safe npos 0 (intoNumber npos t) T := by
  unfold intoNumber
  split
  · exact Safe.pure trivial
  · exact Safe_tokErr ht

theorem Safe_intoDate (E : Env) {t : CTok} (ht : TokIn npos t) : Safe npos 0 (intoDate E npos t) T := by
  unfold intoDate
  split
  · exact Safe.pure trivial
  · exact Safe_tokErr ht

theorem Safe_delayed {m : P α} {good : α → Prop} (hm : Safe npos 0 m good) : Safe npos 0 (delayed npos m) good := by
  intro l hl
  have h1 := hm l hl
  unfold delayed
  cases hml : m l with
  | panic => rw [hml] at h1; exact h1
  | ok a l' =>
    rw [hml] at h1
    have h2 := (Safe_take (npos := npos) ")".toList).seq (f := fun _ => (Pure.pure a : P α)) (good' := good)
      (fun _ _ => Safe.pure h1.2.2) l' h1.1
    simp only
    revert h2
    generalize (take npos ")".toList >>= fun _ => (Pure.pure a : P α)) l' = x
    cases x with
    | ok a l'' => intro h2; exact ⟨h2.1, by have := h2.2.1; have := h1.2.1; omega, h2.2.2⟩
    | err o => intro h2; exact h2
    | panic => intro h2; exact h2
  | err o =>
    rw [hml] at h1
    have h2 := Safe_take (npos := npos) ")".toList l hl
    simp only
    revert h2
    generalize take npos ")".toList l = x
    cases x with
    | ok a l'' => intro _; exact h1
    | err o => intro h2; exact h2
    | panic => intro h2; exact h2

theorem Safe_oneNumber : Safe npos 0 (oneNumber npos) T :=
  (Safe_take _).seq fun _ _ => (Safe_takeWhile _).seq fun _ ht => Safe_delayed (Safe_intoNumber ht)

theorem Safe_twoNumbers : Safe npos 0 (twoNumbers npos) T :=
  (Safe_take _).seq fun _ _ => (Safe_takeWhile _).seq fun _ hs => (Safe_intoNumber hs).seq fun _ _ =>
    (Safe_takeWhile _).seq fun _ ht => (Safe_intoNumber ht).seq fun _ _ => (Safe_take _).seq fun _ _ => Safe.pure trivial

theorem Safe_takeDate (E : Env) : Safe npos 0 (takeDate E npos) (TokIn npos) := by
  refine Safe_ws.seq fun _ _ => SafeOpt.bind (by omega) (Safe_regex (Matcher_date E.uni)) ?_ ?_
  · intro t ht; exact Safe.pure ht
  · exact Safe_unknown

theorem Safe_oneDate (E : Env) : Safe npos 0 (oneDate E npos) T :=
  (Safe_take _).seq fun _ _ => (Safe_takeDate E).seq fun _ ht => Safe_delayed (Safe_intoDate E ht)

theorem Safe_twoDates (E : Env) : Safe npos 0 (twoDates E npos) T :=
  (Safe_take _).seq fun _ _ => (Safe_takeDate E).seq fun _ hs => (Safe_intoDate E hs).seq fun _ _ =>
    (Safe_takeDate E).seq fun _ ht => (Safe_intoDate E ht).seq fun _ _ => (Safe_take _).seq fun _ _ => Safe.pure trivial

theorem Safe_inRange (E : Env) : Safe npos 0 (inRange E npos) T := by
  refine (Safe_take _).seq fun _ _ => (Safe_takeWhile _).seq fun t ht => ?_
  split
  · exact (Safe_take _).seq fun _ _ => Safe.pure trivial
  · exact Safe_tokErr ht


theorem Safe_maybeSquoted : SafeOpt npos (maybeSingleQuoted npos) (TokIn npos) := by
  intro l hl
  have h1 := Safe_squoted (npos := npos) l hl
  unfold maybeSingleQuoted
  split
  · rename_i heq
    revert heq
    split
    · intro heq; cases heq
    · cases hq : takeSingleQuoted npos l with
      | panic => intro heq; cases heq
      | ok t l' => intro heq; cases heq; rw [hq] at h1; exact h1
      | err o =>
        simp only [bind_apply, takeWhitespace_eq, pure_apply]
        intro heq; cases heq
  · rename_i heq
    revert heq
    split
    · intro heq; cases heq; exact ⟨hl, Nat.le_refl _⟩
    · cases hq : takeSingleQuoted npos l with
      | panic => intro heq; cases heq
      | ok t l' => intro heq; cases heq
      | err o =>
        have h2 := Safe_ws (npos := npos) l hl
        simp only [bind_apply]
        cases hw : takeWhitespace l with
        | panic => rw [hw] at h2; exact h2.elim
        | err o => intro heq; cases heq
        | ok u l' => rw [hw] at h2; intro heq; cases heq; exact ⟨h2.1, h2.2.1⟩
  · rename_i heq
    revert heq
    split
    · intro heq; cases heq
    · cases hq : takeSingleQuoted npos l with
      | panic => intro heq; cases heq
      | ok t l' => intro heq; cases heq
      | err o =>
        simp only [bind_apply, takeWhitespace_eq, pure_apply]
        intro heq; cases heq
  · rename_i heq
    revert heq
    split
    · intro heq; cases heq
    · cases hq : takeSingleQuoted npos l with
      | panic => rw [hq] at h1; exact h1.elim
      | ok t l' => intro heq; cases heq
      | err o =>
        simp only [bind_apply, takeWhitespace_eq, pure_apply]
        intro heq; cases heq

theorem Safe_listValue (E : Env) : Safe npos 1 (listValue E npos) T := by
  refine SafeOpt.bind (by omega) (Safe_regex (Matcher_date E.uni)) (fun t ht => ?_) ?_
  · exact (Safe_intoDate E ht).seq fun _ _ => Safe.pure trivial
  refine SafeOpt.bind (by omega) (Safe_regex (Matcher_number E.uni)) (fun t ht => ?_) ?_
  · simp only
    split
    · split
      · exact Safe.pure trivial
      · exact Safe_tokErr ht
    · exact (Safe_intoNumber ht).seq fun _ _ => Safe.pure trivial
  refine SafeOpt.bind (by omega) Safe_maybeSquoted (fun t ht => ?_) ?_
  · simp only
    split
    · exact Safe.pure trivial
    · exact Safe_tokErr ht
  refine SafeOpt.bind (by omega) (Safe_regex (Matcher_plus (isW_ws E.uni))) (fun t ht => ?_) ?_
  · exact Safe.pure trivial
  · exact Safe_unknown

theorem Safe_listLoop (E : Env) (n : Nat) (l : Lx) (hl : Inv npos l) (hn : l.input.length < n) :
    SafeR npos 0 l.input.length T (listLoop E npos n l) := by
  induction n generalizing l with
  | zero => omega
  | succ n ih =>
    have h1 := Safe_listValue (npos := npos) E l hl
    rw [listLoop, bind_apply]
    cases hv : listValue E npos l with
    | panic => rw [hv] at h1; exact h1
    | err o => rw [hv] at h1; exact h1
    | ok v l' =>
      rw [hv] at h1
      simp only
      split
      · exact ⟨h1.1, by have := h1.2.1; omega, trivial⟩
      · have h2 := ih l' h1.1 (by have := h1.2.1; omega)
        rw [bind_apply]
        cases hr : listLoop E npos n l' with
        | panic => rw [hr] at h2; exact h2
        | err o => rw [hr] at h2; exact h2
        | ok vs l'' =>
          rw [hr] at h2
          exact ⟨h2.1, by have := h2.2.1; have := h1.2.1; omega, trivial⟩

theorem Safe_inList (E : Env) : Safe npos 0 (inList E npos) T := by
  refine (Safe_take _).seq fun _ _ => Safe.seq (k := 0) (good := T) (fun l hl => ?_) fun _ _ => (Safe_take _).seq fun _ _ => Safe.pure trivial
  exact Safe_listLoop E _ l hl (by omega)

theorem Safe_validation (E : Env) : Safe npos 0 (takeValidation E npos) T := by
  refine (Safe_right E).seq fun t ht => ?_
  split
  · rename_i k _
    cases k <;> first
      | exact Safe.pure trivial
      | exact (Safe_oneString E).seq fun _ _ => Safe.pure trivial
      | exact (Safe_oneDate E).seq fun _ _ => Safe.pure trivial
      | exact (Safe_twoDates E).seq fun _ _ => Safe.pure trivial
      | exact Safe_oneNumber.seq fun _ _ => Safe.pure trivial
      | exact Safe_twoNumbers.seq fun _ _ => Safe.pure trivial
      | exact (Safe_inList E).seq fun _ _ => Safe.pure trivial
      | exact (Safe_inRange E).seq fun _ _ => Safe.pure trivial
  · exact Safe_tokErr ht

theorem Safe_update (E : Env) (k : OKind) : Safe npos 0 (optionUpdate E npos k) T := by
  cases k <;> first
    | exact Safe.pure trivial
    | exact (Safe_enum E _).seq fun _ _ => Safe.pure trivial
    | exact (Safe_rgb E).seq fun _ _ => Safe.pure trivial
    | exact (Safe_validation E).seq fun _ _ => Safe.pure trivial
    | exact (Safe_eqString E).seq fun _ _ => Safe.pure trivial
    | exact (Safe_right E).seq fun _ _ => Safe.pure trivial
    | skip
  refine (Safe_take _).seq fun _ _ => (Safe_takeWhile _).seq fun t ht => ?_
  split
  · exact Safe.pure trivial
  · exact Safe_tokErr ht

theorem Safe_fill {isRow : Bool} {y : Nat} {name : CTok} {t : Target} (hn : TokIn npos name) :
    Safe npos 0 (fillOption npos isRow y name t) T := by
  unfold fillOption
  split
  · refine SafeOpt.bind (by omega) (Safe_maybeTake (by simp)) (fun _ _ => ?_) ?_
    · refine (Safe_takeWhile _).seq fun t ht => ?_
      split
      · exact Safe.pure trivial
      · exact Safe_tokErr ht
    · exact Safe.pure trivial
  · exact Safe_tokErr hn

theorem Safe_option (E : Env) (isRow : Bool) (y : Nat) (t : Target) : Safe npos 1 (option E npos isRow y t) T := by
  refine (Safe_takeWhile _).bind0 fun name hn => ?_
  split
  · exact Safe_tokErr hn
  · exact Safe_fill hn
  · exact (Safe_update E _).seq fun _ _ => Safe.pure trivial

/-- Safe from the states with fewer than `n` characters left. -/
def SafeB (npos n : Nat) (m : P α) : Prop :=
  ∀ l, Inv npos l → l.input.length < n → SafeR npos 0 l.input.length T (m l)

theorem Safe.below {m : P α} {k : Nat} {good : α → Prop} (h : Safe npos k m good) (n : Nat) : SafeB npos n m :=
  fun l hl _ => h.zero (fun _ _ => trivial) l hl

theorem SafeB.step {m : P α} {f : α → P β} {good : α → Prop} {n k : Nat} (hm : Safe npos k m good)
    (hf : ∀ a, good a → SafeB npos n (f a)) : SafeB npos (n + k) (m >>= f) := by
  intro l hl hn
  have h1 := hm l hl
  rw [bind_apply]
  cases hml : m l with
  | panic => rw [hml] at h1; exact h1
  | err o => rw [hml] at h1; exact h1
  | ok a l' =>
    rw [hml] at h1
    have h5 := hf a h1.2.2 l' h1.1 (by have := h1.2.1; omega)
    simp only
    cases hfl : f a l' with
    | panic => rw [hfl] at h5; exact h5
    | err o => rw [hfl] at h5; exact h5
    | ok b l'' => rw [hfl] at h5; exact ⟨h5.1, by have := h5.2.1; have := h1.2.1; omega, trivial⟩

theorem SafeB.opt {m : P (Option α)} {f : Option α → P β} {good : α → Prop} {n k : Nat} (hk : k ≤ 1) (hm : SafeOpt npos m good)
    (hs : ∀ a, good a → SafeB npos n (f (some a))) (hn : SafeB npos (n + k) (f none)) : SafeB npos (n + k) (m >>= f) := by
  intro l hl hlt
  have h1 := hm l hl
  rw [bind_apply]
  cases hml : m l with
  | panic => rw [hml] at h1; exact h1
  | err o => rw [hml] at h1; exact h1
  | ok o l' =>
    rw [hml] at h1
    cases o with
    | none =>
      have h5 := hn l' h1.1 (by have := h1.2; omega)
      simp only
      cases hfl : f none l' with
      | panic => rw [hfl] at h5; exact h5
      | err o => rw [hfl] at h5; exact h5
      | ok b l'' => rw [hfl] at h5; exact ⟨h5.1, by have := h5.2.1; have := h1.2; omega, trivial⟩
    | some a =>
      have h5 := hs a h1.2.2 l' h1.1 (by have := h1.2.1; omega)
      simp only
      cases hfl : f (some a) l' with
      | panic => rw [hfl] at h5; exact h5
      | err o => rw [hfl] at h5; exact h5
      | ok b l'' => rw [hfl] at h5; exact ⟨h5.1, by have := h5.2.1; have := h1.2.1; omega, trivial⟩

theorem Safe_optionsLoop (E : Env) (isRow : Bool) (y n : Nat) (t : Target) :
    SafeB npos n (optionsLoop E npos isRow y n t) := by
  induction n generalizing t with
  | zero => intro l _ h; omega
  | succ n ih =>
    refine SafeB.step (Safe_option E isRow y t) fun t' _ => ?_
    refine SafeB.opt (k := 0) (by omega) (Safe_maybeTake (by simp)) (fun _ _ => ih t') ?_
    refine SafeB.opt (k := 0) (by omega) (Safe_maybeTake (by simp)) (fun _ _ => ?_) (ih t')
    exact (Safe.pure (good := T) trivial).below n

theorem Safe_start : SafeOpt npos maybeStart (fun x : Bool × CTok => TokIn npos x.2) := by
  intro l hl
  have h1 := Safe_maybeTake (npos := npos) (sub := "[[".toList) (by simp) l hl
  rw [maybeStart, bind_apply]
  cases hm : maybeTake "[[".toList l with
  | panic => rw [hm] at h1; exact h1
  | err o => rw [hm] at h1; exact h1
  | ok o l' =>
    rw [hm] at h1
    cases o with
    | some t => exact h1
    | none =>
      have h2 := Safe_maybeTake (npos := npos) (sub := "![[".toList) (by simp) l' h1.1
      simp only
      rw [bind_apply]
      cases hm : maybeTake "![[".toList l' with
      | panic => rw [hm] at h2; exact h2
      | err o => rw [hm] at h2; exact h2
      | ok o l'' =>
        rw [hm] at h2
        cases o with
        | some t => exact ⟨h2.1, by have := h2.2.1; have := h1.2; omega, h2.2.2⟩
        | none => exact ⟨h2.1, by have := h2.2; have := h1.2; omega⟩

theorem Safe_listsLoop (E : Env) (x y n : Nat) (row : RowS) (parsed : Option Opts) :
    SafeB npos n (listsLoop E npos x y n row parsed) := by
  induction n generalizing row parsed with
  | zero => intro l _ h; omega
  | succ n ih =>
    refine SafeB.opt (k := 1) (by omega) Safe_start (fun a ha => ?_) ?_
    · obtain ⟨isRow, tok⟩ := a
      simp only
      split
      · exact (Safe_tokErr (k := 0) (good := T) ha).below n
      · split
        · exact (Safe_tokErr (k := 0) (good := T) ha).below n
        · refine SafeB.step (k := 0) (good := T) (fun l hl => ?_) (fun t _ => ih _ _)
          exact Safe_optionsLoop E isRow y _ _ l hl (by omega)
    · intro l hl _
      exact ⟨hl, Nat.le_refl _, trivial⟩

/-- Parsing the options of an ASCII cell whose characters all have a position does not panic, and errors
point into the cell. -/
theorem parseCell_safe (E : Env) (f : Csvp.Field) (row : RowS) (ha : Ascii f.value)
    (hp : f.value.length ≤ f.positions.length) :
    parseCell E f row ≠ .panic ∧ ∀ o, parseCell E f row = .err o → o < f.positions.length := by
  by_cases h0 : 0 < f.positions.length
  · have := Safe_listsLoop (npos := f.positions.length) E f.addr.x f.addr.y (f.value.length + 1) row none
      ⟨f.value, 0⟩ ⟨ha, by simpa using hp, h0⟩ (Nat.lt_succ_self _)
    unfold parseCell
    cases h : listsLoop E f.positions.length f.addr.x f.addr.y (f.value.length + 1) row none ⟨f.value, 0⟩ with
    | panic => rw [h] at this; exact this.elim
    | err o => rw [h] at this; exact ⟨by simp, fun o' ho => by cases ho; exact this⟩
    | ok a l => exact ⟨by simp, fun o' ho => by cases ho⟩
  · have hv : f.value = [] := List.length_eq_zero_iff.mp (by omega)
    have hs : Solid [] := fun c hc => by cases hc
    have hn : NoList [] := ⟨by decide, by decide⟩
    have := listsLoop_end E (npos := f.positions.length) (x := f.addr.x) (y := f.addr.y) (row := row) (parsed := none)
      W_nil hs hn 0 0
    unfold parseCell
    rw [hv]
    rw [List.append_nil] at this
    rw [show ([] : Text).length + 1 = 0 + 1 from rfl, this]
    exact ⟨by simp, fun o ho => by cases ho⟩

end Verif.Cell
