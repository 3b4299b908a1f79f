import Verif.Cell.Read5
/-
Option lists as they are written.
-/
namespace Verif.Cell
open Verif.Ast Verif.Parser

/-- What an entry does to the row or the cell. -/
def applyEntry (isRow : Bool) (y : Nat) (t : Target) : Entry → Target
  | .inl s => t.assign isRow (settled [s])
  | .inr n => { t with row := { t.row with fill := some ⟨n, y⟩ } }

theorem assign_congr {t : Target} {isRow : Bool} {f : Opts → Opts} {s : Setting} (h : Does s f) :
    t.assign isRow f = t.assign isRow (settled [s]) := by
  cases isRow <;> simp [Target.assign, h _]

theorem Reads_setting (E : Env) {npos : Nat} {isRow : Bool} {y : Nat} {t : Target} {w i : Text} {s : Setting} (hw : W w)
    (h : OptText E i s) : Reads (option E npos isRow y t) (w ++ i) Ends (fun t' => t' = t.assign isRow (settled [s])) := by
  obtain ⟨n, v, names, k, rfl, hn, hk, hkf, hv, hr⟩ := h.split npos
  have h1 := Reads_name E (npos := npos) hw hn hk
  have h2 := hr.map (f := fun f => t.assign isRow f) (good' := fun t' => t' = t.assign isRow (settled [s]))
    (fun f hf => assign_congr hf)
  obtain ⟨m, hm, rfl⟩ := hn
  have hlk := (hk m hm).2.2
  have h3 := Reads.bind h1 (t := v) (K' := Ends) (good' := fun t' => t' = t.assign isRow (settled [s]))
    (f := fun name : CTok => match optionNames.lookup name.s with
      | none => tokErr npos name
      | some .fill => fillOption npos isRow y name t
      | some k => do
        let f ← optionUpdate E npos k
        pure (t.assign isRow f))
    (fun tok ht => by
      simp only [ht, hlk]
      revert h2
      cases k <;> first | exact absurd rfl hkf | exact fun h => h)
    (fun r hR => by
      rcases hv with rfl | hv
      · exact hR
      · exact hv r)
  rw [List.append_assoc] at h3
  exact h3

/-- After an entry: optional white space, then nothing or something other than white space and `=`; without the
white space, a break. -/
def After (rest : Text) : Prop :=
  ∃ w r, rest = w ++ r ∧ W w ∧ Solid r ∧ r.head? ≠ some '=' ∧ (w ≠ [] ∨ Ends r)

theorem After.mk {rest : Text} (h : ∃ w c r, rest = w ++ c :: r ∧ W w ∧ isWs c = false ∧ c ≠ '=' ∧ (w ≠ [] ∨ Brk c)) : After rest := by
  obtain ⟨w, c, r, rfl, hw, h1, h2, h3⟩ := h
  exact ⟨w, c :: r, rfl, hw, Solid_cons h1 _, by simpa using h2, h3.imp_right (Ends_cons · _)⟩

theorem After.ends {rest : Text} (h : After rest) : Ends rest := by
  obtain ⟨w, r, rfl, hw, _, _, h⟩ := h
  cases w with
  | nil => exact by simpa using h
  | cons x w => exact Ends_cons (.inl (hw x (by simp))) _

theorem option_entry (E : Env) {npos : Nat} {isRow : Bool} {y : Nat} {t : Target} {w i rest : Text} {e : Entry}
    (hw : W w) (h : EntryText E i e) (hf : e.isRight = true → isRow = true) (hr : After rest) (off : Nat) :
    ∃ u r off', W u ∧ rest = u ++ r ∧ off' = off + byteLen (w ++ i ++ u) ∧
      option E npos isRow y t ⟨w ++ i ++ rest, off⟩ = .ok (applyEntry isRow y t e) ⟨r, off'⟩ := by
  cases h with
  | setting h =>
    obtain ⟨_, rfl, e1⟩ := Reads_setting E (npos := npos) (isRow := isRow) (y := y) (t := t) hw h rest off hr.ends
    exact ⟨[], rest, _, W_nil, rfl, by rw [List.append_nil], e1⟩
  | fillRest hn =>
    have hrow : isRow = true := hf rfl
    subst hrow
    have hk : NameOf ["f", "fill"] .fill := by decide
    obtain ⟨k, hks, e1⟩ := Reads_name E (npos := npos) hw hn hk rest off hr.ends
    obtain ⟨u, r, rfl, hu, hc1, hc2, _⟩ := hr
    obtain ⟨m, hm, rfl⟩ := hn
    have hlk := (hk m hm).2.2
    obtain ⟨_, rfl, e2⟩ := Reads_maybeTake_none (lit := "=".toList) hu r (off + byteLen (w ++ m.toList))
      ⟨hc1, by cases r with | nil => rfl | cons c r => simp [List.isPrefixOf, Ne.symm (by simpa using hc2 : c ≠ '=')]⟩
    refine ⟨u, r, off + byteLen (w ++ m.toList) + byteLen u, hu, rfl, by rw [byteLen_append (w ++ m.toList), Nat.add_assoc], ?_⟩
    rw [option, bind_ok e1]
    simp only [hks, hlk, fillOption, if_true]
    rw [bind_ok e2]
    rfl
  | @fill n q v hn hq hne hv hb =>
    have hrow : isRow = true := hf rfl
    subst hrow
    have hk : NameOf ["f", "fill"] .fill := by decide
    obtain ⟨k, hks, e1⟩ := Reads_name E (npos := npos) hw hn hk (q ++ v ++ rest) off
      (by rw [List.append_assoc]; exact hq.ends _)
    obtain ⟨a, b, ha, hbw, rfl⟩ := hq
    obtain ⟨m, hm, rfl⟩ := hn
    have hlk := (hk m hm).2.2
    obtain ⟨o, ho, e2⟩ := Reads_maybeTake (lit := "=".toList) ha (by simp) (Solid_cons rfl _) (b ++ v ++ rest)
      (off + byteLen (w ++ m.toList)) trivial
    obtain ⟨d, hd, e3⟩ := (Reads_takeWhile (npos := npos) hbw hne hv (fun _ => digit_not_ws)) rest
      (off + byteLen (w ++ m.toList) + byteLen (a ++ "=".toList)) (noMore_of (fun _ => digit_brk) hr.ends)
    obtain ⟨o, rfl⟩ := Option.isSome_iff_exists.mp ho
    have hp : parseUInt (2 ^ 64) v = some (Nat.ofDigitChars 10 v 0) := by
      rw [parseUInt, if_pos ⟨hne, digits_all hv, hb⟩]
    refine ⟨[], rest, off + byteLen (w ++ m.toList) + byteLen (a ++ "=".toList) + byteLen (b ++ v), W_nil, rfl, by simp [byteLen_append, byteLen_cons, byteLen_nil]; omega, ?_⟩
    have f1 : w ++ (m.toList ++ (a ++ '=' :: b) ++ v) ++ rest = w ++ m.toList ++ (a ++ '=' :: b ++ v ++ rest) := by simp
    have f2 : a ++ '=' :: b ++ v ++ rest = a ++ "=".toList ++ (b ++ v ++ rest) := by simp
    rw [f1, option, bind_ok e1, f2]
    simp only [hks, hlk, fillOption, if_true]
    rw [bind_ok e2]
    simp only
    rw [bind_ok e3]
    simp only [hd, hp]
    rfl

/-- White space removed from the front leaves the rest of the white space. -/
theorem ws_prefix {w u r r0 : Text} {c : Char} (hw : W w) (hu : W u) (hc : isWs c = false)
    (h : w ++ c :: r = u ++ r0) : ∃ w1, W w1 ∧ r0 = w1 ++ c :: r := by
  induction u generalizing w with
  | nil => exact ⟨w, hw, h.symm⟩
  | cons x u ih =>
    cases w with
    | nil =>
      simp only [List.nil_append, List.cons_append, List.cons.injEq] at h
      rw [h.1, hu x (by simp)] at hc; cases hc
    | cons z w =>
      simp only [List.cons_append, List.cons.injEq] at h
      exact ih (fun c hc => hw c (by simp [hc])) (fun c hc => hu c (by simp [hc])) h.2

/-- An entry starts with a letter. -/
theorem EntryText.head {E : Env} {i : Text} {e : Entry} (h : EntryText E i e) :
    ∃ c r, i = c :: r ∧ isWs c = false ∧ c ≠ '=' ∧ c ≠ '/' ∧ c ≠ ']' := by
  have key : ∀ (names : List String) (k : OKind) (n v : Text), OneOf names n → NameOf names k →
      ∃ c r, n ++ v = c :: r ∧ isWs c = false ∧ c ≠ '=' ∧ c ≠ '/' ∧ c ≠ ']' := by
    rintro names k n v ⟨m, hm, rfl⟩ hk
    obtain ⟨h1, h2, _⟩ := hk m hm
    cases hx : m.toList with
    | nil => exact absurd hx h1
    | cons c r =>
      have hc := h2 c (by rw [hx]; simp)
      refine ⟨c, r ++ v, rfl, E.alnum_ws c (by rw [E.alnum_ascii c hc.1]; exact hc.2), ?_, ?_, ?_⟩ <;>
        (rintro rfl; have := hc.2; revert this; decide)
  cases h with
  | setting h =>
    obtain ⟨n, v, names, k, rfl, hn, hk, _⟩ := h.split 0
    exact key names k n v hn hk
  | fillRest hn =>
    have := key _ .fill _ [] hn (by decide)
    simpa using this
  | fill hn hq hne hv hb =>
    rw [List.append_assoc]
    exact key _ .fill _ _ hn (by decide)

theorem Entries.head {E : Env} {i : Text} {es : List Entry} (h : Entries E i es) :
    ∃ c r, i = c :: r ∧ isWs c = false ∧ c ≠ '=' ∧ c ≠ '/' ∧ c ≠ ']' := by
  cases h with
  | one h => exact h.head
  | cons h _ _ =>
    obtain ⟨c, r, rfl, h'⟩ := h.head
    exact ⟨c, _, by simp; rfl, h'⟩

theorem Entries.length {E : Env} {i : Text} {es : List Entry} (h : Entries E i es) : es.length ≤ i.length := by
  induction h with
  | one h =>
    obtain ⟨c, r, rfl, _⟩ := h.head
    simp
  | cons h _ _ ih =>
    obtain ⟨c, r, rfl, _⟩ := h.head
    simp; omega

theorem optionsLoop_entries (E : Env) {npos : Nat} {isRow : Bool} {y : Nat} {w i b : Text} {es : List Entry}
    (hw : W w) (hb : W b) (h : Entries E i es) (hf : ∀ e ∈ es, e.isRight = true → isRow = true) (t : Target) (n : Nat)
    (hn : es.length ≤ n) (rest : Text) (off : Nat) :
    ∃ off', off' = off + byteLen (w ++ i ++ (b ++ [']', ']'])) ∧ optionsLoop E npos isRow y n t ⟨w ++ i ++ (b ++ ']' :: ']' :: rest), off⟩
      = .ok (es.foldl (applyEntry isRow y) t) ⟨rest, off'⟩ := by
  induction h generalizing w t n off with
  | @one i e h =>
    cases n with
    | zero => simp at hn
    | succ n =>
      have hA : After (b ++ ']' :: ']' :: rest) := .mk ⟨b, ']', _, rfl, hb, rfl, by decide, .inr (by simp [Brk])⟩
      obtain ⟨u, r, off', hu, hur, hoff, e1⟩ := option_entry E (npos := npos) (isRow := isRow) (y := y) (t := t) hw h
        (hf e (by simp)) hA off
      obtain ⟨w1, hw1, rfl⟩ := ws_prefix hb hu (c := ']') rfl hur
      have hbu : b = u ++ w1 := List.append_cancel_right (bs := ']' :: ']' :: rest) (by rw [hur]; simp)
      obtain ⟨_, rfl, e2⟩ := Reads_maybeTake_none (lit := "/".toList) hw1 (']' :: ']' :: rest) off'
        ⟨Solid_cons rfl _, by simp [List.isPrefixOf]⟩
      obtain ⟨o, ho, e3⟩ := Reads_maybeTake (lit := "]]".toList) W_nil (by simp) (Solid_cons rfl _) rest
        (off' + byteLen w1) trivial
      obtain ⟨o, rfl⟩ := Option.isSome_iff_exists.mp ho
      refine ⟨off' + byteLen w1 + byteLen ([] ++ "]]".toList), by rw [hoff, hbu]; simp [byteLen_append, byteLen_cons, byteLen_nil]; omega, ?_⟩
      rw [optionsLoop, bind_ok e1, bind_ok e2]
      simp only
      rw [show (']' :: ']' :: rest : Text) = [] ++ "]]".toList ++ rest from rfl, bind_ok e3]
      rfl
  | @cons i e sep r es h hsep hr ih =>
    cases n with
    | zero => simp at hn
    | succ n =>
      obtain ⟨c, r1, hcr, hc1, hc2, hc3, hc4⟩ := hr.head
      have hA : After (sep ++ (r ++ (b ++ ']' :: ']' :: rest))) := by
        rcases hsep with ⟨hs, hne⟩ | ⟨a, b', ha, hb', rfl⟩
        · rw [hcr]
          exact .mk ⟨sep, c, _, rfl, hs, hc1, hc2, .inl hne⟩
        · exact .mk ⟨a, '/', b' ++ (r ++ (b ++ ']' :: ']' :: rest)), by simp, ha, rfl, by decide, .inr (by simp [Brk])⟩
      obtain ⟨u, r0, off', hu, hur, hoff, e1⟩ := option_entry E (npos := npos) (isRow := isRow) (y := y) (t := t) hw h
        (hf e (by simp)) hA off
      have f : w ++ (i ++ sep ++ r) ++ (b ++ ']' :: ']' :: rest) = w ++ i ++ (sep ++ (r ++ (b ++ ']' :: ']' :: rest))) := by
        simp
      rcases hsep with ⟨hs, hne⟩ | ⟨a, b', ha, hb', rfl⟩
      · rw [hcr] at hur
        obtain ⟨w1, hw1, rfl⟩ := ws_prefix hs hu hc1 hur
        have hbu : sep = u ++ w1 := List.append_cancel_right (bs := (c :: r1) ++ (b ++ ']' :: ']' :: rest)) (by rw [hur]; simp)
        obtain ⟨_, rfl, e2⟩ := Reads_maybeTake_none (lit := "/".toList) hw1 (c :: (r1 ++ (b ++ ']' :: ']' :: rest))) off'
          ⟨Solid_cons hc1 _, by simp [List.isPrefixOf, Ne.symm hc3]⟩
        obtain ⟨_, rfl, e3⟩ := Reads_maybeTake_none (lit := "]]".toList) W_nil (c :: (r1 ++ (b ++ ']' :: ']' :: rest)))
          (off' + byteLen w1) ⟨Solid_cons hc1 _, by simp [List.isPrefixOf, Ne.symm hc4]⟩
        rw [List.nil_append] at e3
        obtain ⟨off2, hoff2, e4⟩ := ih W_nil (fun e he => hf e (by simp [he])) (applyEntry isRow y t e) n (by simpa using hn)
          (off' + byteLen w1 + byteLen [])
        refine ⟨off2, by rw [hoff2, hoff, hbu]; simp [byteLen_append, byteLen_cons, byteLen_nil]; omega, ?_⟩
        rw [f, optionsLoop, bind_ok e1]
        have e2' : maybeTake "/".toList ⟨w1 ++ c :: (r1.append (b ++ ']' :: ']' :: rest)), off'⟩ = _ := e2
        rw [bind_ok e2']
        simp only
        rw [bind_ok e3]
        simp only
        rw [List.nil_append, hcr] at e4
        exact e4
      · have hur' : a ++ '/' :: (b' ++ (r ++ (b ++ ']' :: ']' :: rest))) = u ++ r0 := by simpa using hur
        obtain ⟨w1, hw1, rfl⟩ := ws_prefix ha hu (c := '/') rfl hur'
        have hbu : a = u ++ w1 := List.append_cancel_right (bs := '/' :: (b' ++ (r ++ (b ++ ']' :: ']' :: rest)))) (by rw [hur']; simp)
        obtain ⟨o, ho, e2⟩ := Reads_maybeTake (lit := "/".toList) hw1 (by simp) (Solid_cons rfl _)
          (b' ++ (r ++ (b ++ ']' :: ']' :: rest))) off' trivial
        obtain ⟨o, rfl⟩ := Option.isSome_iff_exists.mp ho
        obtain ⟨off2, hoff2, e4⟩ := ih hb' (fun e he => hf e (by simp [he])) (applyEntry isRow y t e) n (by simpa using hn)
          (off' + byteLen (w1 ++ "/".toList))
        refine ⟨off2, by rw [hoff2, hoff, hbu]; simp [byteLen_append, byteLen_cons, byteLen_nil]; omega, ?_⟩
        rw [f, optionsLoop, bind_ok e1]
        have g : w1 ++ '/' :: (b' ++ (r ++ (b ++ ']' :: ']' :: rest))) = w1 ++ "/".toList ++ (b' ++ (r ++ (b ++ ']' :: ']' :: rest))) := by simp
        rw [g, bind_ok e2]
        simp only
        rw [← List.append_assoc b']
        exact e4

/-! ### the effect of a whole list -/

theorem fold_cell (y : Nat) (ss : List Setting) (t : Target) :
    (ss.map Sum.inl).foldl (applyEntry false y) t = { t with cell := settled ss t.cell } := by
  induction ss generalizing t with
  | nil => simp [settled_nil]
  | cons s ss ih =>
    rw [List.map_cons, List.foldl_cons, ih, settled_cons]
    rfl

theorem filled_cons (y : Nat) (e : Entry) (es : List Entry) (f : Option Fill) :
    filled y (e :: es) f = filled y es (filled y [e] f) := by
  unfold filled
  cases e with
  | inl s => simp
  | inr n =>
    simp only [List.filterMap_cons, Sum.getRight?, List.filterMap_nil, List.getLast?_singleton]
    cases h : List.filterMap Sum.getRight? es with
    | nil => simp
    | cons a l => rw [List.getLast?_cons_cons]; rfl

theorem fold_row (y : Nat) (es : List Entry) (t : Target) :
    es.foldl (applyEntry true y) t
      = { t with row := ⟨settled (settings es) t.row.opts, filled y es t.row.fill⟩ } := by
  induction es generalizing t with
  | nil => simp [settings, settled_nil, filled]
  | cons e es ih =>
    rw [List.foldl_cons, ih, filled_cons]
    cases e with
    | inl s =>
      have : settings (.inl s :: es) = s :: settings es := rfl
      rw [this, settled_cons]
      rfl
    | inr n => rfl

theorem cellList_loop (E : Env) {npos : Nat} {y : Nat} {a i b : Text} {ss : List Setting} (ha : W a) (hb : W b)
    (h : Entries E i (ss.map .inl)) (t : Target) (rest : Text) (off : Nat) :
    ∃ off', off' = off + byteLen (a ++ i ++ (b ++ [']', ']'])) ∧ optionsLoop E npos false y ((a ++ i ++ (b ++ ']' :: ']' :: rest)).length + 1) t
      ⟨a ++ i ++ (b ++ ']' :: ']' :: rest), off⟩ = .ok { t with cell := settled ss t.cell } ⟨rest, off'⟩ := by
  rw [← fold_cell y]
  apply optionsLoop_entries E ha hb h
  · intro e he
    obtain ⟨s, _, rfl⟩ := List.mem_map.mp he
    intro h; cases h
  · have := h.length
    simp only [List.length_append] at this ⊢
    omega

theorem rowList_loop (E : Env) {npos : Nat} {y : Nat} {a i b : Text} {es : List Entry} (ha : W a) (hb : W b)
    (h : Entries E i es) (t : Target) (rest : Text) (off : Nat) :
    ∃ off', off' = off + byteLen (a ++ i ++ (b ++ [']', ']'])) ∧ optionsLoop E npos true y ((a ++ i ++ (b ++ ']' :: ']' :: rest)).length + 1) t
      ⟨a ++ i ++ (b ++ ']' :: ']' :: rest), off⟩
      = .ok { t with row := ⟨settled (settings es) t.row.opts, filled y es t.row.fill⟩ } ⟨rest, off'⟩ := by
  rw [← fold_row y]
  apply optionsLoop_entries E ha hb h
  · intro _ _ _; rfl
  · have := h.length
    simp only [List.length_append] at this ⊢
    omega

end Verif.Cell
