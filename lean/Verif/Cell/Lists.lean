import Verif.Cell.Read6
/-
The option lists of a cell and of a row.
-/
namespace Verif.Cell
open Verif.Ast Verif.Parser

theorem isPrefixOf_false {a b : Text} (h : ¬ a <+: b) : a.isPrefixOf b = false := by
  cases hb : a.isPrefixOf b with
  | false => rfl
  | true => exact absurd (List.isPrefixOf_iff_prefix.mp hb) h

theorem maybeStart_none {w r : Text} (hw : W w) (hs : Solid r) (hn : NoList r) (off : Nat) :
    maybeStart ⟨w ++ r, off⟩ = .ok none ⟨r, off + byteLen w⟩ := by
  obtain ⟨_, rfl, e1⟩ := Reads_maybeTake_none (lit := "[[".toList) hw r off ⟨hs, isPrefixOf_false hn.1⟩
  obtain ⟨_, rfl, e2⟩ := Reads_maybeTake_none (lit := "![[".toList) W_nil r (off + byteLen w)
    ⟨hs, isPrefixOf_false hn.2⟩
  rw [List.nil_append] at e2
  rw [maybeStart, bind_ok e1]
  simp only
  rw [bind_ok e2]
  simp [pure_apply, byteLen_nil]

theorem maybeStart_cell {w r : Text} (hw : W w) (off : Nat) :
    ∃ tok off', off' = off + byteLen (w ++ "[[".toList) ∧ maybeStart ⟨w ++ "[[".toList ++ r, off⟩ = .ok (some (false, tok)) ⟨r, off'⟩ := by
  obtain ⟨o, ho, e1⟩ := Reads_maybeTake (lit := "[[".toList) hw (by simp) (Solid_cons rfl _) r off trivial
  obtain ⟨o, rfl⟩ := Option.isSome_iff_exists.mp ho
  refine ⟨o, off + byteLen (w ++ "[[".toList), rfl, ?_⟩
  rw [maybeStart, bind_ok e1]
  rfl

theorem maybeStart_row {w r : Text} (hw : W w) (off : Nat) :
    ∃ tok off', off' = off + byteLen (w ++ "![[".toList) ∧ maybeStart ⟨w ++ "![[".toList ++ r, off⟩ = .ok (some (true, tok)) ⟨r, off'⟩ := by
  obtain ⟨_, rfl, e1⟩ := Reads_maybeTake_none (lit := "[[".toList) hw ("![[".toList ++ r) off
    ⟨Solid_cons rfl _, rfl⟩
  obtain ⟨o, ho, e2⟩ := Reads_maybeTake (lit := "![[".toList) W_nil (by simp) (Solid_cons rfl _) r (off + byteLen w) trivial
  obtain ⟨o, rfl⟩ := Option.isSome_iff_exists.mp ho
  refine ⟨o, off + byteLen w + byteLen ([] ++ "![[".toList), by rw [byteLen_append w, List.nil_append, Nat.add_assoc], ?_⟩
  rw [maybeStart, List.append_assoc, bind_ok e1]
  simp only
  rw [List.nil_append] at e2
  rw [bind_ok e2]
  rfl

theorem inherited_eq (o : Opts) : o.inherited = withoutVar o := rfl

theorem listsLoop_end (E : Env) {npos x y : Nat} {row : RowS} {parsed : Option Opts} {w r : Text} (hw : W w)
    (hs : Solid r) (hn : NoList r) (n off : Nat) :
    listsLoop E npos x y (n + 1) row parsed ⟨w ++ r, off⟩
      = .ok (row, parsed.getD (withoutVar row.opts), trim r) ⟨r, off + byteLen w⟩ := by
  rw [listsLoop, bind_ok (maybeStart_none hw hs hn off)]
  rfl

theorem listsLoop_cell (E : Env) {npos x y : Nat} {row : RowS} {w l r : Text} {ss : List Setting} (hw : W w)
    (hl : CellList E l ss) (n off : Nat) :
    ∃ off', off' = off + byteLen (w ++ l) ∧ listsLoop E npos x y (n + 1) row none ⟨w ++ l ++ r, off⟩
      = listsLoop E npos x y n row (some (settled ss (withoutVar row.opts))) ⟨r, off'⟩ := by
  obtain ⟨a, i, b, ha, hb, hi, rfl⟩ := hl
  obtain ⟨tok, o1, h1, e1⟩ := maybeStart_cell hw off (r := a ++ i ++ (b ++ ']' :: ']' :: r))
  obtain ⟨o2, h2, e2⟩ := cellList_loop E (npos := npos) (y := y) ha hb hi ⟨row, row.opts.inherited⟩ r o1
  refine ⟨o2, by rw [h2, h1]; simp [byteLen_append, byteLen_cons, byteLen_nil]; omega, ?_⟩
  have f : w ++ ("[[".toList ++ (a ++ i ++ b) ++ "]]".toList) ++ r = w ++ "[[".toList ++ (a ++ i ++ (b ++ ']' :: ']' :: r)) := by
    simp
  rw [listsLoop, f, bind_ok e1]
  simp only [Bool.false_eq_true, false_and, if_false, Option.isSome_none, and_false, bind_apply, e2]
  rfl

theorem listsLoop_row (E : Env) {npos y : Nat} {row : RowS} {parsed : Option Opts} {w l r : Text} {es : List Entry} (hw : W w)
    (hl : RowList E l es) (n off : Nat) :
    ∃ off', off' = off + byteLen (w ++ l) ∧ listsLoop E npos 0 y (n + 1) row parsed ⟨w ++ l ++ r, off⟩
      = listsLoop E npos 0 y n ⟨settled (settings es) row.opts, filled y es row.fill⟩ parsed ⟨r, off'⟩ := by
  obtain ⟨a, i, b, ha, hb, hi, rfl⟩ := hl
  obtain ⟨tok, o1, h1, e1⟩ := maybeStart_row hw off (r := a ++ i ++ (b ++ ']' :: ']' :: r))
  obtain ⟨o2, h2, e2⟩ := rowList_loop E (npos := npos) (y := y) ha hb hi ⟨row, row.opts.inherited⟩ r o1
  refine ⟨o2, by rw [h2, h1]; simp [byteLen_append, byteLen_cons, byteLen_nil]; omega, ?_⟩
  have f : w ++ ("![[".toList ++ (a ++ i ++ b) ++ "]]".toList) ++ r = w ++ "![[".toList ++ (a ++ i ++ (b ++ ']' :: ']' :: r)) := by
    simp
  rw [listsLoop, f, bind_ok e1]
  simp only [ne_eq, not_true_eq_false, and_false, if_false, if_true, Bool.true_eq_false, false_and, bind_apply, e2]

theorem settled_append (a b : List Setting) (o : Opts) : settled (a ++ b) o = settled b (settled a o) := by
  induction a generalizing o with
  | nil => rw [List.nil_append, settled_nil]
  | cons s a ih => rw [List.cons_append, settled_cons, ih, ← settled_cons]

theorem filled_append (y : Nat) (a b : List Entry) (f : Option Fill) : filled y (a ++ b) f = filled y b (filled y a f) := by
  induction a generalizing f with
  | nil => rfl
  | cons s a ih => rw [List.cons_append, filled_cons, ih, ← filled_cons]

theorem settings_append (a b : List Entry) : settings (a ++ b) = settings a ++ settings b := by
  simp [settings]

theorem listsLoop_cellText (E : Env) {npos x y : Nat} {row : RowS} {t : Text} {ss : List Setting} {v : Text}
    (h : CellText E t ss v) (n off : Nat) (hn : t.length ≤ n) :
    ∃ l, listsLoop E npos x y (n + 1) row none ⟨t, off⟩ = .ok (row, settled ss (withoutVar row.opts), v) l := by
  obtain ⟨w, r, hw, hs, hno, rfl, ⟨rfl, rfl⟩ | ⟨w0, l, hw0, hl, rfl⟩⟩ := h
  · exact ⟨_, by rw [listsLoop_end E hw hs hno, settled_nil]; rfl⟩
  · obtain ⟨o, -, e⟩ := listsLoop_cell E (npos := npos) (x := x) (y := y) (row := row) (r := w ++ r) hw0 hl n off
    cases n with
    | zero =>
      obtain ⟨a, i, b, _, _, _, rfl⟩ := hl
      simp at hn
    | succ n => exact ⟨_, by rw [e, listsLoop_end E hw hs hno]; rfl⟩

theorem listsLoop_firstText (E : Env) {npos y : Nat} {row : RowS} {t : Text} {es : List Entry} {ss : List Setting} {v : Text}
    (h : FirstText E t es ss v) (n off : Nat) (hn : t.length ≤ n) :
    ∃ l, listsLoop E npos 0 y (n + 1) row none ⟨t, off⟩ =
      .ok (⟨settled (settings es) row.opts, filled y es row.fill⟩,
        settled ss (withoutVar (settled (settings es) row.opts)), v) l := by
  induction h generalizing row n off with
  | cell h =>
    have : settings [] = [] := rfl
    rw [this, settled_nil]
    exact listsLoop_cellText E h n off hn
  | @row w l es t es' ss v hw hl h ih =>
    obtain ⟨o, -, e⟩ := listsLoop_row E (npos := npos) (y := y) (row := row) (parsed := none) (r := t) hw hl n off
    cases n with
    | zero =>
      obtain ⟨a, i, b, _, _, _, rfl⟩ := hl
      simp at hn
    | succ n =>
      obtain ⟨l', e'⟩ := ih (row := ⟨settled (settings es) row.opts, filled y es row.fill⟩) n o (by
        obtain ⟨a, i, b, _, _, _, rfl⟩ := hl
        simp at hn; omega)
      refine ⟨l', ?_⟩
      rw [e, e', settings_append, settled_append, filled_append]

end Verif.Cell
