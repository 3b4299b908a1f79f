import Verif.Cell.Read4
/-
Options and option lists as they are written.
-/
namespace Verif.Cell
open Verif.Ast Verif.Parser

/-! ### the meaning of settings -/

theorem settled_nil (o : Opts) : settled [] o = o := by
  simp [settled, lastOr, given]

theorem settled_cons (s : Setting) (ss : List Setting) (o : Opts) :
    settled (s :: ss) o = settled ss (settled [s] o) := by
  simp only [settled, lastOr, given, List.foldl_cons, List.foldl_nil, List.any_cons, List.any_nil, Bool.or_false,
    Opts.mk.injEq, true_and]
  refine ⟨?_, ?_, ?_⟩
  · funext x; rw [← Bool.or_assoc, Bool.or_comm (_ : Bool) (List.any _ _)]
  · rw [← Bool.or_assoc, Bool.or_comm (_ : Bool) (List.any _ _)]
  · refine ⟨?_, trivial⟩
    funext x; rw [← Bool.or_assoc, Bool.or_comm (_ : Bool) (List.any _ _)]

/-- The update a setting stands for. -/
def Does (s : Setting) (f : Opts → Opts) : Prop := ∀ o, f o = settled [s] o

theorem Reads_update {m : P α} {g : α → Opts → Opts} {t : Text} {x : α} {s : Setting}
    (h : Reads m t Ends (fun y => y = x)) (hg : Does s (g x)) :
    Reads (do let v ← m; pure (g v)) t Ends (Does s) :=
  h.map (f := g) (good' := Does s) (fun _ h => by rw [h]; exact hg)

/-- A name of the option and what it is looked up as. -/
def NameOf (names : List String) (k : OKind) : Prop :=
  ∀ n ∈ names, n.toList ≠ [] ∧ (∀ c ∈ n.toList, c.toNat < 128 ∧ c.isAlphanum = true) ∧
    optionNames.lookup n.toList = some k

instance (names : List String) (k : OKind) : Decidable (NameOf names k) := by
  unfold NameOf; infer_instance

theorem Reads_name (E : Env) {npos : Nat} {names : List String} {k : OKind} {w n : Text} (hw : W w)
    (hn : OneOf names n) (hk : NameOf names k) :
    Reads (takeWhile npos E.alnum) (w ++ n) Ends (fun t => t.s = n) := by
  obtain ⟨m, hm, rfl⟩ := hn
  obtain ⟨h1, h2, _⟩ := hk m hm
  exact (Reads_takeWhile hw h1 (fun c hc => by rw [E.alnum_ascii c (h2 c hc).1]; exact (h2 c hc).2) E.alnum_ws).mono
    (fun _ hr => noMore_of (fun _ => alnum_brk E) hr) (fun _ h => h)

theorem EqSign.ends {q : Text} (h : EqSign q) (r : Text) : Ends (q ++ r) := by
  obtain ⟨a, b, ha, hb, rfl⟩ := h
  rw [List.append_assoc]
  exact Ends_W ha (Ends_cons (by simp [Brk]) _)

theorem Reads_fontSize {npos : Nat} {q v : Text} (hq : EqSign q) (hne : v ≠ [])
    (hv : ∀ c ∈ v, c.isDigit = true) {bound : Nat} (hb : Nat.ofDigitChars 10 v 0 < bound) {g : Nat → α} :
    Reads (do
      let _ ← take npos "=".toList
      let t ← takeWhile npos Char.isDigit
      match parseUInt bound t.s with
      | some n => pure (g n)
      | none => tokErr npos t) (q ++ v) Ends (fun a => a = g (Nat.ofDigitChars 10 v 0)) := by
  obtain ⟨a, b, ha, hbw, rfl⟩ := hq
  have h1 := Reads_take (npos := npos) ha (lit := "=".toList) (by simp) (Solid_cons rfl _)
  have h2 := (Reads_takeWhile (npos := npos) hbw hne hv (fun _ => digit_not_ws)).mono
    (fun _ hr => noMore_of (fun _ => digit_brk) hr) (fun _ h => h)
  have hp : parseUInt bound v = some (Nat.ofDigitChars 10 v 0) := by
    rw [parseUInt, if_pos ⟨hne, digits_all hv, hb⟩]
  have h3 := Reads.bind h2 (t := []) (K' := Ends) (good' := fun y => y = g (Nat.ofDigitChars 10 v 0))
    (f := fun t : CTok => match parseUInt bound t.s with
      | some n => pure (g n)
      | none => tokErr npos t)
    (fun t ht => by
      simp only [ht, hp]
      exact Reads.pure rfl) (fun _ h => h)
  have := Reads.bind h1 (fun _ _ => h3) (fun _ _ => trivial)
  have h4 : a ++ "=".toList ++ (b ++ v ++ []) = a ++ '=' :: b ++ v := by simp
  rw [h4] at this
  exact this

/-- How the text of an option splits into name and value. -/
theorem OptText.split {E : Env} {t : Text} {s : Setting} (h : OptText E t s) (npos : Nat) :
    ∃ n v names k, t = n ++ v ∧ OneOf names n ∧ NameOf names k ∧ k ≠ .fill ∧
      (v = [] ∨ ∀ r, Ends (v ++ r)) ∧ Reads (optionUpdate E npos k) v Ends (Does s) := by
  cases h with
  | @border n q v x hn hq hv =>
    refine ⟨_, _, _, .border, List.append_assoc .., hn, by decide, by decide, .inr fun r => by rw [List.append_assoc]; exact hq.ends _, ?_⟩
    refine Reads_update (Reads_enum E hq hv (table := borderSides) (x := x) ?_) ?_
    · cases x <;> decide
    · intro o; simp [settled, lastOr, given]
  | borderColor hn hq hv =>
    refine ⟨_, _, _, .borderColor, List.append_assoc .., hn, by decide, by decide, .inr fun r => by rw [List.append_assoc]; exact hq.ends _, ?_⟩
    exact Reads_update (Reads_rgb E hq hv) (fun o => by simp [settled, lastOr, given])
  | @borderStyle n q v x hn hq hv =>
    refine ⟨_, _, _, .borderStyle, List.append_assoc .., hn, by decide, by decide, .inr fun r => by rw [List.append_assoc]; exact hq.ends _, ?_⟩
    refine Reads_update (Reads_enum E hq hv (table := borderStyles) (x := x) ?_) ?_
    · cases x <;> decide
    · intro o; simp [settled, lastOr, given]
  | color hn hq hv =>
    refine ⟨_, _, _, .color, List.append_assoc .., hn, by decide, by decide, .inr fun r => by rw [List.append_assoc]; exact hq.ends _, ?_⟩
    exact Reads_update (Reads_rgb E hq hv) (fun o => by simp [settled, lastOr, given])
  | validation hn hq hv =>
    refine ⟨_, _, _, .validate, List.append_assoc .., hn, by decide, by decide, .inr fun r => by rw [List.append_assoc]; exact hq.ends _, ?_⟩
    exact Reads_update (Reads_validation E hq hv) (fun o => by simp [settled, lastOr, given])
  | fontColor hn hq hv =>
    refine ⟨_, _, _, .fontColor, List.append_assoc .., hn, by decide, by decide, .inr fun r => by rw [List.append_assoc]; exact hq.ends _, ?_⟩
    exact Reads_update (Reads_rgb E hq hv) (fun o => by simp [settled, lastOr, given])
  | fontFamily hn hq hv =>
    refine ⟨_, _, _, .fontFamily, List.append_assoc .., hn, by decide, by decide, .inr fun r => by rw [List.append_assoc]; exact hq.ends _, ?_⟩
    exact Reads_update (Reads_eqString E hq hv) (fun o => by simp [settled, lastOr, given])
  | fontSize hn hq hne hv hb =>
    refine ⟨_, _, _, .fontSize, List.append_assoc .., hn, by decide, by decide, .inr fun r => by rw [List.append_assoc]; exact hq.ends _, ?_⟩
    have := Reads_fontSize (npos := npos) hq hne hv hb (g := fun n (o : Opts) => { o with fontSize := some (UInt8.ofNat n) })
    exact this.mono (fun _ h => h) (fun f hf o => by subst hf; simp [settled, lastOr, given])
  | @halign n q v x hn hq hv =>
    refine ⟨_, _, _, .halign, List.append_assoc .., hn, by decide, by decide, .inr fun r => by rw [List.append_assoc]; exact hq.ends _, ?_⟩
    refine Reads_update (Reads_enum E hq hv (table := hAligns) (x := x) ?_) ?_
    · cases x <;> decide
    · intro o; simp [settled, lastOr, given]
  | lock hn =>
    refine ⟨_, [], _, .lock, (List.append_nil _).symm, hn, by decide, by decide, .inl rfl, ?_⟩
    exact Reads.pure (fun o => by simp [settled, lastOr, given])
  | note hn hq hv =>
    refine ⟨_, _, _, .note, List.append_assoc .., hn, by decide, by decide, .inr fun r => by rw [List.append_assoc]; exact hq.ends _, ?_⟩
    exact Reads_update (Reads_eqString E hq hv) (fun o => by simp [settled, lastOr, given])
  | @numFmt n q v x hn hq hv =>
    refine ⟨_, _, _, .numFmt, List.append_assoc .., hn, by decide, by decide, .inr fun r => by rw [List.append_assoc]; exact hq.ends _, ?_⟩
    refine Reads_update (Reads_enum E hq hv (table := numFmts) (x := x) ?_) ?_
    · cases x <;> decide
    · intro o; simp [settled, lastOr, given]
  | @textFmt n q v x hn hq hv =>
    refine ⟨_, _, _, .text, List.append_assoc .., hn, by decide, by decide, .inr fun r => by rw [List.append_assoc]; exact hq.ends _, ?_⟩
    refine Reads_update (Reads_enum E hq hv (table := textFmts) (x := x) ?_) ?_
    · cases x <;> decide
    · intro o; simp [settled, lastOr, given]
  | @var n q v hn hq hne hv =>
    refine ⟨_, _, _, .var, List.append_assoc .., hn, by decide, by decide, .inr fun r => by rw [List.append_assoc]; exact hq.ends _, ?_⟩
    have := (Reads_right E (npos := npos) hq hne hv).map (f := fun t (o : Opts) => { o with var := some t.s })
      (good' := Does (.var v)) (fun t ht o => by simp [settled, lastOr, given, ht])
    exact this
  | @valign n q v x hn hq hv =>
    refine ⟨_, _, _, .valign, List.append_assoc .., hn, by decide, by decide, .inr fun r => by rw [List.append_assoc]; exact hq.ends _, ?_⟩
    refine Reads_update (Reads_enum E hq hv (table := vAligns) (x := x) ?_) ?_
    · cases x <;> decide
    · intro o; simp [settled, lastOr, given]
  | @wrap n q v x hn hq hv =>
    refine ⟨_, _, _, .wrap, List.append_assoc .., hn, by decide, by decide, .inr fun r => by rw [List.append_assoc]; exact hq.ends _, ?_⟩
    refine Reads_update (Reads_enum E hq hv (table := wraps) (x := x) ?_) ?_
    · cases x <;> decide
    · intro o; simp [settled, lastOr, given]

end Verif.Cell
