import Verif.Object.Model
import Mathlib.Data.List.Forall2
/-
The format of object files obeys the laws: what is written is read back.
-/
namespace Verif.Object
open Verif.Ast Verif.Loader Verif.Sheet Verif.Cache
open Verif.Cell hiding Target

/-! ## Trees -/

/-- What can be written in one way can be written in the other. -/
def Sub {α : Type} (c c' : Codec α) : Prop := ∀ a b, c.enc a b → c'.enc a b

/-- Both read the same from at most `k` bytes. -/
def Agree (k : Nat) {α : Type} (c c' : Codec α) : Prop := ∀ p, p.length ≤ k → c.dec p = c'.dec p

theorem Sub.refl {α : Type} (c : Codec α) : Sub c c := fun _ _ h => h
theorem Agree.refl (k : Nat) {α : Type} (c : Codec α) : Agree k c c := fun _ _ => rfl

theorem Sub.pair {α β : Type} {c c' : Codec α} {d d' : Codec β} (h1 : Sub c c') (h2 : Sub d d') : Sub (pair c d) (pair c' d') := by
  rintro a b ⟨b₁, b₂, e1, e2, e3⟩
  exact ⟨b₁, b₂, h1 _ _ e1, h2 _ _ e2, e3⟩

theorem Sub.ctor {α β : Type} (f : α → β) {c c' : Codec α} (h : Sub c c') : Sub (ctor f c) (ctor f c') := by
  rintro a b ⟨x, e1, e2⟩
  exact ⟨x, e1, h _ _ e2⟩

theorem Sub.list {α : Type} {c c' : Codec α} (h : Sub c c') : Sub (list c) (list c') := by
  rintro l b ⟨b₁, b₂, e1, e2, e3⟩
  refine ⟨b₁, b₂, e1, ?_, e3⟩
  clear e1 e3
  induction e2 with
  | nil => exact .nil
  | cons e _ ih => exact .cons (h _ _ e) ih

theorem Sub.enum {α : Type} {l l' : List (Codec α)} (h : List.Forall₂ Sub l l') : Sub (enum l) (enum l') := by
  rintro a b ⟨i, c, b₁, b₂, e1, e2, e3, e4⟩
  have hi : i < l.length := (List.getElem?_eq_some_iff.mp e1).1
  have hi' : i < l'.length := by rw [← h.length_eq]; exact hi
  refine ⟨i, l'[i], b₁, b₂, List.getElem?_eq_getElem hi', e2, ?_, e4⟩
  have := List.Forall₂.get h hi hi'
  simp only [List.get_eq_getElem] at this
  rw [(List.getElem?_eq_some_iff.mp e1).2] at this
  exact this _ _ e3

theorem Agree.mono {k k' : Nat} {α : Type} {c c' : Codec α} (h : Agree k c c') (hk : k' ≤ k) : Agree k' c c' := fun p hp => h p (Nat.le_trans hp hk)

theorem Lawful.shorter {α : Type} {c : Codec α} (hc : Lawful c) {p r : Bytes} {a : α} (h : c.dec p = some (a, r)) : r.length ≤ p.length := by
  obtain ⟨q, rfl⟩ := hc.front h
  simp

theorem Agree.pair {k : Nat} {α β : Type} {c c' : Codec α} {d d' : Codec β} (hc : Lawful c) (h1 : Agree k c c') (h2 : Agree k d d') :
    Agree k (pair c d) (pair c' d') := by
  intro p hp
  simp only [Object.pair]
  rw [← h1 p hp]
  cases h : c.dec p with
  | none => rfl
  | some x =>
    obtain ⟨a, r⟩ := x
    simp only
    rw [h2 r (Nat.le_trans (hc.shorter h) hp)]

theorem Agree.ctor {k : Nat} {α β : Type} (f : α → β) {c c' : Codec α} (h : Agree k c c') : Agree k (ctor f c) (ctor f c') := by
  intro p hp
  simp only [Object.ctor, h p hp]

theorem Agree.list {k : Nat} {α : Type} {c c' : Codec α} (hc : Lawful c) (h : Agree k c c') : Agree k (list c) (list c') := by
  have key : ∀ n p, p.length ≤ k → decN c n p = decN c' n p := by
    intro n
    induction n with
    | zero => intro p _; rfl
    | succ n ih =>
      intro p hp
      rw [decN, decN, ← h p hp]
      cases hd : c.dec p with
      | none => rfl
      | some x =>
        obtain ⟨a, r⟩ := x
        simp only
        rw [ih r (Nat.le_trans (hc.shorter hd) hp)]
  intro p hp
  simp only [Object.list]
  cases hd : (le 8).dec p with
  | none => rfl
  | some x =>
    obtain ⟨n, r⟩ := x
    exact key n r (Nat.le_trans ((le_lawful 8).shorter hd) hp)

theorem Agree.enum_zero {α : Type} (l l' : List (Codec α)) : Agree 0 (enum l) (enum l') := by
  intro p hp
  have : p = [] := List.length_eq_zero_iff.mp (Nat.le_zero.mp hp)
  subst this
  rfl

theorem Agree.enum {k : Nat} {α : Type} {l l' : List (Codec α)} (h : List.Forall₂ (Agree k) l l') : Agree (k + 1) (enum l) (enum l') := by
  intro p hp
  simp only [Object.enum]
  cases hd : (le 4).dec p with
  | none => rfl
  | some x =>
    obtain ⟨i, r⟩ := x
    have hs := le_short hd
    simp only
    by_cases hi : i < l.length
    · have hi' : i < l'.length := by rw [← h.length_eq]; exact hi
      rw [List.getElem?_eq_getElem hi, List.getElem?_eq_getElem hi']
      have := List.Forall₂.get h hi hi'
      simp only [List.get_eq_getElem] at this
      exact this r (by omega)
    · rw [List.getElem?_eq_none (by omega), List.getElem?_eq_none (by rw [← h.length_eq]; omega)]

section
variable (X : Ext)

theorem bare_lawful {α : Type} (a : α) : Lawful (bare a) := ctor_lawful _ unit_lawful

theorem fill_lawful : Lawful (fill X) := ctor_lawful _ (pair_lawful (option_lawful (le_lawful 8)) X.row_lawful)

theorem sign_lawful : Lawful sign := enum_lawful (by simp only [List.forall_mem_cons]; exact ⟨bare_lawful _, bare_lawful _, by simp⟩)

theorem variableValue_lawful {rec : Codec Ast} (h : Lawful rec) : Lawful (variableValue X rec) := by
  refine enum_lawful ?_
  simp only [List.forall_mem_cons]
  exact ⟨ctor_lawful _ X.addr_lawful, ctor_lawful _ h, ctor_lawful _ (pair_lawful X.column_lawful (fill_lawful X)), ctor_lawful _ X.row_lawful,
    ctor_lawful _ (pair_lawful X.row_lawful (fill_lawful X)), by simp⟩

theorem nodeAlts_lawful {rec : Codec Ast} (h : Lawful rec) : ∀ c ∈ nodeAlts X rec, Lawful c := by
  simp only [nodeAlts, List.forall_mem_cons]
  exact ⟨ctor_lawful _ bool_lawful, ctor_lawful _ X.date_lawful, ctor_lawful _ (pair_lawful bool_lawful (pair_lawful (option_lawful sign_lawful) X.f64_lawful)),
    ctor_lawful _ (pair_lawful (list_lawful text_lawful) (pair_lawful h text_lawful)), ctor_lawful _ (pair_lawful (list_lawful h) text_lawful),
    ctor_lawful _ (pair_lawful h (pair_lawful text_lawful h)), ctor_lawful _ (pair_lawful bool_lawful (pair_lawful (option_lawful sign_lawful) i64_lawful)),
    ctor_lawful _ text_lawful, ctor_lawful _ text_lawful, ctor_lawful _ (pair_lawful text_lawful (variableValue_lawful X h)), by simp⟩

theorem astN_lawful (n : Nat) : Lawful (astN X n) := by
  induction n with
  | zero => exact ⟨(fun h => h.elim), (by intro p a r h; cases h), (by intro p a r h; cases h)⟩
  | succ n ih => exact enum_lawful (nodeAlts_lawful X ih)

theorem nodeAlts_sub {c c' : Codec Ast} (h : Sub c c') : List.Forall₂ Sub (nodeAlts X c) (nodeAlts X c') := by
  simp only [nodeAlts, List.forall₂_cons]
  refine ⟨.refl _, .refl _, .refl _, .ctor _ (.pair (.refl _) (.pair h (.refl _))), .ctor _ (.pair (.list h) (.refl _)),
    .ctor _ (.pair h (.pair (.refl _) h)), .refl _, .refl _, .refl _, .ctor _ (.pair (.refl _) (.enum ?_)), .nil⟩
  simp only [List.forall₂_cons]
  exact ⟨.refl _, .ctor _ h, .refl _, .refl _, .refl _, .nil⟩

theorem nodeAlts_agree {k : Nat} {c c' : Codec Ast} (hc : Lawful c) (h : Agree k c c') : List.Forall₂ (Agree k) (nodeAlts X c) (nodeAlts X c') := by
  simp only [nodeAlts, List.forall₂_cons]
  refine ⟨.refl _ _, .refl _ _, .refl _ _, .ctor _ (.pair (list_lawful text_lawful) (.refl _ _) (.pair hc h (.refl _ _))),
    .ctor _ (.pair (list_lawful hc) (.list hc h) (.refl _ _)), .ctor _ (.pair hc h (.pair text_lawful (.refl _ _) h)), .refl _ _, .refl _ _, .refl _ _,
    .ctor _ (.pair text_lawful (.refl _ _) (Agree.mono (.enum ?_) (Nat.le_succ k))), .nil⟩
  simp only [List.forall₂_cons]
  exact ⟨.refl _ _, .ctor _ h, .refl _ _, .refl _ _, .refl _ _, .nil⟩

theorem astN_sub_succ (n : Nat) : Sub (astN X n) (astN X (n + 1)) := by
  induction n with
  | zero => exact fun _ _ h => h.elim
  | succ n ih => exact .enum (nodeAlts_sub X ih)

theorem astN_sub {n m : Nat} (h : n ≤ m) : Sub (astN X n) (astN X m) := by
  induction h with
  | refl => exact .refl _
  | step _ ih => exact fun a b hb => astN_sub_succ X _ a b (ih a b hb)

theorem astN_agree (k : Nat) : ∀ n m, k < n → k < m → Agree k (astN X n) (astN X m) := by
  induction k with
  | zero =>
    intro n m hn hm
    cases n with
    | zero => omega
    | succ n =>
      cases m with
      | zero => omega
      | succ m => exact .enum_zero _ _
  | succ k ih =>
    intro n m hn hm
    cases n with
    | zero => omega
    | succ n =>
      cases m with
      | zero => omega
      | succ m => exact .enum (nodeAlts_agree X (astN_lawful X n) (ih n m (by omega) (by omega)))

theorem ast_lawful : Lawful (ast X) where
  read := by
    rintro a b ⟨n, h⟩ r
    simp only [ast]
    rw [astN_agree X (b ++ r).length ((b ++ r).length + 1) (max n ((b ++ r).length + 1)) (by omega) (by omega) _ (Nat.le_refl _)]
    exact (astN_lawful X _).read (astN_sub X (Nat.le_max_left _ _) _ _ h) r
  stable := by
    intro p a r h s
    simp only [ast] at h ⊢
    rw [astN_agree X p.length (p.length + 1) ((p ++ s).length + 1) (by omega) (by simp only [List.length_append]; omega) _ (Nat.le_refl _)] at h
    exact (astN_lawful X _).stable h s
  front := by
    intro p a r h
    exact (astN_lawful X (p.length + 1)).front h

/-! ## Modules -/

theorem scope_lawful : Lawful (scope X) :=
  ctor_lawful _ (pair_lawful (hashMap_lawful (ast_lawful X)) (pair_lawful (hashMap_lawful (ast_lawful X)) (list_lawful text_lawful)))

theorem rgb_lawful : Lawful rgb := ctor_lawful _ (pair_lawful u8_lawful (pair_lawful u8_lawful u8_lawful))

theorem borderSide_lawful : Lawful borderSide := enum_lawful (by simp [bare_lawful])
theorem borderStyle_lawful : Lawful borderStyle := enum_lawful (by simp [bare_lawful])
theorem hAlign_lawful : Lawful hAlign := enum_lawful (by simp [bare_lawful])
theorem vAlign_lawful : Lawful vAlign := enum_lawful (by simp [bare_lawful])
theorem numFmt_lawful : Lawful numFmt := enum_lawful (by simp [bare_lawful])
theorem textFmt_lawful : Lawful textFmt := enum_lawful (by simp [bare_lawful])
theorem wrap_lawful : Lawful wrap := enum_lawful (by simp [bare_lawful])

theorem validation_lawful : Lawful (validation X) := by
  have hd := X.date_lawful
  have hdd := pair_lawful hd hd
  have hii := pair_lawful i64_lawful i64_lawful
  refine enum_lawful ?_
  simp only [List.forall_mem_cons]
  exact ⟨ctor_lawful _ text_lawful, ctor_lawful _ hd, ctor_lawful _ hd, ctor_lawful _ hdd, ctor_lawful _ hd, bare_lawful _, ctor_lawful _ hdd, ctor_lawful _ hd,
    ctor_lawful _ hd, ctor_lawful _ hii, ctor_lawful _ i64_lawful, ctor_lawful _ i64_lawful, ctor_lawful _ i64_lawful, ctor_lawful _ i64_lawful, ctor_lawful _ i64_lawful,
    ctor_lawful _ hii, ctor_lawful _ i64_lawful, ctor_lawful _ text_lawful, ctor_lawful _ text_lawful, ctor_lawful _ text_lawful, bare_lawful _, bare_lawful _,
    ctor_lawful _ (list_lawful (ast_lawful X)), ctor_lawful _ X.a1_lawful, by simp⟩

theorem srcPos_lawful : Lawful srcPos := ctor_lawful _ (pair_lawful (le_lawful 8) (le_lawful 8))

theorem field_lawful : Lawful (field X) := ctor_lawful _ (pair_lawful X.addr_lawful (pair_lawful text_lawful (list_lawful srcPos_lawful)))

theorem opts₁_lawful : Lawful (opts₁ X) :=
  pair_lawful (option_lawful rgb_lawful) (pair_lawful borderStyle_lawful (pair_lawful (hashSet_lawful borderSide_lawful) (pair_lawful (option_lawful rgb_lawful)
    (option_lawful (validation_lawful X)))))

theorem opts₂_lawful : Lawful opts₂ :=
  pair_lawful (option_lawful rgb_lawful) (pair_lawful (option_lawful text_lawful) (pair_lawful (option_lawful u8_lawful) (pair_lawful hAlign_lawful
    (pair_lawful bool_lawful (pair_lawful (option_lawful text_lawful) (pair_lawful numFmt_lawful (pair_lawful (hashSet_lawful textFmt_lawful)
    (pair_lawful wrap_lawful (pair_lawful (option_lawful text_lawful) vAlign_lawful)))))))))

theorem cell_lawful : Lawful (cell X) :=
  ctor_lawful _ (pair_lawful (option_lawful (ast_lawful X)) (pair_lawful (field_lawful X) (pair_lawful text_lawful (pair_lawful (opts₁_lawful X) opts₂_lawful))))

theorem row_lawful : Lawful (row X) :=
  ctor_lawful _ (pair_lawful (list_lawful (cell_lawful X)) (pair_lawful (opts₁_lawful X) (pair_lawful (option_lawful (fill_lawful X)) opts₂_lawful)))

theorem sheet_lawful : Lawful (sheet X) := ctor_lawful _ (pair_lawful (list_lawful (row_lawful X)) bool_lawful)

theorem mpath_lawful : Lawful mpath := list_lawful text_lawful

theorem source_lawful : Lawful source := by
  have hc := pair_lawful text_lawful (pair_lawful (le_lawful 8) (pair_lawful (le_lawful 8) (pair_lawful (le_lawful 8) (pair_lawful (option_lawful text_lawful)
    (pair_lawful text_lawful text_lawful)))))
  refine ⟨?_, ?_, ?_⟩
  · rintro t b ⟨filename, h⟩ r
    simp only [source]
    rw [hc.read h r]
    rfl
  · intro p t r h s
    simp only [source, Option.map_eq_some_iff] at h ⊢
    obtain ⟨⟨x, r'⟩, h1, h2⟩ := h
    rw [Prod.mk.injEq] at h2
    obtain ⟨h2, rfl⟩ := h2
    exact ⟨(x, r' ++ s), hc.stable h1 s, by rw [Prod.mk.injEq]; exact ⟨h2, rfl⟩⟩
  · intro p t r h
    simp only [source, Option.map_eq_some_iff] at h
    obtain ⟨⟨x, r'⟩, h1, h2⟩ := h
    cases h2
    exact hc.front h1

theorem module_lawful : Lawful (module X) :=
  ctor_lawful _ (pair_lawful X.version_lawful (pair_lawful mpath_lawful (pair_lawful (scope_lawful X) (pair_lawful (sheet_lawful X)
    (pair_lawful (list_lawful mpath_lawful) (pair_lawful source_lawful (pair_lawful bool_lawful bool_lawful)))))))

end
end Verif.Object
