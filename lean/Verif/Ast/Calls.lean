import Mathlib.Data.List.Forall2
import Verif.Ast.Lemmas
namespace Verif.Ast

/-- The formula is a leaf that `call_function` leaves alone. -/
def isLeaf : Ast → Bool
  | .call _ _ | .infix _ _ _ | .var _ _ | .fn _ _ _ => false
  | _ => true

theorem callFns_ok (f : Text) (fd : Ast) (as bs : List Ast) :
    callFns f fd as = .ok bs ↔ List.Forall₂ (fun a b => callFn f fd a = .ok b) as bs := by
  induction as generalizing bs with
  | nil => cases bs <;> simp [callFns]
  | cons a as ih =>
    simp only [callFns]
    cases h1 : callFn f fd a with
    | error e =>
      simp only [List.forall₂_cons_left_iff, h1]; simp
    | ok a' =>
      cases h2 : callFns f fd as with
      | error e =>
        simp only [List.forall₂_cons_left_iff, ← ih, h2]; simp
      | ok as' =>
        simp only [List.forall₂_cons_left_iff, ← ih, h2, h1, Except.ok.injEq]
        constructor
        · rintro rfl; exact ⟨a', as', rfl, rfl, rfl⟩
        · rintro ⟨b, u, rfl, rfl, rfl⟩; rfl

theorem forall₂_imp_mem {α β : Type} {R S : α → β → Prop} {l : List α} {u : List β}
    (h : List.Forall₂ R l u) (hs : ∀ a ∈ l, ∀ b, R a b → S a b) : List.Forall₂ S l u := by
  induction h with
  | nil => exact .nil
  | cons h1 _ ih =>
    exact .cons (hs _ (by simp) _ h1) (ih fun a ha => hs a (by simp [ha]))

/-- Induction over a successful `call_function`. -/
theorem callFn_ind {f nm : Text} {ps : List Text} {body : Ast} {P : Ast → Ast → Prop}
    (hit : ∀ args, args.length = ps.length → P (.call f args) (replaceSeq (ps.zip args) body))
    (miss : ∀ n args args', n ≠ f → List.Forall₂ P args args' → P (.call n args) (.call n args'))
    (hinfix : ∀ l op r l' r', P l l' → P r r' → P (.infix l op r) (.infix l' op r'))
    (hvar : ∀ n a a', P a a' → P (.var n a) (.var n a'))
    (hfn : ∀ n qs b, P (.fn n qs b) (.fn n qs b))
    (leaf : ∀ a, isLeaf a → P a a)
    {a b : Ast} (h : callFn f (.fn nm ps body) a = .ok b) : P a b := by
  induction a using Ast.ind generalizing b with
  | hcall n args ih =>
    simp only [callFn] at h
    by_cases hn : n = f
    · subst hn
      rw [if_pos rfl] at h
      by_cases hl : args.length ≠ ps.length
      · rw [if_pos hl] at h; cases h
      · rw [if_neg hl] at h; cases h; exact hit args (by simpa using hl)
    · rw [if_neg hn] at h
      cases h2 : callFns f (.fn nm ps body) args with
      | error e => rw [h2] at h; cases h
      | ok bs =>
        rw [h2] at h; cases h
        exact miss n args bs hn (forall₂_imp_mem ((callFns_ok ..).mp h2) fun a ha b hb => ih a ha hb)
  | hinfix l op r h1 h2 =>
    simp only [callFn] at h
    cases hl : callFn f (.fn nm ps body) l with
    | error e => rw [hl] at h; cases h
    | ok l' =>
      cases hr : callFn f (.fn nm ps body) r with
      | error e => rw [hl] at h; simp only [hr] at h; cases h
      | ok r' => rw [hl] at h; simp only [hr] at h; cases h; exact hinfix _ _ _ _ _ (h1 hl) (h2 hr)
  | hvar n a ih =>
    simp only [callFn] at h
    cases hl : callFn f (.fn nm ps body) a with
    | error e => rw [hl] at h; cases h
    | ok l' => rw [hl] at h; cases h; exact hvar _ _ _ (ih hl)
  | hfn n qs b _ => simp only [callFn] at h; cases h; exact hfn _ _ _
  | _ => simp only [callFn] at h; cases h; exact leaf _ rfl

/-! ### names after a sequence of replacements -/

theorem mem_refNames_replaceSeq (ps : List Text) (args : List Ast) (a : Ast) (y : Text)
    (hl : args.length = ps.length) (h : y ∈ refNames (replaceSeq (ps.zip args) a)) :
    (y ∈ refNames a ∧ y ∉ ps) ∨ ∃ e ∈ args, y ∈ refNames e := by
  induction ps generalizing args a with
  | nil => left; simpa [replaceSeq] using h
  | cons p ps ih =>
    cases args with
    | nil => simp at hl
    | cons e es =>
      simp only [List.zip_cons_cons, replaceSeq, List.foldl_cons] at h
      rcases ih es (replaceVar p e a) (by simpa using hl) h with ⟨h1, h2⟩ | ⟨e', he', h'⟩
      · rcases (mem_refNames_replaceVar ..).mp h1 with h1 | h1
        · left; exact ⟨h1.1, by simp [h1.2, h2]⟩
        · right; exact ⟨e, by simp, h1.2⟩
      · right; exact ⟨e', by simp [he'], h'⟩

theorem mem_callNames_replaceSeq (σ : List (Text × Ast)) (a : Ast) (y : Text)
    (h : y ∈ callNames (replaceSeq σ a)) : y ∈ callNames a ∨ ∃ p ∈ σ, y ∈ callNames p.2 := by
  induction σ generalizing a with
  | nil => left; exact h
  | cons q σ ih =>
    simp only [replaceSeq, List.foldl_cons] at h
    rcases ih _ h with h1 | ⟨p, hp, h1⟩
    · rcases (mem_callNames_replaceVar ..).mp h1 with h1 | h1
      · exact .inl h1
      · exact .inr ⟨q, by simp, h1.2⟩
    · exact .inr ⟨p, by simp [hp], h1⟩

theorem forall₂_mem_right' {α β : Type} {R : α → β → Prop} {l : List α} {u : List β}
    (h : List.Forall₂ R l u) {b : β} (hb : b ∈ u) : ∃ a ∈ l, R a b := by
  induction h with
  | nil => simp at hb
  | cons h1 _ ih =>
    rcases List.mem_cons.mp hb with rfl | hb
    · exact ⟨_, by simp, h1⟩
    · obtain ⟨a, ha, h⟩ := ih hb; exact ⟨a, by simp [ha], h⟩

theorem forall₂_mem_left' {α β : Type} {R : α → β → Prop} {l : List α} {u : List β}
    (h : List.Forall₂ R l u) {a : α} (ha : a ∈ l) : ∃ b ∈ u, R a b := by
  induction h with
  | nil => simp at ha
  | cons h1 _ ih =>
    rcases List.mem_cons.mp ha with rfl | hb
    · exact ⟨_, by simp, h1⟩
    · obtain ⟨a, ha, h⟩ := ih hb; exact ⟨a, by simp [ha], h⟩

/-- Names referenced after calling a function. -/
theorem callFn_refNames {f nm : Text} {ps : List Text} {body a b : Ast}
    (h : callFn f (.fn nm ps body) a = .ok b) (y : Text) (hy : y ∈ refNames b) :
    y ∈ refNames a ∨ (f ∈ callNames a ∧ y ∈ refNames body ∧ y ∉ ps) := by
  revert y
  refine callFn_ind (P := fun a b => ∀ y, y ∈ refNames b →
    y ∈ refNames a ∨ (f ∈ callNames a ∧ y ∈ refNames body ∧ y ∉ ps)) ?_ ?_ ?_ ?_ ?_ ?_ h
  · intro args hl y hy
    rcases mem_refNames_replaceSeq ps args body y hl hy with h | ⟨e, he, h⟩
    · exact .inr ⟨by simp [callNames], h⟩
    · left; simp only [refNames, refNamesL_eq, List.mem_flatMap]; exact ⟨e, he, h⟩
  · intro n args args' hn hf y hy
    simp only [refNames, refNamesL_eq, List.mem_flatMap, callNames, callNamesL_eq, List.mem_cons] at hy ⊢
    obtain ⟨b, hb, hyb⟩ := hy
    obtain ⟨a, ha, hR⟩ := forall₂_mem_right' hf hb
    rcases hR y hyb with h | ⟨h1, h2⟩
    · exact .inl ⟨a, ha, h⟩
    · exact .inr ⟨.inr ⟨a, ha, h1⟩, h2⟩
  · intro l op r l' r' h1 h2 y hy
    simp only [refNames, callNames, List.mem_append] at hy ⊢
    rcases hy with hy | hy
    · have := h1 y hy; tauto
    · have := h2 y hy; tauto
  · intro n a a' h1 y hy
    simp only [refNames, callNames] at hy ⊢; exact h1 y hy
  · intro n qs b y hy; exact .inl hy
  · intro a _ y hy; exact .inl hy

/-- Functions called after calling a function. -/
theorem callFn_callNames {f nm : Text} {ps : List Text} {body a b : Ast}
    (h : callFn f (.fn nm ps body) a = .ok b) (y : Text) (hy : y ∈ callNames b) :
    y ∈ callNames a ∨ (f ∈ callNames a ∧ y ∈ callNames body) := by
  revert y
  refine callFn_ind (P := fun a b => ∀ y, y ∈ callNames b →
    y ∈ callNames a ∨ (f ∈ callNames a ∧ y ∈ callNames body)) ?_ ?_ ?_ ?_ ?_ ?_ h
  · intro args hl y hy
    rcases mem_callNames_replaceSeq _ body y hy with h | ⟨e, he, h⟩
    · exact .inr ⟨by simp [callNames], h⟩
    · left; simp only [callNames, callNamesL_eq, List.mem_cons, List.mem_flatMap]
      exact .inr ⟨e.2, (List.of_mem_zip he).2, h⟩
  · intro n args args' hn hf y hy
    simp only [callNames, callNamesL_eq, List.mem_cons, List.mem_flatMap] at hy ⊢
    rcases hy with rfl | ⟨b, hb, hyb⟩
    · exact .inl (.inl rfl)
    obtain ⟨a, ha, hR⟩ := forall₂_mem_right' hf hb
    rcases hR y hyb with h | ⟨h1, h2⟩
    · exact .inl (.inr ⟨a, ha, h⟩)
    · exact .inr ⟨.inr ⟨a, ha, h1⟩, h2⟩
  · intro l op r l' r' h1 h2 y hy
    simp only [callNames, List.mem_append] at hy ⊢
    rcases hy with hy | hy
    · have := h1 y hy; tauto
    · have := h2 y hy; tauto
  · intro n a a' h1 y hy
    simp only [callNames] at hy ⊢; exact h1 y hy
  · intro n qs b y hy; exact .inl hy
  · intro a _ y hy; exact .inl hy

theorem callFn_plain {f nm : Text} {ps : List Text} {body a b : Ast}
    (h : callFn f (.fn nm ps body) a = .ok b) (ha : plain a) (hb : plain body) : plain b := by
  revert ha
  refine callFn_ind (P := fun a b => plain a → plain b) ?_ ?_ ?_ ?_ ?_ ?_ h
  · intro args hl hp
    refine plain_replaceSeq _ _ hb fun p hp' => ?_
    simp only [plain, plainL_iff] at hp
    exact hp _ (List.of_mem_zip hp').2
  · intro n args args' _ hf hp
    simp only [plain, plainL_iff] at hp ⊢
    intro b hb
    obtain ⟨a, ha, hR⟩ := forall₂_mem_right' hf hb
    exact hR (hp a ha)
  · intro l op r l' r' h1 h2 hp
    simp only [plain, Bool.and_eq_true] at hp ⊢; exact ⟨h1 hp.1, h2 hp.2⟩
  · intro n a a' h1 hp; simp only [plain] at hp ⊢; exact h1 hp
  · intro n qs b hp; exact hp
  · intro a _ hp; exact hp

/-! ### nesting depth of a name -/

mutual
/-- The largest number of uses of name `n` on a path from the root. -/
def depth (n : Name) : Ast → Nat
  | .call g args => (if n = .f g then 1 else 0) + depthL n args
  | .fn _ _ b => depth n b
  | .infix l _ r => max (depth n l) (depth n r)
  | .ref r => if n = .v r then 1 else 0
  | .var _ a => depth n a
  | _ => 0
/-- `depth` for a list of formulas. -/
def depthL (n : Name) : List Ast → Nat
  | [] => 0
  | a :: as => max (depth n a) (depthL n as)
end

theorem depthL_le (n : Name) (as : List Ast) (d : Nat) : depthL n as ≤ d ↔ ∀ a ∈ as, depth n a ≤ d := by
  induction as with
  | nil => simp [depthL]
  | cons a as ih => simp only [depthL, List.forall_mem_cons, ← ih, Nat.max_le]

theorem depth_le_depthL (n : Name) (as : List Ast) (a : Ast) (h : a ∈ as) : depth n a ≤ depthL n as :=
  (depthL_le n as _).mp (Nat.le_refl _) a h

theorem depth_pos (n : Name) (a : Ast) : 0 < depth n a ↔ Uses a n := by
  induction a using Ast.ind with
  | hcall g args ih =>
    have hL : 0 < depthL n args ↔ ∃ a ∈ args, Uses a n := by
      rw [← Nat.not_le, depthL_le]
      push Not
      constructor
      · rintro ⟨a, ha, h⟩; exact ⟨a, ha, (ih a ha).mp (by omega)⟩
      · rintro ⟨a, ha, h⟩; exact ⟨a, ha, by have := (ih a ha).mpr h; omega⟩
    simp only [depth, Nat.add_pos_iff_pos_or_pos, hL]
    cases n with
    | v x => simp [Uses, refNames, refNamesL_eq]
    | f h =>
      simp only [Uses, callNames, callNamesL_eq, List.mem_cons, List.mem_flatMap, Name.f.injEq]
      constructor
      · rintro (h | h)
        · split at h; exact .inl ‹_›; simp at h
        · exact .inr h
      · rintro (rfl | h); simp; exact .inr h
  | hinfix l op r h1 h2 =>
    have : 0 < max (depth n l) (depth n r) ↔ Uses l n ∨ Uses r n := by rw [← h1, ← h2]; omega
    simp only [depth, this]
    cases n <;> simp [Uses, refNames, callNames]
  | href r =>
    cases n with
    | v x => simp only [depth, Uses, refNames]; split <;> simp_all
    | f x => simp [depth, Uses, callNames]
  | hfn _ _ _ h => cases n <;> simpa [depth, Uses, refNames, callNames] using h
  | hvar _ _ h => cases n <;> simpa [depth, Uses, refNames, callNames] using h
  | _ => cases n <;> simp [depth, Uses, refNames, callNames]

theorem depth_eq_zero (n : Name) (a : Ast) : depth n a = 0 ↔ ¬ Uses a n := by
  rw [← depth_pos]; omega

theorem depth_replaceVar (n : Name) (x : Text) (r a : Ast) (hr : ¬ Uses r n) :
    depth n (replaceVar x r a) = if n = .v x then 0 else depth n a := by
  have hr0 := (depth_eq_zero n r).mpr hr
  induction a using Ast.ind with
  | hcall g args ih =>
    simp only [replaceVar, replaceVars_eq, depth]
    have : depthL n (args.map (replaceVar x r)) = if n = .v x then 0 else depthL n args := by
      clear hr
      induction args with
      | nil => simp [depthL]
      | cons b bs ihb =>
        simp only [List.map_cons, depthL, ih b (by simp), ihb fun a ha => ih a (by simp [ha])]
        split <;> simp
    rw [this]
    by_cases h : n = .v x
    · subst h; simp
    · simp [h]
  | hinfix l op rr h1 h2 => simp only [replaceVar, depth, h1, h2]; split <;> simp
  | href y =>
    simp only [replaceVar]
    by_cases h : x = y
    · subst h; rw [if_pos rfl, hr0]; simp only [depth]; split <;> rfl
    · rw [if_neg h]; simp only [depth]
      by_cases h2 : n = .v y
      · subst h2; simp [Ne.symm h]
      · simp [h2]
  | hfn _ _ _ h => simpa [replaceVar, depth] using h
  | hvar _ _ h => simpa [replaceVar, depth] using h
  | _ => simp [replaceVar, depth]

theorem mem_of_lookup {α : Type} (l : List (Text × α)) (k : Text) (v : α) (h : l.lookup k = some v) :
    (k, v) ∈ l := by
  induction l with
  | nil => simp at h
  | cons p l ih =>
    obtain ⟨k', v'⟩ := p
    rw [List.lookup_cons] at h
    by_cases hk : k = k'
    · subst hk; simp at h; simp [h]
    · rw [beq_false_of_ne hk] at h; exact List.mem_cons_of_mem _ (ih h)

theorem bind_some_mem (ps : List Text) (args : List Ast) (x : Text) (e : Ast)
    (h : bind ps args x = some e) : x ∈ ps ∧ e ∈ args :=
  List.of_mem_zip (mem_of_lookup _ _ _ h)

theorem bind_mem (ps : List Text) (args : List Ast) (hl : args.length = ps.length) (x : Text)
    (hx : x ∈ ps) : ∃ e ∈ args, bind ps args x = some e := by
  induction ps generalizing args with
  | nil => simp at hx
  | cons p ps ih =>
    cases args with
    | nil => simp at hl
    | cons e es =>
      simp only [bind, List.zip_cons_cons, List.lookup_cons]
      by_cases h : x = p
      · subst h; exact ⟨e, by simp, by simp⟩
      · rw [beq_false_of_ne h]
        obtain ⟨e', he', h'⟩ := ih es (by simpa using hl) (by simpa [h] using hx)
        exact ⟨e', by simp [he'], h'⟩

theorem bind_none (ps : List Text) (args : List Ast) (x : Text) (hx : x ∉ ps) :
    bind ps args x = none := by
  cases h : bind ps args x with
  | none => rfl
  | some e => exact absurd (bind_some_mem _ _ _ _ h).1 hx

/-- The depth of a name in an instantiated body that itself does not use the name. -/
theorem depth_subst_bind (n : Name) (ps : List Text) (args : List Ast) (hl : args.length = ps.length)
    (a : Ast) (ha : Uses a n → ∃ p ∈ ps, n = .v p) :
    depth n (subst (bind ps args) a) ≤ depthL n args := by
  induction a using Ast.ind with
  | hcall g as ih =>
    simp only [subst, substL_eq, depth]
    rw [if_neg]
    · simp only [Nat.zero_add, depthL_le, List.mem_map]
      rintro _ ⟨b, hb, rfl⟩
      refine ih b hb fun hu => ha ?_
      cases n with
      | v x => simp only [Uses, refNames, refNamesL_eq, List.mem_flatMap] at hu ⊢; exact ⟨b, hb, hu⟩
      | f x => simp only [Uses, callNames, callNamesL_eq, List.mem_flatMap, List.mem_cons] at hu ⊢; exact .inr ⟨b, hb, hu⟩
    · rintro rfl
      obtain ⟨p, _, hp⟩ := ha (by simp [Uses, callNames])
      cases hp
  | hinfix l op r h1 h2 =>
    simp only [subst, depth]
    rw [Nat.max_le]
    refine ⟨h1 fun hu => ha ?_, h2 fun hu => ha ?_⟩ <;>
      cases n <;> simp only [Uses, refNames, callNames, List.mem_append] at hu ⊢ <;> tauto
  | href y =>
    simp only [subst]
    cases hb : bind ps args y with
    | some e => exact depth_le_depthL _ _ _ (bind_some_mem _ _ _ _ hb).2
    | none =>
      simp only [Option.getD_none, depth]
      split
      · rename_i hn
        obtain ⟨p, hp, hnp⟩ := ha (by rw [hn]; simp [Uses, refNames])
        rw [hn] at hnp; cases hnp
        obtain ⟨e, _, he⟩ := bind_mem ps args hl y hp
        rw [hb] at he; cases he
      · omega
  | hfn _ _ _ h =>
    simp only [subst, depth]; apply h; intro hu; apply ha
    cases n <;> simpa [Uses, refNames, callNames] using hu
  | hvar _ _ h =>
    simp only [subst, depth]; apply h; intro hu; apply ha
    cases n <;> simpa [Uses, refNames, callNames] using hu
  | _ => simp [subst, depth]

/-- Calling `f` does not deepen a name its body does not use, and reduces the depth of `f`. -/
theorem depth_callFn {f nm : Text} {ps : List Text} {body a b : Ast}
    (h : callFn f (.fn nm ps body) a = .ok b) (n : Name)
    (hbody : Uses body n → ∃ p ∈ ps, n = .v p)
    (ha : plain a) (hc : ∀ p ∈ ps, p ∉ refNames a) :
    depth n b ≤ if n = .f f then depth n a - 1 else depth n a := by
  revert ha hc
  refine callFn_ind (P := fun a b => plain a → (∀ p ∈ ps, p ∉ refNames a) →
    depth n b ≤ if n = .f f then depth n a - 1 else depth n a) ?_ ?_ ?_ ?_ ?_ ?_ h
  · intro args hl _ hc
    have hcl : ∀ e ∈ args, ∀ p ∈ ps, p ∉ refNames e := by
      intro e he p hp hpe
      exact hc p hp (by simp only [refNames, refNamesL_eq, List.mem_flatMap]; exact ⟨e, he, hpe⟩)
    rw [replaceSeq_eq_subst ps args body hcl hl]
    have := depth_subst_bind n ps args hl body hbody
    simp only [depth]
    split <;> omega
  · intro g args args' hg hf hp hc
    simp only [depth]
    have hL : depthL n args' ≤ if n = .f f then depthL n args - 1 else depthL n args := by
      rw [depthL_le]
      intro b hb
      obtain ⟨a, ha, hR⟩ := forall₂_mem_right' hf hb
      simp only [plain, plainL_iff] at hp
      have h1 := hR (hp a ha) (by
        intro p hp' hpa
        exact hc p hp' (by simp only [refNames, refNamesL_eq, List.mem_flatMap]; exact ⟨a, ha, hpa⟩))
      have h2 := depth_le_depthL n args a ha
      split at h1 <;> simp_all <;> omega
    by_cases hn : n = .f f
    · subst hn; simp only [if_true] at hL ⊢
      rw [if_neg (by simp [Ne.symm hg])]; omega
    · simp only [if_neg hn] at hL ⊢; split <;> omega
  · intro l op r l' r' h1 h2 hp hc
    simp only [plain, Bool.and_eq_true] at hp
    have h1 := h1 hp.1 (fun p hp' h => hc p hp' (by simp [refNames, h]))
    have h2 := h2 hp.2 (fun p hp' h => hc p hp' (by simp [refNames, h]))
    simp only [depth]; split <;> simp_all <;> omega
  · intro m a a' h1 hp hc
    simp only [plain] at hp
    simpa only [depth] using h1 hp (by simpa [refNames] using hc)
  · intro m qs b hp _; simp [plain] at hp
  · intro a hl _ hc
    cases a <;> simp [isLeaf] at hl <;> simp [depth]
    rename_i r _
    by_cases h2 : n = .v r
    · rw [h2]; simp
    · simp [h2]

end Verif.Ast
