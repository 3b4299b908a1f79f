import Verif.Csvp.Spec
import Mathlib.Data.List.Forall2
/- Helper lemmas for the CSV properties. -/
namespace Verif.Csvp
open Verif

/-- The whitespace loop inlined in `parseField` is the code's `consume_whitespace`. -/
theorem parseField_consumeWs (cfg : Config) (fb : FB) (cs : Text) (p : Cur) :
    parseField cfg fb cs p = parseField cfg fb (consumeWs cs p).1 (consumeWs cs p).2 := by
  fun_induction consumeWs cs p with
  | case1 p => rfl
  | case2 p c cs h ih =>
    rw [← ih]
    conv => lhs; unfold parseField
    split
    · simp_all
    · rename_i heq; injection heq with h1 h2; subst h1; exact absurd h.2 (by decide)
    · rename_i heq; injection heq with h1 h2; subst h1 h2
      rw [if_pos h]
  | case3 p c cs h => rfl

/-! ### counters -/

def after (t : Text) (n : Nat) : Cur := (t.take n).foldl Cur.adv Cur.init

theorem after_succ (t : Text) (n : Nat) (c : Char) (h : t[n]? = some c) :
    after t (n + 1) = (after t n).adv c := by
  unfold after
  rw [List.take_add_one, h]; simp [List.foldl_append]

theorem adv_off_nonneg (p : Cur) (c : Char) (h : -1 ≤ p.off) : 0 ≤ (p.adv c).off := by
  unfold Cur.adv; split <;> simp; omega

theorem foldl_adv_off (l : Text) (p : Cur) (h : -1 ≤ p.off) : -1 ≤ (l.foldl Cur.adv p).off := by
  induction l generalizing p with
  | nil => exact h
  | cons c l ih => exact ih _ (by have := adv_off_nonneg p c h; omega)

theorem after_off (t : Text) (n : Nat) : -1 ≤ (after t n).off :=
  foldl_adv_off _ _ (by decide)

theorem after_succ_off (t : Text) (n : Nat) (c : Char) (h : t[n]? = some c) :
    0 ≤ (after t (n + 1)).off := by
  rw [after_succ t n c h]; exact adv_off_nonneg _ _ (after_off t n)

/-- The position the parser records for the character at index `i`. -/
def recPos (cfg : Config) (t : Text) (i : Nat) : SrcPos :=
  ⟨(after t (i + 1)).line + cfg.above, (after t (i + 1)).off.toNat⟩

theorem toPos_after (cfg : Config) (t : Text) (n : Nat) (c : Char) (h : t[n]? = some c) :
    toPos cfg (after t (n + 1)) = .ok (recPos cfg t n) := by
  have := after_succ_off t n c h
  unfold toPos recPos
  rw [if_neg (by omega)]

/-! ### the state invariant -/

/-- The parser has consumed exactly the first `n` characters of `t`. -/
structure At (t : Text) (n : Nat) (cs : Text) (p : Cur) : Prop where
  cs_eq : cs = t.drop n
  le : n ≤ t.length
  p_eq : p = after t n

theorem At.cons {t n c cs p} (h : At t n (c :: cs) p) :
    t[n]? = some c ∧ At t (n + 1) cs (p.adv c) := by
  have h1 := h.cs_eq
  have hget : t[n]? = some c := by
    have : (t.drop n)[0]? = some c := by rw [← h1]; rfl
    simpa using this
  have hlt : n < t.length := by
    rcases Nat.lt_or_ge n t.length with h | h
    · exact h
    · simp [List.getElem?_eq_none h] at hget
  refine ⟨hget, ?_, hlt, ?_⟩
  · have : t.drop (n + 1) = (t.drop n).drop 1 := by simp
    rw [this, ← h1]; rfl
  · rw [after_succ t n c hget, h.p_eq]

theorem At.nil {t n p} (h : At t n [] p) : n = t.length := by
  have := congrArg List.length h.cs_eq
  simp at this; have := h.le; omega

/-- Indices `is` (increasing, between `lo` and `hi`) of `t` spell `raw` with recorded positions `ps`. -/
structure Spells (cfg : Config) (t : Text) (lo hi : Nat) (is : List Nat) (raw : Text)
    (ps : List SrcPos) : Prop where
  sorted : is.Pairwise (· < ·)
  range : ∀ i ∈ is, lo ≤ i ∧ i < hi
  chars : is.map (fun i => t[i]?) = raw.map some
  pos : ps = is.map (recPos cfg t)

theorem Spells.mono {cfg t lo hi hi' is raw ps} (h : Spells cfg t lo hi is raw ps) (hh : hi ≤ hi') :
    Spells cfg t lo hi' is raw ps :=
  ⟨h.sorted, fun i hi => ⟨(h.range i hi).1, Nat.lt_of_lt_of_le (h.range i hi).2 hh⟩, h.chars, h.pos⟩

theorem Spells.snoc {cfg t lo n is raw ps c} (h : Spells cfg t lo n is raw ps) (hlo : lo ≤ n)
    (hc : t[n]? = some c) :
    Spells cfg t lo (n + 1) (is ++ [n]) (raw ++ [c]) (ps ++ [recPos cfg t n]) := by
  refine ⟨?_, ?_, ?_, ?_⟩
  · rw [List.pairwise_append]
    refine ⟨h.sorted, by simp, ?_⟩
    intro a ha b hb; simp at hb; subst hb; exact (h.range a ha).2
  · intro i hi
    simp at hi
    rcases hi with hi | rfl
    · have := h.range i hi; omega
    · omega
  · simp [h.chars, hc]
  · simp [h.pos]

theorem Spells.nil (cfg t lo hi) : Spells cfg t lo hi [] [] [] :=
  ⟨List.Pairwise.nil, by simp, rfl, rfl⟩

/-- Facts that hold for unquoted fields: first character not white space, no separator/newline. -/
def Unq (cfg : Config) (raw : Text) : Prop :=
  (∀ c, raw.head? = some c → isWs c = false) ∧ cfg.sep ∉ raw ∧ '\n' ∉ raw

structure FBAt (cfg : Config) (t : Text) (lo n : Nat) (fb : FB) : Prop where
  ex : ∃ is, Spells cfg t lo n is fb.value fb.positions

/-- A finished field, spelled between `lo` and `hi`. -/
structure FieldAt (cfg : Config) (t : Text) (lo hi : Nat) (a : Addr) (f : Field) : Prop where
  addr : f.addr = a
  ex : ∃ is raw, Spells cfg t lo hi is raw f.positions ∧ f.value = trim raw ∧
    ('"' ∉ t → Unq cfg raw)

theorem push_at {cfg t lo n fb c cs p} (h : At t n (c :: cs) p) (hfb : FBAt cfg t lo n fb)
    (hlo : lo ≤ n) :
    ∃ fb', fb.push cfg c (p.adv c) = .ok fb' ∧ FBAt cfg t lo (n + 1) fb' ∧ fb'.addr = fb.addr ∧
      fb'.value = fb.value ++ [c] := by
  obtain ⟨hc, hat⟩ := h.cons
  obtain ⟨is, hs⟩ := hfb.ex
  refine ⟨{ fb with value := fb.value ++ [c], positions := fb.positions ++ [recPos cfg t n] },
    ?_, ⟨is ++ [n], hs.snoc hlo hc⟩, rfl, rfl⟩
  unfold FB.push
  rw [hat.p_eq, toPos_after cfg t n c hc]; rfl

/-- Before index `n` there is a quote followed only by white space. -/
def QuoteBefore (t : Text) (n : Nat) : Prop :=
  ∃ q, q < n ∧ t[q]? = some '"' ∧ ∀ j, q < j → j < n → ∃ d, t[j]? = some d ∧ isWs d = true

theorem QuoteBefore.mem {t : Text} {n : Nat} (h : QuoteBefore t n) : '"' ∈ t :=
  let ⟨_, _, h, _⟩ := h; List.mem_of_getElem? h

/-- An error is about the first character after a quote that is neither white space nor the separator. -/
def ErrAt (cfg : Config) (t bad : Text) (msg : Msg) (pos : SrcPos) : Prop :=
  ∃ i c, t[i]? = some c ∧ msg = .trailing c ∧ isWs c = false ∧ c ≠ cfg.sep ∧ QuoteBefore t i ∧
    pos = recPos cfg t i ∧ bad = (t.drop (i + 1)).take 10

/-- What a field-level function may return when started at `lo` inside field `a` at index `n`. -/
def Post (cfg : Config) (t : Text) (lo n : Nat) (a : Addr) : Except Err FR → Prop
  | .ok (.some f rest p) => ∃ m, n ≤ m ∧ At t m rest p ∧ FieldAt cfg t lo m a f
  | .ok (.last f rest p) => ∃ m, n ≤ m ∧ At t m rest p ∧ FieldAt cfg t lo m a f
  | .ok (.eof p) => At t t.length [] p
  | .error (.parse bad msg pos) => ErrAt cfg t bad msg pos
  | .error _ => False

theorem Post.mono {cfg t lo n n' a r} (h : Post cfg t lo n' a r) (hn : n ≤ n') :
    Post cfg t lo n a r := by
  unfold Post at *
  split <;> simp_all
  · obtain ⟨m, h1, h2⟩ := h; exact ⟨m, by omega, h2⟩
  · obtain ⟨m, h1, h2⟩ := h; exact ⟨m, by omega, h2⟩

theorem parseError_post {cfg t lo n a c cs p} (h : At t n (c :: cs) p) (hq : QuoteBefore t n) (hw : isWs c = false)
    (hs : c ≠ cfg.sep) : Post cfg t lo n a (.error (parseError cfg (.trailing c) cs (p.adv c))) := by
  obtain ⟨hc, hat⟩ := h.cons
  unfold parseError
  rw [hat.p_eq, toPos_after cfg t n c hc]
  refine ⟨n, c, hc, rfl, hw, hs, hq, rfl, ?_⟩
  rw [hat.cs_eq]

theorem finish_at {cfg t lo n fb} (hfb : FBAt cfg t lo n fb) (hq : '"' ∉ t → Unq cfg fb.value) :
    FieldAt cfg t lo n fb.addr fb.finish :=
  let ⟨is, h⟩ := hfb.ex
  ⟨rfl, is, fb.value, h, rfl, hq⟩

theorem FieldAt.mono {cfg t lo hi hi' a f} (h : FieldAt cfg t lo hi a f) (hh : hi ≤ hi') :
    FieldAt cfg t lo hi' a f :=
  let ⟨is, raw, h1, h2⟩ := h.ex
  ⟨h.addr, is, raw, h1.mono hh, h2⟩

theorem FBAt.mono {cfg t lo n n' fb} (h : FBAt cfg t lo n fb) (hh : n ≤ n') : FBAt cfg t lo n' fb :=
  let ⟨is, h⟩ := h.ex; ⟨is, h.mono hh⟩

theorem parseRest_post (cfg : Config) (fb : FB) (cs : Text) (p : Cur) (t : Text) (lo n : Nat)
    (h : At t n cs p) (hfb : FBAt cfg t lo n fb) (hq : QuoteBefore t n) :
    Post cfg t lo n fb.addr (parseRest cfg fb cs p) := by
  induction cs generalizing p n with
  | nil => exact ⟨n, Nat.le_refl _, h, finish_at hfb (absurd hq.mem)⟩
  | cons c cs ih =>
    obtain ⟨hc, hat⟩ := h.cons
    unfold parseRest
    split
    · rename_i hw
      refine (ih _ (n + 1) hat (hfb.mono (by omega)) ?_).mono (by omega)
      obtain ⟨q, h1, h2, h3⟩ := hq
      refine ⟨q, by omega, h2, fun j hj hj' => ?_⟩
      by_cases hjn : j = n
      · subst hjn; exact ⟨c, hc, hw⟩
      · exact h3 j hj (by omega)
    · rename_i hw
      split
      · exact ⟨n + 1, by omega, hat, finish_at (hfb.mono (by omega)) (absurd hq.mem)⟩
      · rename_i hs
        exact parseError_post h hq (by simpa using hw) hs

theorem parseQuoted_post (cfg : Config) (e : Bool) (fb : FB) (cs : Text) (p : Cur) (t : Text)
    (lo n : Nat) (h : At t n cs p) (hfb : FBAt cfg t lo n fb) (hlo : lo ≤ n) (hq : '"' ∈ t)
    (he : e = true → cs ≠ []) :
    Post cfg t lo n fb.addr (parseQuoted cfg e fb cs p) := by
  induction cs generalizing e fb p n with
  | nil =>
    cases e
    · exact ⟨n, Nat.le_refl _, h, finish_at hfb (absurd hq)⟩
    · exact absurd rfl (he rfl)
  | cons c cs ih =>
    obtain ⟨hc, hat⟩ := h.cons
    obtain ⟨fb', hpush, hfb', haddr, -⟩ := push_at h hfb hlo
    cases e
    · unfold parseQuoted
      split
      · split
        · rename_i hh
          exact (ih true _ _ (n + 1) hat (hfb.mono (by omega)) (by omega)
            (fun _ => by rintro rfl; simp at hh)).mono (by omega)
        · rename_i hcq _
          exact (parseRest_post cfg fb cs _ t lo (n + 1) hat (hfb.mono (by omega))
            ⟨n, by omega, by rw [hc, hcq], fun j h1 h2 => by omega⟩).mono (by omega)
      · rw [hpush, ← haddr]
        exact (ih false _ _ (n + 1) hat hfb' (by omega) (by simp)).mono (by omega)
    · unfold parseQuoted
      rw [hpush, ← haddr]
      exact (ih false _ _ (n + 1) hat hfb' (by omega) (by simp)).mono (by omega)

theorem parseUnquoted_post (cfg : Config) (fb : FB) (cs : Text) (p : Cur) (t : Text)
    (lo n : Nat) (h : At t n cs p) (hfb : FBAt cfg t lo n fb) (hlo : lo ≤ n)
    (hu : Unq cfg fb.value) (hne : fb.value ≠ []) :
    Post cfg t lo n fb.addr (parseUnquoted cfg fb cs p) := by
  fun_induction parseUnquoted cfg fb cs p generalizing n with
  | case1 fb p => exact ⟨n, Nat.le_refl _, h, finish_at hfb (fun _ => hu)⟩
  | case2 fb cs p ih =>
    have h2 := h.cons.2.cons.2
    exact (ih (n + 2) h2 (hfb.mono (by omega)) (by omega) hu hne).mono (by omega)
  | case3 fb cs p x =>
    exact ⟨n + 1, by omega, h.cons.2, finish_at (hfb.mono (by omega)) (fun _ => hu)⟩
  | case4 fb cs p x h1 =>
    exact ⟨n + 1, by omega, h.cons.2, finish_at (hfb.mono (by omega)) (fun _ => hu)⟩
  | case5 fb p c cs x h1 h2 e he =>
    obtain ⟨fb', hpush, -⟩ := push_at h hfb hlo
    rw [hpush] at he; cases he
  | case6 fb p c cs x h1 h2 fb' he ih =>
    obtain ⟨fb'', hpush, hfb', haddr, hv⟩ := push_at h hfb hlo
    rw [hpush] at he; cases he
    rw [← haddr]
    refine (ih (n + 1) h.cons.2 hfb' (by omega) ?_ (by simp [hv])).mono (by omega)
    rw [hv]
    obtain ⟨u1, u2, u3⟩ := hu
    refine ⟨?_, ?_, ?_⟩
    · intro d hd
      rw [List.head?_append] at hd
      cases hv' : fb.value with
      | nil => exact absurd hv' hne
      | cons e l => rw [hv'] at hd; exact u1 d (by rw [hv']; simpa using hd)
    · simp only [List.mem_append, List.mem_singleton, not_or]; exact ⟨u2, fun h => h1 h.symm⟩
    · simp only [List.mem_append, List.mem_singleton, not_or]; exact ⟨u3, fun h => h2 h.symm⟩

theorem parseField_post (cfg : Config) (fb : FB) (cs : Text) (p : Cur) (t : Text)
    (lo n : Nat) (h : At t n cs p) (hlo : lo ≤ n) (hv : fb.value = [])
    (hp : fb.positions = []) :
    Post cfg t lo (n + 1) fb.addr (parseField cfg fb cs p) := by
  have hfb : ∀ n, FBAt cfg t lo n fb := fun n => ⟨[], by rw [hv, hp]; exact Spells.nil ..⟩
  have hu0 : Unq cfg fb.value := by rw [hv]; simp [Unq]
  fun_induction parseField cfg fb cs p generalizing n with
  | case1 p => have := h.nil; subst this; exact h
  | case2 cs p hs =>
    exact ⟨n + 1, by omega, h.cons.2, finish_at (hfb _) (fun _ => hu0)⟩
  | case3 cs p hs ih => exact (ih (n + 2) h.cons.2.cons.2 (by omega)).mono (by omega)
  | case4 p c cs x hw ih => exact (ih (n + 1) h.cons.2 (by omega)).mono (by omega)
  | case5 cs p =>
    exact ⟨n + 1, by omega, h.cons.2, finish_at (hfb _) (fun _ => hu0)⟩
  | case6 cs p =>
    exact ⟨n + 1, by omega, h.cons.2, finish_at (hfb _) (fun _ => hu0)⟩
  | case7 cs p =>
    refine parseQuoted_post cfg false fb cs _ t lo (n + 1) h.cons.2 (hfb _) (by omega) ?_ (by simp)
    exact List.mem_of_getElem? h.cons.1
  | case8 p c cs x hw hs hn hq e he =>
    obtain ⟨fb', hpush, -⟩ := push_at h (hfb _) hlo
    rw [hpush] at he; cases he
  | case9 c cs p x hw hs hn hq fb' he =>
    obtain ⟨fb'', hpush, hfb', haddr, hv'⟩ := push_at h (hfb _) hlo
    rw [hpush] at he; cases he
    rw [← haddr]
    rw [hv, List.nil_append] at hv'
    refine parseUnquoted_post cfg fb' _ _ t lo (n + 1) h.cons.2 hfb' (by omega) ?_ (by simp [hv'])
    rw [hv']
    refine ⟨?_, by simpa using fun h => hs h.symm, by simpa using fun h => hn h.symm⟩
    intro d hd; simp at hd; subst hd
    cases hd : isWs c
    · rfl
    · exact absurd ⟨hn, hd⟩ hw

/-! ### records -/

/-- Fields of one record, in consecutive stretches of the text from `lo` to `hi`. -/
def RecAt (cfg : Config) (t : Text) (row hi : Nat) : Nat → Nat → List Field → Prop
  | lo, _, [] => lo ≤ hi
  | lo, col, f :: fs => ∃ m, lo ≤ m ∧ FieldAt cfg t lo m ⟨col, row⟩ f ∧ RecAt cfg t row hi m (col + 1) fs

theorem RecAt.snoc {cfg t row lo m hi col fs f} (h : RecAt cfg t row m lo col fs) (hm : m ≤ hi)
    (hf : FieldAt cfg t m hi ⟨col + fs.length, row⟩ f) : RecAt cfg t row hi lo col (fs ++ [f]) := by
  induction fs generalizing lo col with
  | nil =>
    have h : lo ≤ m := h
    refine ⟨hi, by omega, ⟨hf.addr, ?_⟩, Nat.le_refl _⟩
    obtain ⟨is, raw, h1, h2⟩ := hf.ex
    exact ⟨is, raw, ⟨h1.sorted, fun i hi => ⟨by have := h1.range i hi; omega, (h1.range i hi).2⟩,
      h1.chars, h1.pos⟩, h2⟩
  | cons g gs ih =>
    obtain ⟨k, h1, h2, h3⟩ := h
    refine ⟨k, h1, h2, ih h3 ?_⟩
    have : col + (g :: gs).length = col + 1 + gs.length := by simp; omega
    rwa [this] at hf

theorem RecAt.mono {cfg t row hi hi' lo col fs} (h : RecAt cfg t row hi lo col fs) (hh : hi ≤ hi') :
    RecAt cfg t row hi' lo col fs := by
  induction fs generalizing lo col with
  | nil => exact Nat.le_trans h hh
  | cons g gs ih => obtain ⟨k, h1, h2, h3⟩ := h; exact ⟨k, h1, h2, ih h3⟩

theorem RecAt.le {cfg t row hi lo col fs} (h : RecAt cfg t row hi lo col fs) : lo ≤ hi := by
  induction fs generalizing lo col with
  | nil => exact h
  | cons g gs ih => obtain ⟨k, h1, h2, h3⟩ := h; have := ih h3; omega

def RPost (cfg : Config) (t : Text) (row lo n : Nat) : Except Err RR → Prop
  | .ok (.some r rest p) => r ≠ [] ∧ ∃ m, n ≤ m ∧ At t m rest p ∧ RecAt cfg t row m lo 0 r
  | .ok (.comment rest p) => ∃ m, n ≤ m ∧ At t m rest p
  | .ok (.eof p) => At t t.length [] p
  | .error (.parse bad msg pos) => ErrAt cfg t bad msg pos
  | .error _ => False

theorem RPost.mono {cfg t row lo n n' r} (h : RPost cfg t row lo n' r) (hn : n ≤ n') :
    RPost cfg t row lo n r := by
  unfold RPost at *
  split <;> simp_all
  · obtain ⟨h0, m, h1, h2⟩ := h; exact ⟨m, by omega, h2⟩
  · obtain ⟨m, h1, h2⟩ := h; exact ⟨m, by omega, h2⟩

theorem fieldsLoop_post (cfg : Config) (row fuel col : Nat) (acc : List Field) (cs : Text) (p : Cur)
    (t : Text) (lo n : Nat) (h : At t n cs p) (hfuel : cs.length < fuel) (hcol : col = acc.length)
    (hacc : RecAt cfg t row n lo 0 acc) (hn : acc = [] ∨ lo < n) :
    RPost cfg t row lo (lo + 1) (fieldsLoop cfg row fuel col acc cs p) := by
  induction fuel generalizing col acc cs p n with
  | zero => omega
  | succ fuel ih =>
    have hp := parseField_post cfg ⟨⟨col, row⟩, [], []⟩ cs p t n n h (Nat.le_refl _) rfl rfl
    have hle := hacc.le
    unfold fieldsLoop
    split <;> rename_i hr <;> rw [hr] at hp
    · rename_i e
      cases e <;> exact hp
    · obtain ⟨m, hm, hat, hf⟩ := hp
      refine ih (col + 1) _ _ _ m hat ?_ (by simp [hcol]) (hacc.snoc (by omega) (by simpa [hcol] using hf))
        (Or.inr (by omega))
      rw [hat.cs_eq]; rw [h.cs_eq] at hfuel
      simp at *; have := hat.le; omega
    · obtain ⟨m, hm, hat, hf⟩ := hp
      exact ⟨by simp, m, by omega, hat, hacc.snoc (by omega) (by simpa [hcol] using hf)⟩
    · cases acc with
      | nil => exact hp
      | cons a as =>
        rcases hn with hn | hn
        · cases hn
        · exact ⟨by simp, t.length, by have := h.le; omega, hp, hacc.mono h.le⟩

theorem ignoreLine_at (cs : Text) (p : Cur) (t : Text) (n : Nat) (h : At t n cs p) :
    ∃ m, n ≤ m ∧ (cs ≠ [] → n < m) ∧ At t m (ignoreLine cs p).1 (ignoreLine cs p).2 := by
  induction cs generalizing p n with
  | nil => exact ⟨n, Nat.le_refl _, by simp, h⟩
  | cons c cs ih =>
    unfold ignoreLine
    split
    · exact ⟨n + 1, by omega, by simp, h.cons.2⟩
    · obtain ⟨m, h1, h2, h3⟩ := ih _ _ h.cons.2
      exact ⟨m, by omega, fun _ => by omega, h3⟩

theorem parseRecord_post (cfg : Config) (row : Nat) (cs : Text) (p : Cur) (t : Text) (n : Nat)
    (h : At t n cs p) : RPost cfg t row n (n + 1) (parseRecord cfg row cs p) := by
  unfold parseRecord
  split
  · rename_i hh
    obtain ⟨m, h1, h2, h3⟩ := ignoreLine_at cs p t n h
    exact ⟨m, h2 (by rintro rfl; simp at hh), h3⟩
  · exact fieldsLoop_post cfg row _ 0 [] cs p t n n h (by omega) rfl (Nat.le_refl _) (Or.inl rfl)

/-- All records, in consecutive stretches of the text from `lo` on. -/
def RecsAt (cfg : Config) (t : Text) (hi : Nat) : Nat → Nat → List (List Field) → Prop
  | lo, _, [] => lo ≤ hi
  | lo, row, r :: rs => r ≠ [] ∧ ∃ l m, lo ≤ l ∧ l ≤ m ∧ RecAt cfg t row m l 0 r ∧
      RecsAt cfg t hi m (row + 1) rs

theorem RecsAt.snoc {cfg t row lo l m hi rs r} (h : RecsAt cfg t m lo row rs) (hl : m ≤ l)
    (hr : RecAt cfg t (row + rs.length) hi l 0 r) (hne : r ≠ []) :
    RecsAt cfg t hi lo row (rs ++ [r]) := by
  induction rs generalizing lo row with
  | nil =>
    have h : lo ≤ m := h
    exact ⟨hne, l, hi, by omega, hr.le, hr, Nat.le_refl _⟩
  | cons g gs ih =>
    obtain ⟨h0, k, k', h1, h2, h3, h4⟩ := h
    refine ⟨h0, k, k', h1, h2, h3, ih h4 ?_⟩
    have : row + (g :: gs).length = row + 1 + gs.length := by simp; omega
    rwa [this] at hr

theorem RecsAt.mono {cfg t row hi hi' lo rs} (h : RecsAt cfg t hi lo row rs) (hh : hi ≤ hi') :
    RecsAt cfg t hi' lo row rs := by
  induction rs generalizing lo row with
  | nil => exact Nat.le_trans h hh
  | cons g gs ih =>
    obtain ⟨h0, k, k', h1, h2, h3, h4⟩ := h
    exact ⟨h0, k, k', h1, h2, h3, ih h4⟩

def PPost (cfg : Config) (t : Text) : Except Err (List (List Field)) → Prop
  | .ok rs => RecsAt cfg t t.length 0 0 rs
  | .error (.parse bad msg pos) => ErrAt cfg t bad msg pos
  | .error _ => False

theorem recordsLoop_post (cfg : Config) (fuel row : Nat) (acc : List (List Field)) (cs : Text)
    (p : Cur) (t : Text) (n : Nat) (h : At t n cs p) (hfuel : cs.length < fuel)
    (hrow : row = acc.length) (hacc : RecsAt cfg t n 0 0 acc) :
    PPost cfg t (recordsLoop cfg fuel row acc cs p) := by
  induction fuel generalizing row acc cs p n with
  | zero => omega
  | succ fuel ih =>
    have hp := parseRecord_post cfg row cs p t n h
    have hlen : ∀ m rest p', n + 1 ≤ m → At t m rest p' → rest.length < fuel := by
      intro m rest p' hm hat
      rw [hat.cs_eq]; rw [h.cs_eq] at hfuel
      simp at *; have := hat.le; omega
    unfold recordsLoop
    split <;> rename_i hr <;> rw [hr] at hp
    · rename_i e
      cases e <;> exact hp
    · obtain ⟨m, hm, hat⟩ := hp
      exact ih row _ _ _ m hat (hlen _ _ _ hm hat) hrow (hacc.mono (by omega))
    · obtain ⟨hne, m, hm, hat, hrec⟩ := hp
      exact ih (row + 1) _ _ _ m hat (hlen _ _ _ hm hat) (by simp [hrow])
        (hacc.snoc (Nat.le_refl _) (by simpa [hrow] using hrec) hne)
    · exact hacc.mono h.le

theorem skipNewlines_at (cs : Text) (p : Cur) (t : Text) (n : Nat) (h : At t n cs p) :
    ∃ m, n ≤ m ∧ At t m (skipNewlines cs p).1 (skipNewlines cs p).2 := by
  induction cs generalizing p n with
  | nil => exact ⟨n, Nat.le_refl _, h⟩
  | cons c cs ih =>
    unfold skipNewlines
    split
    · obtain ⟨m, h1, h2⟩ := ih _ _ h.cons.2
      exact ⟨m, by omega, h2⟩
    · exact ⟨n, Nat.le_refl _, h⟩

theorem parse_post (cfg : Config) (t : Text) : PPost cfg t (parse cfg t) := by
  obtain ⟨m, -, h⟩ := skipNewlines_at t Cur.init t 0 ⟨rfl, Nat.zero_le _, rfl⟩
  exact recordsLoop_post cfg _ 0 [] _ _ t m h (by omega) rfl (Nat.zero_le _)

/-! ### positions in closed form -/
open Verif.Csvp.Spec

theorem after_closed (l : Text) :
    l.foldl Cur.adv Cur.init =
      ⟨l.count '\n', if l.count '\n' = 0 then (l.reverse.takeWhile (· ≠ '\n')).length - 1
        else (l.reverse.takeWhile (· ≠ '\n')).length⟩ := by
  generalize hl : l.reverse = r
  have : l = r.reverse := by rw [← hl]; simp
  subst this; clear hl
  induction r with
  | nil => rfl
  | cons c r ih =>
    rw [List.reverse_cons, List.foldl_append, ih]
    simp only [List.foldl_cons, List.foldl_nil, Cur.adv, List.count_append, List.takeWhile_cons]
    by_cases hc : c = '\n'
    · subst hc; simp
    · have h1 : List.count '\n' [c] = 0 := by simp [List.count_cons, hc]
      rw [if_neg hc, h1]
      simp only [Nat.add_zero]
      congr 1
      simp only [ne_eq, hc, not_false_eq_true, decide_true, if_true, List.length_cons]
      split <;> omega

theorem recPos_closed (cfg : Config) (t : Text) (i : Nat) (c : Char) (h : t[i]? = some c) :
    recPos cfg t i =
      if c = '\n' then ⟨cfg.above + lineOf t i + 1, 0⟩
      else ⟨cfg.above + lineOf t i, if lineOf t i = 0 then colOf t i else colOf t i + 1⟩ := by
  unfold recPos
  rw [after_succ t i c h]
  unfold after
  rw [after_closed]
  unfold lineOf colOf Cur.adv
  split
  · simp; omega
  · congr 1
    · simp; omega
    · split <;> simp <;> omega

/-! ### indices of all fields -/

/-- The indices `is` of `t` spell the field `f`: the value is their text, trimmed, and the recorded
positions are those of these characters. -/
structure FieldIdx (cfg : Config) (t : Text) (f : Field) (is : List Nat) : Prop where
  ex : ∃ raw, Spells cfg t 0 t.length is raw f.positions ∧ f.value = trim raw ∧
    ('"' ∉ t → Unq cfg raw)

theorem RecAt.idx {cfg t row hi lo col fs} (h : RecAt cfg t row hi lo col fs) (hhi : hi ≤ t.length) :
    ∃ idx : List (List Nat), List.Forall₂ (FieldIdx cfg t) fs idx ∧ idx.flatten.Pairwise (· < ·) ∧
      ∀ i ∈ idx.flatten, lo ≤ i ∧ i < hi := by
  induction fs generalizing lo col with
  | nil => exact ⟨[], .nil, by simp, by simp⟩
  | cons f fs ih =>
    obtain ⟨m, h1, h2, h3⟩ := h
    obtain ⟨idx, i1, i2, i3⟩ := ih h3
    obtain ⟨is, raw, s, v, q⟩ := h2.ex
    have hm := h3.le
    refine ⟨is :: idx, .cons ⟨raw, ⟨s.sorted, fun i hi => ⟨Nat.zero_le _, ?_⟩, s.chars, s.pos⟩, v, q⟩ i1,
      ?_, ?_⟩
    · have := (s.range i hi).2; omega
    · rw [List.flatten_cons, List.pairwise_append]
      refine ⟨s.sorted, i2, ?_⟩
      intro a ha b hb
      have := (s.range a ha).2; have := (i3 b hb).1; omega
    · intro i hi
      rw [List.flatten_cons, List.mem_append] at hi
      rcases hi with hi | hi
      · have := s.range i hi; omega
      · have := i3 i hi; omega

theorem RecsAt.idx {cfg t hi lo row rs} (h : RecsAt cfg t hi lo row rs) (hhi : hi ≤ t.length) :
    ∃ idx : List (List (List Nat)), List.Forall₂ (List.Forall₂ (FieldIdx cfg t)) rs idx ∧
      idx.flatten.flatten.Pairwise (· < ·) ∧ (∀ i ∈ idx.flatten.flatten, lo ≤ i ∧ i < hi) ∧ lo ≤ hi := by
  induction rs generalizing lo row with
  | nil => exact ⟨[], .nil, by simp, by simp, h⟩
  | cons r rs ih =>
    obtain ⟨hne, l, m, h1, h2, h3, h4⟩ := h
    obtain ⟨idx, i1, i2, i3, i4⟩ := ih h4
    obtain ⟨idr, r1, r2, r3⟩ := h3.idx (by omega)
    refine ⟨idr :: idx, .cons r1 i1, ?_, ?_, by omega⟩
    · rw [List.flatten_cons, List.flatten_append, List.pairwise_append]
      refine ⟨r2, i2, ?_⟩
      intro a ha b hb
      have := (r3 a ha).2; have := (i3 b hb).1; omega
    · intro i hi
      rw [List.flatten_cons, List.flatten_append, List.mem_append] at hi
      rcases hi with hi | hi
      · have := r3 i hi; omega
      · have := i3 i hi; omega

theorem RecAt.addr {cfg t row hi lo col fs} (h : RecAt cfg t row hi lo col fs) (c : Nat) (f : Field)
    (hf : fs[c]? = some f) : f.addr = ⟨col + c, row⟩ := by
  induction fs generalizing lo col c with
  | nil => simp at hf
  | cons g gs ih =>
    obtain ⟨m, h1, h2, h3⟩ := h
    cases c with
    | zero => simp at hf; subst hf; exact h2.addr
    | succ c => simp at hf; rw [ih h3 c hf]; simp; omega

theorem RecsAt.get {cfg t hi lo row rs} (h : RecsAt cfg t hi lo row rs) (k : Nat) (r : List Field)
    (hr : rs[k]? = some r) : r ≠ [] ∧ ∃ l m, RecAt cfg t (row + k) m l 0 r := by
  induction rs generalizing lo row k with
  | nil => simp at hr
  | cons g gs ih =>
    obtain ⟨h0, l, m, h1, h2, h3, h4⟩ := h
    cases k with
    | zero => simp at hr; subst hr; exact ⟨h0, l, m, h3⟩
    | succ k =>
      simp at hr
      have := ih h4 k hr
      rwa [show row + (k + 1) = row + 1 + k by omega]

end Verif.Csvp
