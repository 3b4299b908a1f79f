import Verif.Csvp.Lemmas
/- Helper lemmas: the CSV parser without positions, used to reason about values and addresses. -/
namespace Verif.Csvp
open Verif Verif.Csvp.Spec

inductive K where
  | some | last | eof
deriving DecidableEq, Repr

abbrev CRes := Option (K × Text × Text)

def cRest (sep : Char) (v : Text) : Text → CRes
  | [] => some (.last, trim v, [])
  | c :: cs =>
    if isWs c then cRest sep v cs
    else if c = sep then some (.some, trim v, cs) else none

def cQuoted (sep : Char) : Bool → Text → Text → CRes
  | true, _, [] => none
  | true, v, c :: cs => cQuoted sep false (v ++ [c]) cs
  | false, v, [] => some (.some, trim v, [])
  | false, v, c :: cs =>
    if c = '"' then
      if cs.head? = some '"' then cQuoted sep true v cs else cRest sep v cs
    else cQuoted sep false (v ++ [c]) cs

def cUnquoted (sep : Char) (v : Text) : Text → CRes
  | [] => some (.last, trim v, [])
  | c :: cs =>
    if c = '\\' ∧ cs.head? = some '\n' then cUnquoted sep v cs.tail
    else if c = sep then some (.some, trim v, cs)
    else if c = '\n' then some (.last, trim v, cs)
    else cUnquoted sep (v ++ [c]) cs
  termination_by cs => cs.length

def cField (sep : Char) (v : Text) : Text → CRes
  | [] => some (.eof, [], [])
  | c :: cs =>
    if c ≠ '\n' ∧ isWs c then cField sep v cs
    else if c = sep then some (.some, trim v, cs)
    else if c = '\n' then some (.last, trim v, cs)
    else if c = '\\' ∧ cs.head? = some '\n' then cField sep v cs.tail
    else if c = '"' then cQuoted sep false v cs
    else cUnquoted sep (v ++ [c]) cs
  termination_by cs => cs.length

/-- The model's result is the core's result. -/
def Rel (a : Addr) : Except Err FR → CRes → Prop
  | .ok (.some f rest p), r => -1 ≤ p.off ∧ f.addr = a ∧ r = some (.some, f.value, rest)
  | .ok (.last f rest p), r => -1 ≤ p.off ∧ f.addr = a ∧ r = some (.last, f.value, rest)
  | .ok (.eof _), r => r = some (.eof, [], [])
  | .error _, r => r = none

theorem push_ok (cfg : Config) (fb : FB) (c d : Char) (p : Cur) (h : -1 ≤ p.off) :
    ∃ fb', fb.push cfg c (p.adv d) = .ok fb' ∧ fb'.addr = fb.addr ∧ fb'.value = fb.value ++ [c] := by
  have := adv_off_nonneg p d h
  refine ⟨{ fb with value := fb.value ++ [c], positions := fb.positions ++ [⟨(p.adv d).line + cfg.above, (p.adv d).off.toNat⟩] }, ?_, rfl, rfl⟩
  unfold FB.push toPos; rw [if_neg (by omega)]; rfl

theorem adv_off (p : Cur) (c : Char) (h : -1 ≤ p.off) : -1 ≤ (p.adv c).off := by
  have := adv_off_nonneg p c h; omega

theorem parseRest_rel (cfg : Config) (fb : FB) (cs : Text) (p : Cur) (h : -1 ≤ p.off) :
    Rel fb.addr (parseRest cfg fb cs p) (cRest cfg.sep fb.value cs) := by
  induction cs generalizing p with
  | nil => exact ⟨h, rfl, rfl⟩
  | cons c cs ih =>
    unfold parseRest cRest
    split
    · exact ih _ (adv_off _ _ h)
    · split
      · exact ⟨adv_off _ _ h, rfl, rfl⟩
      · unfold parseError; split <;> rfl

theorem parseQuoted_rel (cfg : Config) (e : Bool) (fb : FB) (cs : Text) (p : Cur) (h : -1 ≤ p.off) :
    Rel fb.addr (parseQuoted cfg e fb cs p) (cQuoted cfg.sep e fb.value cs) := by
  induction cs generalizing e fb p with
  | nil =>
    cases e
    · exact ⟨h, rfl, rfl⟩
    · unfold parseQuoted cQuoted parseError; split <;> rfl
  | cons c cs ih =>
    obtain ⟨fb', h1, h2, h3⟩ := push_ok cfg fb c c p h
    cases e
    · unfold parseQuoted cQuoted
      split
      · split
        · exact ih _ _ _ (adv_off _ _ h)
        · exact parseRest_rel _ _ _ _ (adv_off _ _ h)
      · rw [h1, ← h2, ← h3]; exact ih _ _ _ (adv_off _ _ h)
    · unfold parseQuoted cQuoted
      rw [h1, ← h2, ← h3]; exact ih _ _ _ (adv_off _ _ h)

theorem not_cont {c : Char} {cs : Text} (x : ∀ l, c = '\\' → cs = '\n' :: l → False) :
    ¬ (c = '\\' ∧ cs.head? = some '\n') := by
  rintro ⟨rfl, h⟩
  cases cs with
  | nil => simp at h
  | cons d l => simp at h; subst h; exact x l rfl rfl

theorem parseUnquoted_rel (cfg : Config) (fb : FB) (cs : Text) (p : Cur) (h : -1 ≤ p.off) :
    Rel fb.addr (parseUnquoted cfg fb cs p) (cUnquoted cfg.sep fb.value cs) := by
  fun_induction parseUnquoted cfg fb cs p with
  | case1 fb p => unfold cUnquoted; exact ⟨h, rfl, rfl⟩
  | case2 fb cs p ih =>
    unfold cUnquoted
    rw [if_pos ⟨rfl, rfl⟩]
    exact ih (adv_off _ _ (adv_off _ _ h))
  | case3 fb cs p x =>
    unfold cUnquoted
    rw [if_neg (not_cont x), if_pos rfl]; exact ⟨adv_off _ _ h, rfl, rfl⟩
  | case4 fb cs p x h1 =>
    unfold cUnquoted
    rw [if_neg (not_cont x), if_neg h1, if_pos rfl]; exact ⟨adv_off _ _ h, rfl, rfl⟩
  | case5 fb c cs p x h1 h2 e he =>
    obtain ⟨fb', hp, -⟩ := push_ok cfg fb c c p h
    rw [hp] at he; cases he
  | case6 fb c cs p x h1 h2 fb' he ih =>
    obtain ⟨fb'', hp, ha, hv⟩ := push_ok cfg fb c c p h
    rw [hp] at he; cases he
    unfold cUnquoted
    rw [if_neg (not_cont x), if_neg h1, if_neg h2, ← ha, ← hv]
    exact ih (adv_off _ _ h)

theorem parseField_rel (cfg : Config) (fb : FB) (cs : Text) (p : Cur) (h : -1 ≤ p.off) :
    Rel fb.addr (parseField cfg fb cs p) (cField cfg.sep fb.value cs) := by
  fun_induction parseField cfg fb cs p with
  | case1 p => unfold cField; rfl
  | case2 cs p hs =>
    unfold cField
    rw [if_neg (by decide), if_pos hs]; exact ⟨adv_off _ _ h, rfl, rfl⟩
  | case3 cs p hs ih =>
    unfold cField
    rw [if_neg (by decide), if_neg hs, if_neg (by decide), if_pos ⟨rfl, rfl⟩]
    exact ih (adv_off _ _ (adv_off _ _ h))
  | case4 c cs p x hw ih => unfold cField; rw [if_pos hw]; exact ih (adv_off _ _ h)
  | case5 cs p x hw => unfold cField; rw [if_neg hw, if_pos rfl]; exact ⟨adv_off _ _ h, rfl, rfl⟩
  | case6 cs p x hw hs =>
    unfold cField; rw [if_neg hw, if_neg hs, if_pos rfl]; exact ⟨adv_off _ _ h, rfl, rfl⟩
  | case7 cs p x hw hs hn =>
    unfold cField; rw [if_neg hw, if_neg hs, if_neg hn, if_neg (by simp), if_pos rfl]
    exact parseQuoted_rel _ _ _ _ _ (adv_off _ _ h)
  | case8 c cs p x hw hs hn hq e he =>
    obtain ⟨fb', hp, -⟩ := push_ok cfg fb c c p h
    rw [hp] at he; cases he
  | case9 c cs p x hw hs hn hq fb' he =>
    obtain ⟨fb'', hp, ha, hv⟩ := push_ok cfg fb c c p h
    rw [hp] at he; cases he
    unfold cField; rw [if_neg hw, if_neg hs, if_neg hn, if_neg (not_cont x), if_neg hq, ← ha, ← hv]
    exact parseUnquoted_rel _ _ _ _ (adv_off _ _ h)

/-! ### record loop without positions -/

def cFields (sep : Char) : Nat → List Text → Text → Option (Option (List Text) × Text)
  | 0, _, _ => none
  | n + 1, acc, cs =>
    match cField sep [] cs with
    | none => none
    | some (.some, v, rest) => cFields sep n (acc ++ [v]) rest
    | some (.last, v, rest) => some (some (acc ++ [v]), rest)
    | some (.eof, _, _) => if acc.isEmpty then some (none, []) else some (some acc, [])

def ignoreLine' : Text → Text
  | [] => []
  | c :: cs => if c = '\n' then cs else ignoreLine' cs

def cRecords (sep : Char) : Nat → List (List Text) → Text → Option (List (List Text))
  | 0, _, _ => none
  | n + 1, acc, cs =>
    if cs.head? = some '#' then cRecords sep n acc (ignoreLine' cs)
    else match cFields sep (cs.length + 1) [] cs with
      | none => none
      | some (none, _) => some acc
      | some (some r, rest) => cRecords sep n (acc ++ [r]) rest

theorem ignoreLine_eq (cs : Text) (p : Cur) (h : -1 ≤ p.off) :
    (ignoreLine cs p).1 = ignoreLine' cs ∧ -1 ≤ (ignoreLine cs p).2.off := by
  induction cs generalizing p with
  | nil => exact ⟨rfl, h⟩
  | cons c cs ih =>
    unfold ignoreLine ignoreLine'
    split
    · exact ⟨rfl, adv_off _ _ h⟩
    · exact ih _ (adv_off _ _ h)

def RRel : Except Err RR → Option (Option (List Text) × Text) → Prop
  | .ok (.some r rest p), x => -1 ≤ p.off ∧ x = some (some (r.map (·.value)), rest)
  | .ok (.eof _), x => x = some (none, [])
  | .ok (.comment ..), _ => False
  | .error _, x => x = none

theorem fieldsLoop_rel (cfg : Config) (row fuel col : Nat) (acc : List Field) (cs : Text) (p : Cur)
    (h : -1 ≤ p.off) :
    RRel (fieldsLoop cfg row fuel col acc cs p) (cFields cfg.sep fuel (acc.map (·.value)) cs) := by
  induction fuel generalizing col acc cs p with
  | zero => rfl
  | succ fuel ih =>
    have hr := parseField_rel cfg ⟨⟨col, row⟩, [], []⟩ cs p h
    unfold fieldsLoop cFields
    split <;> rename_i he <;> rw [he] at hr
    · have hr : cField cfg.sep [] cs = none := hr
      rw [hr]; rfl
    · obtain ⟨h1, -, h2⟩ := hr
      have h2 : cField cfg.sep [] cs = _ := h2
      rename_i f rest p' _
      rw [h2]
      have := ih (col + 1) (acc ++ [f]) rest p' h1
      simpa using this
    · obtain ⟨h1, -, h2⟩ := hr
      have h2 : cField cfg.sep [] cs = _ := h2
      rw [h2]
      exact ⟨h1, by simp⟩
    · have hr : cField cfg.sep [] cs = _ := hr
      rename_i p' _
      rw [hr]
      cases acc with
      | nil => exact rfl
      | cons a as =>
        refine ⟨?_, by simp⟩
        have := parseField_off_eof cfg _ cs p p' h he
        exact this
where
  parseField_off_eof (cfg : Config) (fb : FB) (cs : Text) (p p' : Cur) (h : -1 ≤ p.off)
      (he : parseField cfg fb cs p = .ok (.eof p')) : -1 ≤ p'.off := by
    fun_induction parseField cfg fb cs p with
    | case1 p => cases he; exact h
    | case2 => cases he
    | case3 cs p hs ih => exact ih (adv_off _ _ (adv_off _ _ h)) he
    | case4 c cs p x hw ih => exact ih (adv_off _ _ h) he
    | case5 => cases he
    | case6 => cases he
    | case7 cs p => exact absurd he (qneof _ _ _ _ _ _)
    | case8 => cases he
    | case9 => exact absurd he (uneof _ _ _ _ _)
  rneof (cfg : Config) (fb : FB) (cs : Text) (p p' : Cur) :
      parseRest cfg fb cs p ≠ .ok (.eof p') := by
    induction cs generalizing p with
    | nil => simp [parseRest]
    | cons c cs ih => unfold parseRest; split; exact ih _; split <;> simp
  qneof (cfg : Config) (e : Bool) (fb : FB) (cs : Text) (p p' : Cur) :
      parseQuoted cfg e fb cs p ≠ .ok (.eof p') := by
    induction cs generalizing e fb p with
    | nil => cases e <;> simp [parseQuoted]
    | cons c cs ih =>
      cases e
      · unfold parseQuoted; split
        · split
          · exact ih _ _ _
          · exact rneof _ _ _ _ _
        · split
          · simp
          · exact ih _ _ _
      · unfold parseQuoted; split
        · simp
        · exact ih _ _ _
  uneof (cfg : Config) (fb : FB) (cs : Text) (p p' : Cur) :
      parseUnquoted cfg fb cs p ≠ .ok (.eof p') := by
    fun_induction parseUnquoted cfg fb cs p <;> simp_all

theorem recordsLoop_rel (cfg : Config) (fuel row : Nat) (acc : List (List Field)) (cs : Text) (p : Cur)
    (h : -1 ≤ p.off) :
    values (recordsLoop cfg fuel row acc cs p) =
      cRecords cfg.sep fuel (acc.map (·.map (·.value))) cs := by
  induction fuel generalizing row acc cs p with
  | zero => rfl
  | succ fuel ih =>
    unfold recordsLoop cRecords parseRecord
    by_cases hh : cs.head? = some '#'
    · rw [if_pos hh, if_pos hh]
      have := ignoreLine_eq cs p h
      simp only [← this.1]
      exact ih _ _ _ _ this.2
    · rw [if_neg hh, if_neg hh]
      have hr := fieldsLoop_rel cfg row (cs.length + 1) 0 [] cs p h
      have hr : RRel _ (cFields cfg.sep (cs.length + 1) [] cs) := hr
      revert hr
      generalize fieldsLoop cfg row (cs.length + 1) 0 [] cs p = x
      intro hr
      match x with
      | .error e => have hr : _ = none := hr; rw [hr]; rfl
      | .ok (.comment ..) => exact hr.elim
      | .ok (.some r rest p') =>
        obtain ⟨h1, h2⟩ := hr
        rw [h2]
        have := ih (row + 1) (acc ++ [r]) rest p' h1
        simpa using this
      | .ok (.eof p') => have hr : _ = some (none, []) := hr; rw [hr]; rfl

theorem skipNewlines_eq (cs : Text) (p : Cur) (h : -1 ≤ p.off) :
    (skipNewlines cs p).1 = cs.dropWhile (· = '\n') ∧ -1 ≤ (skipNewlines cs p).2.off := by
  induction cs generalizing p with
  | nil => exact ⟨rfl, h⟩
  | cons c cs ih =>
    unfold skipNewlines
    split
    · rename_i hc; simpa [hc] using ih _ (adv_off _ _ h)
    · rename_i hc; simp [hc, h]

/-- Values of a parse, computed without positions. -/
def cParse (sep : Char) (cs : Text) : Option (List (List Text)) :=
  let cs := cs.dropWhile (· = '\n')
  cRecords sep (cs.length + 1) [] cs

theorem values_parse (cfg : Config) (t : Text) : values (parse cfg t) = cParse cfg.sep t := by
  unfold parse cParse
  have := skipNewlines_eq t Cur.init (by decide)
  simp only [← this.1]
  exact recordsLoop_rel cfg _ 0 [] _ _ this.2

end Verif.Csvp
