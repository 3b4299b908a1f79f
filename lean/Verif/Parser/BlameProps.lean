import Verif.Parser.Blame
/-
C87: a syntax error is reported at the first token that cannot be right.
-/
namespace Verif.Parser
open Verif.Ast

/-! ## Formulas -/

section
variable {F : F64} {single : Bool}

theorem RE.parseToks {ts r} (h : RE F single 0 ts r) : parseToks F single ts = r := by
  obtain ⟨n, h, hf⟩ := h
  rcases Nat.le_total n (3 * ts.length + 2) with hle | hle
  · exact exprBp_mono h hf hle
  · have := exprBp_mono (r := Parser.parseToks F single ts) rfl (parseToks_ne_fuel F single ts) hle
    rw [← this, h]

theorem toks_ok {ts a r} (h : parseToks F single ts = .ok (a, r)) : ∃ us, ts = us ++ r ∧ us ≠ [] ∧ ∀ k, Same r k → parseToks F single (us ++ k) = .ok (a, k) := by
  obtain ⟨us, h1, h2, h3⟩ := (local_ok _).1 _ _ _ _ h
  exact ⟨us, h1, h2, fun k hk => (h3 k hk).parseToks⟩

/-- C87, formulas.  When reading the tokens of an expression ends with an error at the tokens `rest`, for another reason than a sign before something
that is not a number, then the tokens before it can be continued to a complete expression (unless one of them is a sign before something that is not a
number), and however they are continued with the first token of `rest`, reading ends with the same error.  (If there is no first token, the error is
reported at the end of the input: the expression is incomplete.) -/
theorem C87_formula {ts rest : List Tok} {m : PMsg} (h : parseToks F single ts = .error (.at m rest)) (hm : m ≠ .prefixNotNumber) :
    ∃ good, ts = good ++ rest ∧
      (∀ t post, rest = t :: post → ∀ post', parseToks F single (good ++ t :: post') = .error (.at m (t :: post'))) ∧
      ∃ more, (∃ a, parseToks F single (good ++ more) = .ok (a, [])) ∨
        ∃ g s g', good = g ++ s :: g' ∧ parseToks F single (good ++ more) = .error (.at .prefixNotNumber (s :: g' ++ more)) := by
  obtain ⟨us, comp, rfl, hb⟩ := (blamed _ hm).1 _ _ _ h
  refine ⟨us, rfl, fun t post e post' => (hb.sure t post e post').parseToks, comp, ?_⟩
  rcases hb.viable [] (by rintro t ⟨⟩) with ⟨a, ha⟩ | ⟨u1, u2, e, hne, hs⟩
  · rw [List.append_nil] at ha
    exact .inl ⟨a, ha.parseToks⟩
  · rw [List.append_nil, List.append_nil] at hs
    obtain ⟨s, g', rfl⟩ := List.exists_cons_of_ne_nil hne
    exact .inr ⟨u1, s, g', e, hs.parseToks⟩

/-- The error about a sign is reported at a sign, and an expression that is not a number follows. -/
def NotNumber (F : F64) (single : Bool) (rest : List Tok) : Prop :=
  ∃ t post a r, rest = t :: post ∧ t.kind = .operator ∧ (t.s = ['+'] ∨ t.s = ['-']) ∧ (∃ n, exprBp F single n 170 post = .ok (a, r)) ∧
    (∀ pct s v, a ≠ .int pct s v) ∧ ∀ pct s v, a ≠ .float pct s v

theorem pact_sign {t s rbp} (h : pact F t = .sign s rbp) : t.kind = .operator ∧ (t.s = ['+'] ∨ t.s = ['-']) ∧ rbp = 170 := by
  unfold pact at h
  split at h
  · cases h
  split at h
  · rename_i hk
    split at h
    · cases h
    · rename_i hp
      cases h
      refine ⟨hk, ?_⟩
      unfold prefixPower at hp
      split at hp
      · rename_i hc
        cases hp
        exact ⟨hc, rfl⟩
      · cases hp
  split at h
  · split at h <;> cases h
  · cases h

theorem setSign_none {s a} (h : setSign s a = none) : (∀ pct s v, a ≠ .int pct s v) ∧ ∀ pct s v, a ≠ .float pct s v := by
  constructor <;> (rintro pct s' v rfl; cases h)

theorem sign_error (n : Nat) :
    (∀ bp ts rest, exprBp F single n bp ts = .error (.at .prefixNotNumber rest) → (∃ us, ts = us ++ rest) ∧ NotNumber F single rest) ∧
    (∀ ts rest, prim F single n ts = .error (.at .prefixNotNumber rest) → (∃ us, ts = us ++ rest) ∧ NotNumber F single rest) ∧
    (∀ bp lhs ts rest, loop F single n bp lhs ts = .error (.at .prefixNotNumber rest) → (∃ us, ts = us ++ rest) ∧ NotNumber F single rest) ∧
    (∀ ts rest, callArgs F single n ts = .error (.at .prefixNotNumber rest) → (∃ us, ts = us ++ rest) ∧ NotNumber F single rest) := by
  have up : ∀ (v ts ts' rest : List Tok), ts = v ++ ts' → (∃ us, ts' = us ++ rest) ∧ NotNumber F single rest → (∃ us, ts = us ++ rest) ∧ NotNumber F single rest := by
    rintro v ts ts' rest rfl ⟨⟨us, rfl⟩, h⟩
    exact ⟨⟨v ++ us, by simp⟩, h⟩
  induction n with
  | zero => exact ⟨fun _ _ _ h => (nomatch h), fun _ _ h => (nomatch h), fun _ _ _ _ h => (nomatch h), fun _ _ h => (nomatch h)⟩
  | succ n ih =>
    obtain ⟨ihE, ihP, ihL, ihA⟩ := ih
    obtain ⟨okE, okP, okL, okA⟩ := local_ok (F := F) (single := single) n
    refine ⟨fun bp ts rest h => ?_, fun ts rest h => ?_, fun bp lhs ts rest h => ?_, fun ts rest h => ?_⟩
    · rw [exprBp] at h
      split at h
      · rename_i hp
        cases h
        exact ihP _ _ hp
      · rename_i hp
        obtain ⟨v, rfl, -, -⟩ := okP _ _ _ hp
        exact up v _ _ _ rfl (ihL _ _ _ _ h)
    · cases ts with
      | nil => rw [prim] at h; cases h
      | cons t ts =>
        rw [prim_cons] at h
        split at h
        · split at h
          · rename_i hE
            cases h
            exact up [t] _ _ _ rfl (ihE _ _ _ hE)
          · cases h
          · split at h <;> cases h
        · rename_i s rbp hp
          obtain ⟨h1, h2, rfl⟩ := pact_sign hp
          split at h
          · rename_i hE
            cases h
            exact up [t] _ _ _ rfl (ihE _ _ _ hE)
          · rename_i a r hE
            split at h
            · cases h
            · rename_i hs
              cases h
              exact ⟨⟨[], rfl⟩, t, ts, a, r, rfl, h1, h2, ⟨n, hE⟩, setSign_none hs⟩
        · cases h
        · rename_i hp
          cases h; exact absurd rfl (pact_fail hp)
    · cases ts with
      | nil => rw [loop] at h; cases h
      | cons t ts =>
        rw [loop_cons] at h
        split at h
        · cases h
        · rename_i hl
          cases h; exact absurd rfl (lact_fail hl)
        · split at h
          · rename_i hA
            cases h
            exact up [t] _ _ _ rfl (ihA _ _ hA)
          · rename_i hA
            obtain ⟨v, rfl, -, -⟩ := okA _ _ _ hA
            exact up (t :: v) _ _ _ rfl (ihL _ _ _ _ h)
        · exact up [t] _ _ _ rfl (ihL _ _ _ _ h)
        · split at h
          · rename_i hE
            cases h
            exact up [t] _ _ _ rfl (ihE _ _ _ hE)
          · rename_i hE
            obtain ⟨v, rfl, -, -⟩ := okE _ _ _ _ hE
            exact up (t :: v) _ _ _ rfl (ihL _ _ _ _ h)
    · rw [callArgs] at h
      split at h
      · cases h
      split at h
      · rename_i hc
        cases ts with
        | nil => simp at hc
        | cons t ts => exact up [t] _ _ _ rfl (ihA _ _ h)
      · split at h
        · rename_i hE
          cases h
          exact ihE _ _ _ hE
        · rename_i hE
          obtain ⟨v, rfl, -, -⟩ := okE _ _ _ _ hE
          split at h
          · rename_i hA
            cases h
            exact up v _ _ _ rfl (ihA _ _ hA)
          · cases h

/-- C87, signs.  The error for a sign before something that is not a number is reported at that sign. -/
theorem C87_sign {ts rest : List Tok} (h : parseToks F single ts = .error (.at .prefixNotNumber rest)) :
    (∃ good, ts = good ++ rest) ∧ NotNumber F single rest := (sign_error _).1 _ _ _ h

end

/-! ## Code sections -/

section
variable {F : F64} {single : Bool}

/-- The tokens from the one on that an error of a code section is reported at, if it is not the error about a sign. -/
def CErr.place : CErr → Option (List Tok)
  | .at _ rest => some rest
  | .expr (.at m rest) => if m = .prefixNotNumber then none else some rest
  | _ => none

/-- Like `Blamed`. -/
structure CBlamed (F : F64) (us rest comp : List Tok) : Prop where
  sure : ∀ t post, rest = t :: post → ∀ post', ∃ n e, parseItems F n (us ++ t :: post') = .error e ∧ e.place = some (t :: post')
  viable : (∃ n is, parseItems F n (us ++ comp) = .ok is) ∨
    ∃ n g s g', us = g ++ s :: g' ∧ parseItems F n (us ++ comp) = .error (.expr (.at .prefixNotNumber (s :: g' ++ comp)))

def nameTok : Tok := ⟨.reference, ['x']⟩
def openTok : Tok := ⟨.openParen, ['(']⟩
def assignTok : Tok := ⟨.varAssign, [':', '=']⟩

theorem fnParams_ok {ts ps r} (h : fnParams ts = .ok (ps, r)) : ∃ us, ts = us ++ r ∧ us ≠ [] ∧ ∀ k, fnParams (us ++ k) = .ok (ps, k) := by
  induction ts generalizing ps with
  | nil => cases h
  | cons t ts ih =>
    rw [fnParams] at h
    split at h
    · rename_i hk
      cases h
      exact ⟨[t], rfl, by simp, fun k => by simp [fnParams, hk]⟩
    rename_i h1
    split at h
    · rename_i hk
      obtain ⟨us, rfl, -, h2⟩ := ih h
      exact ⟨t :: us, rfl, by simp, fun k => by simp [fnParams, hk, h2]⟩
    rename_i h2
    split at h
    · rename_i hk
      cases hr : fnParams ts with
      | error e => rw [hr] at h; cases h
      | ok x =>
        rw [hr] at h; cases h
        obtain ⟨us, rfl, -, h3⟩ := ih hr
        exact ⟨t :: us, rfl, by simp, fun k => by simp [fnParams, hk, h3, Except.map]⟩
    · cases h

theorem fnParams_err {ts rest} (h : fnParams ts = .error rest) : ∃ us, ts = us ++ rest ∧
    (∀ t post, rest = t :: post → ∀ post', fnParams (us ++ t :: post') = .error (t :: post')) ∧ ∃ ps, ∀ k, fnParams (us ++ closeTok :: k) = .ok (ps, k) := by
  induction ts generalizing rest with
  | nil => cases h; exact ⟨[], rfl, fun t post e => (by cases e), [], fun k => by simp [fnParams, closeTok]⟩
  | cons t ts ih =>
    rw [fnParams] at h
    split at h
    · cases h
    rename_i h1
    split at h
    · rename_i hk
      obtain ⟨us, rfl, h2, ps, h3⟩ := ih h
      exact ⟨t :: us, rfl, fun t' post e post' => by simp [fnParams, hk, h2 t' post e post'], ps, fun k => by simp [fnParams, hk, h3]⟩
    rename_i h2
    split at h
    · rename_i hk
      cases hr : fnParams ts with
      | ok x => rw [hr] at h; cases h
      | error e =>
        rw [hr] at h; cases h
        obtain ⟨us, rfl, h3, ps, h4⟩ := ih hr
        exact ⟨t :: us, rfl, fun t' post e post' => by simp [fnParams, hk, h3 t' post e post', Except.map], t.s :: ps, fun k => by simp [fnParams, hk, h4, Except.map]⟩
    · rename_i hk
      cases h
      refine ⟨[], rfl, fun t' post e post' => ?_, [], fun k => by simp [fnParams, closeTok]⟩
      cases e
      simp [fnParams, h1, h2, hk]

/-- An expression with an error, in an environment `run` that reads an expression and then statements. -/
theorem expr_blamed {ts rest : List Tok} {e : PErr} {pre : List Tok} (h : parseToks F true ts = .error e) (hp : CErr.place (.expr e) = some rest)
    (hok : ∀ r a, parseToks F true r = .ok (a, []) → ∃ n is, parseItems F n (pre ++ r) = .ok is)
    (herr : ∀ r e, parseToks F true r = .error e → ∃ n, parseItems F n (pre ++ r) = .error (.expr e)) :
    ∃ us comp, ts = us ++ rest ∧ CBlamed F (pre ++ us) rest comp := by
  cases e with
  | lex e => cases hp
  | fuel => cases hp
  | «at» m rest' =>
    simp only [CErr.place] at hp
    split at hp
    · cases hp
    rename_i hm
    cases hp
    obtain ⟨good, rfl, h1, more, h2⟩ := C87_formula h hm
    refine ⟨good, more, rfl, fun t post e post' => ?_, ?_⟩
    · obtain ⟨n, hn⟩ := herr _ _ (h1 t post e post')
      exact ⟨n, _, by rw [List.append_assoc]; exact hn, by simp [CErr.place, hm]⟩
    · rcases h2 with ⟨a, ha⟩ | ⟨g, s, g', rfl, hs⟩
      · obtain ⟨n, is, hn⟩ := hok _ _ ha
        exact .inl ⟨n, is, by rw [List.append_assoc]; exact hn⟩
      · obtain ⟨n, hn⟩ := herr _ _ hs
        exact .inr ⟨n, pre ++ g, s, g', by simp, by rw [List.append_assoc]; exact hn⟩

/-- Statements with an error after the tokens `us` of another one. -/
theorem more_blamed {us vs rest comp : List Tok} (hb : CBlamed F vs rest comp) (f : List Item → List Item)
    (hok : ∀ k n is, (∃ t post, rest = t :: post ∧ ∃ post', k = vs ++ t :: post') ∨ k = vs ++ comp → parseItems F n k = .ok is → ∃ n, parseItems F n (us ++ k) = .ok (f is))
    (herr : ∀ k n e, (∃ t post, rest = t :: post ∧ ∃ post', k = vs ++ t :: post') ∨ k = vs ++ comp → parseItems F n k = .error e → ∃ n, parseItems F n (us ++ k) = .error e) :
    CBlamed F (us ++ vs) rest comp := by
  constructor
  · intro t post e post'
    obtain ⟨n, er, h1, h2⟩ := hb.sure t post e post'
    obtain ⟨n', h3⟩ := herr _ _ _ (.inl ⟨t, post, e, post', rfl⟩) h1
    exact ⟨n', er, by rw [List.append_assoc]; exact h3, h2⟩
  · rcases hb.viable with ⟨n, is, h⟩ | ⟨n, g, s, g', e, h⟩
    · obtain ⟨n', h3⟩ := hok _ _ _ (.inr rfl) h
      exact .inl ⟨n', _, by rw [List.append_assoc]; exact h3⟩
    · obtain ⟨n', h3⟩ := herr _ _ _ (.inr rfl) h
      exact .inr ⟨n', us ++ g, s, g', by rw [e]; simp, by rw [List.append_assoc]; exact h3⟩

theorem items_cons (n : Nat) (t : Tok) (ts : List Tok) : parseItems F (n + 1) (t :: ts) =
    match t.kind with
    | .fnDef =>
      match ts with
      | nameTok :: openTok :: r =>
        if nameTok.kind ≠ .reference then .error (.at .expectedName (nameTok :: openTok :: r))
        else if openTok.kind ≠ .openParen then .error (.at .expectedOpen (openTok :: r))
        else
          match fnParams r with
          | .error e => .error (.at .expectedParams e)
          | .ok (ps, r') =>
            match parseToks F true r' with
            | .error e => .error (.expr e)
            | .ok (body, r'') =>
              match parseItems F n r'' with
              | .error e => .error e
              | .ok is => .ok (.fn nameTok.s ps body :: is)
      | nameTok :: [] => if nameTok.kind ≠ .reference then .error (.at .expectedName [nameTok]) else .error (.at .expectedOpen [])
      | [] => .error (.at .expectedName [])
    | .useModule =>
      match ts with
      | m :: r =>
        match parseItems F n r with
        | .error e => .error e
        | .ok is => .ok (.use (modulePath m.s) :: is)
      | [] => .ok [.use (modulePath [])]
    | .reference =>
      match ts with
      | a :: r =>
        if a.kind ≠ .varAssign then .error (.at .expectedAssign (a :: r))
        else
          match parseToks F true r with
          | .error e => .error (.expr e)
          | .ok (v, r') =>
            match parseItems F n r' with
            | .error e => .error e
            | .ok is => .ok (.var t.s v :: is)
      | [] => .error (.at .expectedAssign [])
    | .eof => .ok []
    | _ => .error (.at .expectedDefinition (t :: ts)) := by
  rw [parseItems.eq_def]
  rfl

theorem items_def_fn {n : Nat} {t nm op : Tok} {ps r body r''} (ht : t.kind = .fnDef) (h1 : nm.kind = .reference) (h2 : op.kind = .openParen) {qs : List Tok}
    (hq : fnParams qs = .ok (ps, r)) (hb : parseToks F true r = .ok (body, r'')) : parseItems F (n + 1) (t :: nm :: op :: qs) =
      match parseItems F n r'' with
      | .error e => .error e
      | .ok is => .ok (.fn nm.s ps body :: is) := by
  rw [items_cons, ht]
  simp only [h1, h2, hq, hb, ne_eq, not_true_eq_false, if_false]

theorem items_def_fn_err {n : Nat} {t nm op : Tok} {ps r e} (ht : t.kind = .fnDef) (h1 : nm.kind = .reference) (h2 : op.kind = .openParen) {qs : List Tok}
    (hq : fnParams qs = .ok (ps, r)) (hb : parseToks F true r = .error e) : parseItems F (n + 1) (t :: nm :: op :: qs) = .error (.expr e) := by
  rw [items_cons, ht]
  simp only [h1, h2, hq, hb, ne_eq, not_true_eq_false, if_false]

theorem items_def_var {n : Nat} {t a : Tok} {r v r'} (ht : t.kind = .reference) (h1 : a.kind = .varAssign)
    (hb : parseToks F true r = .ok (v, r')) : parseItems F (n + 1) (t :: a :: r) =
      match parseItems F n r' with
      | .error e => .error e
      | .ok is => .ok (.var t.s v :: is) := by
  rw [items_cons, ht]
  simp only [h1, hb, ne_eq, not_true_eq_false, if_false]

theorem items_def_var_err {n : Nat} {t a : Tok} {r e} (ht : t.kind = .reference) (h1 : a.kind = .varAssign)
    (hb : parseToks F true r = .error e) : parseItems F (n + 1) (t :: a :: r) = .error (.expr e) := by
  rw [items_cons, ht]
  simp only [h1, hb, ne_eq, not_true_eq_false, if_false]

theorem one_expr : parseToks F true [oneTok] = .ok (.int false none 1, []) := by rfl

theorem items_blamed (n : Nat) {ts rest : List Tok} {e : CErr} (h : parseItems F n ts = .error e) (hp : e.place = some rest) :
    ∃ us comp, ts = us ++ rest ∧ (us = [] → comp = []) ∧ CBlamed F us rest comp := by
  induction n generalizing ts rest e with
  | zero => cases h; cases hp
  | succ n ih =>
    cases ts with
    | nil => cases h
    | cons t ts =>
      have hnil : ∀ {us rest comp : List Tok}, CBlamed F (t :: us) rest comp → t :: ts = t :: us ++ rest → 
          ∃ us comp, t :: ts = us ++ rest ∧ (us = [] → comp = []) ∧ CBlamed F us rest comp := fun hb e => ⟨_, _, e, fun h => (by cases h), hb⟩
      cases hk : t.kind with
      | fnDef =>
        cases ts with
        | nil =>
          rw [items_cons, hk] at h
          cases h; cases hp
          refine hnil (us := []) (comp := [nameTok, openTok, closeTok, oneTok]) ⟨fun t post e => (by cases e), .inl ⟨2, [.fn ['x'] [] (.int false none 1)], ?_⟩⟩ rfl
          rw [List.cons_append, List.nil_append, items_def_fn (ps := []) (r := [oneTok]) hk rfl rfl (by rfl) one_expr]
          rfl
        | cons nm ts =>
          by_cases hnm : nm.kind = .reference
          · cases ts with
            | nil =>
              rw [items_cons, hk] at h
              simp only [hnm, ne_eq, not_true_eq_false, if_false] at h
              cases h; cases hp
              refine hnil (us := [nm]) (comp := [openTok, closeTok, oneTok]) ⟨fun t post e => (by cases e), .inl ⟨2, [.fn nm.s [] (.int false none 1)], ?_⟩⟩ rfl
              rw [List.cons_append, List.cons_append, List.nil_append, items_def_fn (ps := []) (r := [oneTok]) hk hnm rfl (by rfl) one_expr]
              rfl
            | cons op r =>
              by_cases hop : op.kind = .openParen
              · cases hq : fnParams r with
                | error q =>
                  rw [items_cons, hk] at h
                  simp only [hnm, hop, hq, ne_eq, not_true_eq_false, if_false] at h
                  cases h; cases hp
                  obtain ⟨us, rfl, h1, ps, h2⟩ := fnParams_err hq
                  refine hnil (us := nm :: op :: us) (comp := [closeTok, oneTok]) ⟨fun t' post e post' => ⟨1, .at .expectedParams (t' :: post'), ?_, rfl⟩, .inl ⟨2, [.fn nm.s ps (.int false none 1)], ?_⟩⟩ rfl
                  · rw [List.cons_append, List.cons_append, List.cons_append, items_cons, hk]
                    simp only [hnm, hop, h1 t' post e post', ne_eq, not_true_eq_false, if_false]
                  · rw [List.cons_append, List.cons_append, List.cons_append, items_def_fn hk hnm hop (h2 [oneTok]) one_expr]
                    rfl
                | ok x =>
                  obtain ⟨ps, r'⟩ := x
                  obtain ⟨qs, rfl, -, hq'⟩ := fnParams_ok hq
                  cases hb : parseToks F true r' with
                  | error q =>
                    rw [items_def_fn_err hk hnm hop hq hb] at h
                    cases h
                    obtain ⟨us, comp, rfl, hc⟩ := expr_blamed (pre := t :: nm :: op :: qs) hb hp
                      (fun r a hr => ⟨2, _, by
                        rw [List.cons_append, List.cons_append, List.cons_append, items_def_fn hk hnm hop (hq' r) hr]; rfl⟩)
                      (fun r e hr => ⟨1, by rw [List.cons_append, List.cons_append, List.cons_append, items_def_fn_err hk hnm hop (hq' r) hr]⟩)
                    exact hnil (us := nm :: op :: qs ++ us) hc (by simp)
                  | ok x =>
                    obtain ⟨body, r''⟩ := x
                    rw [items_def_fn hk hnm hop hq hb] at h
                    cases hi : parseItems F n r'' with
                    | ok is => rw [hi] at h; cases h
                    | error e' =>
                      rw [hi] at h; cases h
                      obtain ⟨vs, comp, rfl, hc, hcb⟩ := ih hi hp
                      obtain ⟨bs, rfl, -, hb'⟩ := toks_ok hb
                      have hsame : ∀ k, (∃ t post, rest = t :: post ∧ ∃ post', k = vs ++ t :: post') ∨ k = vs ++ comp → Same (vs ++ rest) k := by
                        rintro k (⟨t', post, rfl, post', rfl⟩ | rfl)
                        · cases vs <;> exact .inl rfl
                        · cases vs with
                          | nil => rw [hc rfl]; exact .inr (by rintro t ⟨⟩)
                          | cons v vs => exact .inl rfl
                      refine hnil (us := nm :: op :: qs ++ bs ++ vs) (comp := comp) ?_ (by simp)
                      have := more_blamed (us := t :: nm :: op :: (qs ++ bs)) hcb (fun is => .fn nm.s ps body :: is)
                        (fun k n is hk' hi' => ⟨n + 1, by
                          rw [List.cons_append, List.cons_append, List.cons_append, List.append_assoc,
                            items_def_fn hk hnm hop (hq' (bs ++ k)) (hb' k (hsame k hk')), hi']⟩)
                        (fun k n is hk' hi' => ⟨n + 1, by
                          rw [List.cons_append, List.cons_append, List.cons_append, List.append_assoc,
                            items_def_fn hk hnm hop (hq' (bs ++ k)) (hb' k (hsame k hk')), hi']⟩)
                      simpa using this
              · rw [items_cons, hk] at h
                simp only [hnm, hop, ne_eq, not_true_eq_false, if_false, not_false_eq_true, if_true] at h
                cases h; cases hp
                refine hnil (us := [nm]) (comp := [openTok, closeTok, oneTok]) ⟨fun t' post e post' => ⟨1, .at .expectedOpen (t' :: post'), ?_, rfl⟩,
                  .inl ⟨2, [.fn nm.s [] (.int false none 1)], ?_⟩⟩ rfl
                · cases e
                  rw [List.cons_append, List.cons_append, List.nil_append, items_cons, hk]
                  simp only [hnm, hop, ne_eq, not_true_eq_false, if_false, not_false_eq_true, if_true]
                · rw [List.cons_append, List.cons_append, List.nil_append, items_def_fn (ps := []) (r := [oneTok]) hk hnm rfl (by rfl) one_expr]
                  rfl
          · have he : e = .at .expectedName (nm :: ts) := by
              rw [items_cons, hk] at h
              cases ts <;> simp only [hnm, ne_eq, not_false_eq_true, if_true] at h <;> (cases h; rfl)
            subst he; cases hp
            refine hnil (us := []) (comp := [nameTok, openTok, closeTok, oneTok]) ⟨fun t' post e post' => ⟨1, .at .expectedName (t' :: post'), ?_, rfl⟩,
              .inl ⟨2, [.fn ['x'] [] (.int false none 1)], ?_⟩⟩ rfl
            · cases e
              rw [List.cons_append, List.nil_append, items_cons, hk]
              cases post' <;> simp only [hnm, ne_eq, not_false_eq_true, if_true]
            · rw [List.cons_append, List.nil_append, items_def_fn (ps := []) (r := [oneTok]) hk rfl rfl (by rfl) one_expr]
              rfl
      | useModule =>
        cases ts with
        | nil => rw [items_cons, hk] at h; cases h
        | cons m r =>
          have hstep : ∀ n k, parseItems F (n + 1) (t :: m :: k) = match parseItems F n k with
              | .error e => .error e
              | .ok is => .ok (.use (modulePath m.s) :: is) := by
            intro n k; rw [items_cons, hk]
          rw [hstep] at h
          cases hi : parseItems F n r with
          | ok is => rw [hi] at h; cases h
          | error e' =>
            rw [hi] at h; cases h
            obtain ⟨vs, comp, rfl, hc, hcb⟩ := ih hi hp
            refine hnil (us := m :: vs) (comp := comp) ?_ rfl
            exact more_blamed (us := [t, m]) hcb (fun is => .use (modulePath m.s) :: is)
              (fun k n is _ hi' => ⟨n + 1, by rw [List.cons_append, List.cons_append, List.nil_append, hstep, hi']⟩)
              (fun k n is _ hi' => ⟨n + 1, by rw [List.cons_append, List.cons_append, List.nil_append, hstep, hi']⟩)
      | reference =>
        cases ts with
        | nil =>
          rw [items_cons, hk] at h
          cases h; cases hp
          refine hnil (us := []) (comp := [assignTok, oneTok]) ⟨fun t post e => (by cases e), .inl ⟨2, [.var t.s (.int false none 1)], ?_⟩⟩ rfl
          rw [List.cons_append, List.nil_append, items_def_var hk rfl one_expr]
          rfl
        | cons a r =>
          by_cases ha : a.kind = .varAssign
          · cases hb : parseToks F true r with
            | error q =>
              rw [items_def_var_err hk ha hb] at h
              cases h
              obtain ⟨us, comp, rfl, hc⟩ := expr_blamed (pre := [t, a]) hb hp
                (fun r a' hr => ⟨2, _, by rw [List.cons_append, List.cons_append, List.nil_append, items_def_var hk ha hr]; rfl⟩)
                (fun r e hr => ⟨1, by rw [List.cons_append, List.cons_append, List.nil_append, items_def_var_err hk ha hr]⟩)
              exact hnil (us := a :: us) hc rfl
            | ok x =>
              obtain ⟨v, r'⟩ := x
              rw [items_def_var hk ha hb] at h
              cases hi : parseItems F n r' with
              | ok is => rw [hi] at h; cases h
              | error e' =>
                rw [hi] at h; cases h
                obtain ⟨vs, comp, rfl, hc, hcb⟩ := ih hi hp
                obtain ⟨bs, rfl, -, hb'⟩ := toks_ok hb
                have hsame : ∀ k, (∃ t post, rest = t :: post ∧ ∃ post', k = vs ++ t :: post') ∨ k = vs ++ comp → Same (vs ++ rest) k := by
                  rintro k (⟨t', post, rfl, post', rfl⟩ | rfl)
                  · cases vs <;> exact .inl rfl
                  · cases vs with
                    | nil => rw [hc rfl]; exact .inr (by rintro t ⟨⟩)
                    | cons v vs => exact .inl rfl
                refine hnil (us := a :: bs ++ vs) (comp := comp) ?_ (by simp)
                have := more_blamed (us := t :: a :: bs) hcb (fun is => .var t.s v :: is)
                  (fun k n is hk' hi' => ⟨n + 1, by rw [List.cons_append, List.cons_append, items_def_var hk ha (hb' k (hsame k hk')), hi']⟩)
                  (fun k n is hk' hi' => ⟨n + 1, by rw [List.cons_append, List.cons_append, items_def_var hk ha (hb' k (hsame k hk')), hi']⟩)
                simpa using this
          · rw [items_cons, hk] at h
            simp only [ha, ne_eq, not_false_eq_true, if_true] at h
            cases h; cases hp
            refine hnil (us := []) (comp := [assignTok, oneTok]) ⟨fun t' post e post' => ⟨1, .at .expectedAssign (t' :: post'), ?_, rfl⟩,
              .inl ⟨2, [.var t.s (.int false none 1)], ?_⟩⟩ rfl
            · cases e
              rw [List.cons_append, List.nil_append, items_cons, hk]
              simp only [ha, ne_eq, not_false_eq_true, if_true]
            · rw [List.cons_append, List.nil_append, items_def_var hk rfl one_expr]
              rfl
      | eof => rw [items_cons, hk] at h; cases h
      | _ =>
        rw [items_cons, hk] at h
        cases h; cases hp
        refine ⟨[], [], rfl, fun _ => rfl, fun t' post e post' => ⟨1, .at .expectedDefinition (t' :: post'), ?_, rfl⟩, .inl ⟨1, [], rfl⟩⟩
        cases e
        rw [List.nil_append, items_cons, hk]

/-! ### The fuel of the statements -/

theorem items_mono (n : Nat) : ∀ m ts r, parseItems F n ts = r → r ≠ .error .fuel → n ≤ m → parseItems F m ts = r := by
  induction n with
  | zero => intro m ts r h hr; exact absurd (h.symm.trans rfl) hr
  | succ n ih =>
    intro m ts r h hr hle
    obtain ⟨m, rfl⟩ : ∃ k, m = k + 1 := ⟨m - 1, by omega⟩
    have hle' : n ≤ m := by omega
    have same : ∀ ts, parseItems F n ts ≠ .error .fuel → parseItems F m ts = parseItems F n ts := fun ts hne => ih m ts _ rfl hne hle'
    cases ts with
    | nil => exact h
    | cons t ts =>
      subst h
      rw [items_cons] at hr ⊢
      rw [items_cons]
      cases hk : t.kind <;> simp only [hk] at hr ⊢
      case fnDef =>
        rcases ts with _ | ⟨nm, _ | ⟨op, r⟩⟩
        · rfl
        · rfl
        · by_cases h1 : nm.kind = .reference
          · by_cases h2 : op.kind = .openParen
            · simp only [h1, h2, ne_eq, not_true_eq_false, if_false] at hr ⊢
              cases hq : fnParams r with
              | error e => rfl
              | ok x =>
                obtain ⟨ps, r'⟩ := x
                simp only [hq] at hr ⊢
                cases hb : parseToks F true r' with
                | error e => rfl
                | ok x =>
                  obtain ⟨body, r''⟩ := x
                  simp only [hb] at hr ⊢
                  rw [same r'' (fun hf => hr (by rw [hf]))]
            · simp only [h1, h2, ne_eq, not_true_eq_false, if_false, not_false_eq_true, if_true]
          · simp only [h1, ne_eq, not_false_eq_true, if_true]
      case useModule =>
        cases ts with
        | nil => rfl
        | cons a r => simp only at hr ⊢; rw [same r (fun hf => hr (by rw [hf]))]
      case reference =>
        cases ts with
        | nil => rfl
        | cons a r =>
          by_cases h1 : a.kind = .varAssign
          · simp only [h1, ne_eq, not_true_eq_false, if_false] at hr ⊢
            cases hb : parseToks F true r with
            | error e => rfl
            | ok x =>
              obtain ⟨v, r'⟩ := x
              simp only [hb] at hr ⊢
              rw [same r' (fun hf => hr (by rw [hf]))]
          · simp only [h1, ne_eq, not_false_eq_true, if_true]

theorem items_ne_fuel (n : Nat) : ∀ ts : List Tok, ts.length < n → parseItems F n ts ≠ .error .fuel := by
  induction n with
  | zero => intro ts h; cases h
  | succ n ih =>
    intro ts hl
    cases ts with
    | nil => intro h; cases h
    | cons t ts =>
      rw [List.length_cons] at hl
      rw [items_cons]
      have next : ∀ ts' (f : List Item → List Item), ts'.length < n → (match parseItems F n ts' with | .error e => .error e | .ok is => .ok (f is)) ≠ (.error .fuel : Except CErr (List Item)) := by
        intro ts' f hl' hx
        have := ih ts' hl'
        cases hi : parseItems F n ts' with
        | ok is => rw [hi] at hx; cases hx
        | error e => rw [hi] at hx this; exact this hx
      cases hk : t.kind <;> simp only
      case fnDef =>
        rcases ts with _ | ⟨nm, _ | ⟨op, r⟩⟩
        · intro h; cases h
        · simp only; split <;> (intro h; cases h)
        · simp only
          split
          · intro h; cases h
          split
          · intro h; cases h
          cases hq : fnParams r with
          | error e => intro h; cases h
          | ok x =>
            obtain ⟨ps, r'⟩ := x
            simp only
            cases hb : parseToks F true r' with
            | error e => intro h; cases h
            | ok x =>
              obtain ⟨body, r''⟩ := x
              obtain ⟨qs, rfl, -, -⟩ := fnParams_ok hq
              obtain ⟨bs, rfl, -, -⟩ := toks_ok hb
              simp only [List.length_cons, List.length_append] at hl
              exact next r'' _ (by omega)
      case useModule =>
        cases ts with
        | nil => intro h; cases h
        | cons a r => simp only [List.length_cons] at hl; exact next r _ (by omega)
      case reference =>
        cases ts with
        | nil => intro h; cases h
        | cons a r =>
          simp only
          split
          · intro h; cases h
          cases hb : parseToks F true r with
          | error e => intro h; cases h
          | ok x =>
            obtain ⟨v, r'⟩ := x
            obtain ⟨bs, rfl, -, -⟩ := toks_ok hb
            simp only [List.length_cons, List.length_append] at hl
            exact next r' _ (by omega)
      all_goals (intro h; cases h)

/-- What `CodeSectionParser` reads from a list of tokens (src/parser/code_section_parser.rs:33-76 after the tokens are there). -/
def statements (F : F64) (ts : List Tok) : Except CErr (List Item) := parseItems F (ts.length + 1) ts

theorem statements_of {n : Nat} {ts : List Tok} {r} (h : parseItems F n ts = r) (hr : r ≠ .error .fuel) : statements F ts = r := by
  rcases Nat.le_total n (ts.length + 1) with hle | hle
  · exact items_mono n _ _ _ h hr hle
  · have := items_mono (F := F) (ts.length + 1) n ts _ rfl (items_ne_fuel _ _ (by omega)) hle
    unfold statements
    rw [← this, h]

/-- C87, code sections.  When reading the statements of a code section ends with an error reported at the tokens `rest`, for another reason than a sign before
something that is not a number, then the tokens before it can be continued to a complete list of statements (unless one of them is a sign before something that
is not a number), and however they are continued with the first token of `rest`, reading ends with an error reported at that same token. -/
theorem C87_code {ts rest : List Tok} {e : CErr} (h : statements F ts = .error e) (hp : e.place = some rest) :
    ∃ good, ts = good ++ rest ∧
      (∀ t post, rest = t :: post → ∀ post', ∃ e', statements F (good ++ t :: post') = .error e' ∧ e'.place = some (t :: post')) ∧
      ∃ more, (∃ is, statements F (good ++ more) = .ok is) ∨
        ∃ g s g', good = g ++ s :: g' ∧ statements F (good ++ more) = .error (.expr (.at .prefixNotNumber (s :: g' ++ more))) := by
  obtain ⟨us, comp, rfl, -, hb⟩ := items_blamed _ h hp
  refine ⟨us, rfl, fun t post e post' => ?_, comp, ?_⟩
  · obtain ⟨n, e', h1, h2⟩ := hb.sure t post e post'
    exact ⟨e', statements_of h1 (by intro h; cases h; cases h2), h2⟩
  · rcases hb.viable with ⟨n, is, h⟩ | ⟨n, g, s, g', e, h⟩
    · exact .inl ⟨is, statements_of h (by simp)⟩
    · exact .inr ⟨g, s, g', e, statements_of h (by simp)⟩

/-! ### Every error has a place -/

theorem no_lex (n : Nat) (x : LexErr) :
    (∀ bp ts, exprBp F single n bp ts ≠ .error (.lex x)) ∧ (∀ ts, prim F single n ts ≠ .error (.lex x)) ∧
    (∀ bp lhs ts, loop F single n bp lhs ts ≠ .error (.lex x)) ∧ (∀ ts, callArgs F single n ts ≠ .error (.lex x)) := by
  induction n with
  | zero => exact ⟨fun _ _ h => (nomatch h), fun _ h => (nomatch h), fun _ _ _ h => (nomatch h), fun _ h => (nomatch h)⟩
  | succ n ih =>
    obtain ⟨ihE, ihP, ihL, ihA⟩ := ih
    refine ⟨fun bp ts h => ?_, fun ts h => ?_, fun bp lhs ts h => ?_, fun ts h => ?_⟩
    · rw [exprBp] at h
      split at h
      · rename_i hp
        cases h
        exact ihP _ hp
      · exact ihL _ _ _ h
    · cases ts with
      | nil => rw [prim] at h; cases h
      | cons t ts =>
        rw [prim_cons] at h
        split at h
        · split at h
          · rename_i hE
            cases h
            exact ihE _ _ hE
          · cases h
          · split at h <;> cases h
        · split at h
          · rename_i hE
            cases h
            exact ihE _ _ hE
          · split at h <;> cases h
        · cases h
        · cases h
    · cases ts with
      | nil => rw [loop] at h; cases h
      | cons t ts =>
        rw [loop_cons] at h
        split at h
        · cases h
        · cases h
        · split at h
          · rename_i hA
            cases h
            exact ihA _ hA
          · exact ihL _ _ _ h
        · exact ihL _ _ _ h
        · split at h
          · rename_i hE
            cases h
            exact ihE _ _ hE
          · exact ihL _ _ _ h
    · rw [callArgs] at h
      split at h
      · cases h
      split at h
      · exact ihA _ h
      · split at h
        · rename_i hE
          cases h
          exact ihE _ _ hE
        · split at h
          · rename_i hA
            cases h
            exact ihA _ hA
          · cases h

/-- C87: every error of an expression is reported at a token or at the end of the input. -/
theorem C87_formula_place {ts : List Tok} {e : PErr} (h : parseToks F single ts = .error e) : ∃ m good rest, e = .at m rest ∧ ts = good ++ rest := by
  cases e with
  | lex x => exact absurd h ((no_lex _ x).1 _ _)
  | fuel => exact absurd h (parseToks_ne_fuel F single ts)
  | «at» m rest =>
    by_cases hm : m = .prefixNotNumber
    · subst hm
      obtain ⟨⟨good, hg⟩, -⟩ := C87_sign h
      exact ⟨_, good, rest, rfl, hg⟩
    · obtain ⟨good, hg, -⟩ := C87_formula h hm
      exact ⟨_, good, rest, rfl, hg⟩

theorem items_place (n : Nat) : ∀ ts e, parseItems F n ts = .error e → e ≠ .fuel →
    (∃ rest, e.place = some rest) ∨ ∃ good rest, e = .expr (.at .prefixNotNumber rest) ∧ ts = good ++ rest ∧ NotNumber F true rest := by
  have ex : ∀ (pre ts : List Tok) e, parseToks F true ts = .error e →
      (∃ rest, CErr.place (.expr e) = some rest) ∨ ∃ good rest, CErr.expr e = .expr (.at .prefixNotNumber rest) ∧ pre ++ ts = good ++ rest ∧ NotNumber F true rest := by
    intro pre ts e h
    obtain ⟨m, good, rest, rfl, rfl⟩ := C87_formula_place h
    by_cases hm : m = .prefixNotNumber
    · subst hm
      exact .inr ⟨pre ++ good, rest, rfl, by simp, (C87_sign h).2⟩
    · exact .inl ⟨rest, by simp [CErr.place, hm]⟩
  induction n with
  | zero => intro ts e h he; cases h; exact absurd rfl he
  | succ n ih =>
    intro ts e h he
    have next : ∀ (pre ts' : List Tok), parseItems F n ts' = .error e →
        (∃ rest, e.place = some rest) ∨ ∃ good rest, e = .expr (.at .prefixNotNumber rest) ∧ pre ++ ts' = good ++ rest ∧ NotNumber F true rest := by
      intro pre ts' h'
      rcases ih _ _ h' he with hl | ⟨good, rest, h1, rfl, h2⟩
      · exact .inl hl
      · exact .inr ⟨pre ++ good, rest, h1, by simp, h2⟩
    cases ts with
    | nil => cases h
    | cons t ts =>
      rw [items_cons] at h
      cases hk : t.kind <;> simp only [hk] at h
      case fnDef =>
        rcases ts with _ | ⟨nm, _ | ⟨op, r⟩⟩
        · cases h; exact .inl ⟨_, rfl⟩
        · simp only at h; split at h <;> (cases h; exact .inl ⟨_, rfl⟩)
        · simp only at h
          split at h
          · cases h; exact .inl ⟨_, rfl⟩
          split at h
          · cases h; exact .inl ⟨_, rfl⟩
          cases hq : fnParams r with
          | error q => rw [hq] at h; cases h; exact .inl ⟨_, rfl⟩
          | ok x =>
            obtain ⟨ps, r'⟩ := x
            simp only [hq] at h
            obtain ⟨qs, rfl, -, -⟩ := fnParams_ok hq
            cases hb : parseToks F true r' with
            | error q => rw [hb] at h; cases h; exact ex (t :: nm :: op :: qs) _ _ hb
            | ok x =>
              obtain ⟨body, r''⟩ := x
              simp only [hb] at h
              obtain ⟨bs, rfl, -, -⟩ := toks_ok hb
              cases hi : parseItems F n r'' with
              | ok is => rw [hi] at h; cases h
              | error q => rw [hi] at h; cases h; simpa using next (t :: nm :: op :: (qs ++ bs)) _ hi
      case useModule =>
        cases ts with
        | nil => cases h
        | cons a r =>
          simp only at h
          cases hi : parseItems F n r with
          | ok is => rw [hi] at h; cases h
          | error q => rw [hi] at h; cases h; exact next [t, a] _ hi
      case reference =>
        cases ts with
        | nil => cases h; exact .inl ⟨_, rfl⟩
        | cons a r =>
          simp only at h
          split at h
          · cases h; exact .inl ⟨_, rfl⟩
          cases hb : parseToks F true r with
          | error q => rw [hb] at h; cases h; exact ex [t, a] _ _ hb
          | ok x =>
            obtain ⟨v, r'⟩ := x
            simp only [hb] at h
            obtain ⟨bs, rfl, -, -⟩ := toks_ok hb
            cases hi : parseItems F n r' with
            | ok is => rw [hi] at h; cases h
            | error q => rw [hi] at h; cases h; simpa using next (t :: a :: bs) _ hi
      case eof => cases h
      all_goals (cases h; exact .inl ⟨_, rfl⟩)

/-- C87: every error of a code section has a place (to which `C87_code` applies) or is the error about a sign, reported at a sign before something that is not a
number. -/
theorem C87_code_place {ts : List Tok} {e : CErr} (h : statements F ts = .error e) :
    (∃ rest, e.place = some rest) ∨ ∃ good rest, e = .expr (.at .prefixNotNumber rest) ∧ ts = good ++ rest ∧ NotNumber F true rest :=
  items_place _ _ _ h (by rintro rfl; exact items_ne_fuel _ _ (Nat.lt_succ_self _) h)

/-- `parseCode` reads the statements of the tokens of its input. -/
theorem parseCode_statements (u : Uni) (input : Text) {pts : List PTok} {p} (hl : lex u input = .ok (pts, p)) {e : CErr}
    (h : parseCode u F input = .error e) : statements F (pts.map (·.tok)) = .error e := by
  rw [parseCode, hl] at h
  simp only at h
  unfold statements
  rw [List.length_map]
  cases hi : parseItems F (pts.length + 1) (pts.map (·.tok)) with
  | ok is => rw [hi] at h; cases h
  | error e' => rw [hi] at h; cases h; rfl

/-- `(1 2`: the error is at `2`; `(1` can be completed. -/
example : parseToks F false [⟨.openParen, ['(']⟩, ⟨.integer, ['1']⟩, ⟨.integer, ['2']⟩] = .error (.at (.unexpected .integer) [⟨.integer, ['2']⟩]) := by rfl
/-- `f(1,`: the error is at the end of the input. -/
example : parseToks F false [⟨.reference, ['f']⟩, ⟨.openParen, ['(']⟩, ⟨.integer, ['1']⟩, ⟨.comma, [',']⟩] = .error (.at .expectedExpr []) := by rfl
/-- `x := 1 fn f 2`: the error is at `2`. -/
example : statements F [⟨.reference, ['x']⟩, ⟨.varAssign, [':', '=']⟩, ⟨.integer, ['1']⟩, ⟨.fnDef, ['f', 'n']⟩, ⟨.reference, ['f']⟩, ⟨.integer, ['2']⟩]
    = .error (.at .expectedOpen [⟨.integer, ['2']⟩]) := by rfl
/-- `x := -a`: the error is at `-`. -/
example : statements F [⟨.reference, ['x']⟩, ⟨.varAssign, [':', '=']⟩, ⟨.operator, ['-']⟩, ⟨.reference, ['a']⟩]
    = .error (.expr (.at .prefixNotNumber [⟨.operator, ['-']⟩, ⟨.reference, ['a']⟩])) := by rfl

/-- Why the exception for signs is there: in `-(a %` the error is at `%`, but the tokens before it already cannot be completed because of the sign: every
continuation is an error.  Here two of them. -/
example : parseToks F false [⟨.operator, ['-']⟩, ⟨.openParen, ['(']⟩, ⟨.reference, ['a']⟩, ⟨.operator, ['%']⟩] =
      .error (.at .notPercentable [⟨.operator, ['%']⟩]) ∧
    parseToks F false [⟨.operator, ['-']⟩, ⟨.openParen, ['(']⟩, ⟨.reference, ['a']⟩, ⟨.closeParen, [')']⟩] =
      .error (.at .prefixNotNumber [⟨.operator, ['-']⟩, ⟨.openParen, ['(']⟩, ⟨.reference, ['a']⟩, ⟨.closeParen, [')']⟩]) := ⟨by rfl, by rfl⟩

end
end Verif.Parser
