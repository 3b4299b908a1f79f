import Verif.Date.Props
import Verif.Target.ExcelOptions
import Verif.Cell.Read3
import Verif.Cell.Props
/-
C83: the dates of validations are days, and so writing a workbook does not panic at them.
-/
namespace Verif.Date
open Verif.Ast Verif.Parser Verif.Cell Verif.Target
open Verif.Sheet (Sheet Out EvalCells EvalRow EvalAll EvalRows EvalSheet evalFills expandLoop)

/-! ## Specification -/

/-- The environment whose dates are read and written by src/date_time. -/
def Calendar (E : Env) : Prop := ∀ t, E.date t = (tokenInto t).map DateTime.text

/-- The value of a date as written by src/date_time/display.rs: the inverse of `DateTime.text`. -/
def denotes (t : Text) : DateVal :=
  match tokenInto t with
  | some (.date d) => .date (dayNumber d - dayNumber epoch)
  | some (.dateAndTime _ _) => .dateAndTime
  | _ => .time

/-- The dates of a validation. -/
def validationDates : Validation → List Text
  | .dateAfter d | .dateBefore d | .dateEqualTo d | .dateOnOrAfter d | .dateOnOrBefore d => [d]
  | .dateBetween d e | .dateNotBetween d e => [d, e]
  | _ => []

/-- The text is a day of the calendar, and denotes the number of that day. -/
def IsDay (t : Text) : Prop := ∃ d : Day, d.Real ∧ t = dayText d ∧ denotes t = .date (dayNumber d - dayNumber epoch)

/-- The validation of the options, if any, has days as dates. -/
def OptsDays (o : Opts) : Prop := ∀ v, o.validation = some v → ∀ t ∈ validationDates v, IsDay t

/-- So have the options of the row and of all its cells. -/
def RowDays (r : Row) : Prop := OptsDays r.opts ∧ ∀ c ∈ r.cells, OptsDays c.opts

/-! ## Proofs -/

/-- All results of the step are good. -/
def Post {α : Type} (p : P α) (good : α → Prop) : Prop := ∀ l a l', p l = .ok a l' → good a

theorem Post.bind {α β : Type} {m : P α} {f : α → P β} {g : α → Prop} {g' : β → Prop} (hm : Post m g) (hf : ∀ a, g a → Post (f a) g') : Post (m >>= f) g' := by
  intro l b l' h
  rw [bind_apply] at h
  cases hml : m l with
  | panic => rw [hml] at h; cases h
  | err o => rw [hml] at h; cases h
  | ok a l1 => rw [hml] at h; exact hf a (hm _ _ _ hml) _ _ _ h

theorem Post.trivial {α : Type} (m : P α) : Post m fun _ => True := fun _ _ _ _ => True.intro

theorem Post.pure {α : Type} {a : α} {g : α → Prop} (h : g a) : Post (pure a : P α) g := by
  intro l b l' e; cases e; exact h

theorem Post.tokErr {α : Type} {npos : Nat} {t : CTok} {g : α → Prop} : Post (tokErr npos t : P α) g := by
  intro l b l' e
  simp only [Cell.tokErr, failAt] at e
  split at e <;> cases e

theorem Post.unknown {α : Type} {npos : Nat} {g : α → Prop} : Post (unknown npos : P α) g := by
  intro l b l' e
  simp only [Cell.unknown, failAt] at e
  split at e <;> cases e

theorem Post.seq {α β : Type} {m : P α} {f : α → P β} {g : β → Prop} (hf : ∀ a, Post (f a) g) : Post (m >>= f) g :=
  Post.bind (Post.trivial m) fun a _ => hf a

theorem mDigits_some {u : Uni} {lo hi : Nat} {p m r : Text} (h : mDigits u lo hi p = some (m, r)) :
    lo ≤ m.length ∧ m.length ≤ hi ∧ ∀ c ∈ m, u.isD c = true := by
  simp only [mDigits] at h
  split at h
  · rename_i h'
    cases h
    refine ⟨h', ?_, fun c hc => takeWhile_imp hc⟩
    exact Nat.le_trans (List.takeWhile_prefix _).length_le (List.length_take_le _ _)
  · cases h

theorem mSeq_some {a b : Text → Match} {p m r : Text} (h : mSeq a b p = some (m, r)) :
    ∃ s t q, a p = some (s, q) ∧ b q = some (t, r) ∧ m = s ++ t := by
  simp only [mSeq] at h
  split at h
  · cases h
  · rename_i s q e
    cases hb : b q with
    | none => rw [hb] at h; cases h
    | some x => rw [hb] at h; cases h; exact ⟨s, x.1, q, e, hb, rfl⟩

theorem mLit_some {l p m r : Text} (h : mLit l p = some (m, r)) : m = l := by
  simp only [mLit] at h
  split at h
  · cases h; rfl
  · cases h

theorem mDate_token {u : Uni} {p m r : Text} (h : mDate u p = some (m, r)) : DateToken u m := by
  have key : ∀ {l1 h1 l2 h2 l3 h3 : Nat} {sep : Char} {p m r : Text}, mSeq (mDigits u l1 h1) (mSeq (mLit [sep]) (mSeq (mDigits u l2 h2) (mSeq (mLit [sep]) (mDigits u l3 h3)))) p = some (m, r) →
      ∃ a b c, m = a ++ sep :: (b ++ sep :: c) ∧ (l1 ≤ a.length ∧ a.length ≤ h1) ∧ (l2 ≤ b.length ∧ b.length ≤ h2) ∧ (l3 ≤ c.length ∧ c.length ≤ h3) ∧
        ∀ x ∈ a ++ b ++ c, u.isD x = true := by
    intro l1 h1 l2 h2 l3 h3 sep p m r h
    obtain ⟨a, t1, q1, ha, k1, e1⟩ := mSeq_some h
    obtain ⟨s, t2, q2, hs, k2, e2⟩ := mSeq_some k1
    obtain ⟨b, t3, q3, hb, k3, e3⟩ := mSeq_some k2
    obtain ⟨s', c, q4, hs', hc, e4⟩ := mSeq_some k3
    subst e4 e3 e2 e1
    obtain rfl := mLit_some hs
    obtain rfl := mLit_some hs'
    have A := mDigits_some ha
    have B := mDigits_some hb
    have C := mDigits_some hc
    refine ⟨a, b, c, rfl, ⟨A.1, A.2.1⟩, ⟨B.1, B.2.1⟩, ⟨C.1, C.2.1⟩, fun x hx => ?_⟩
    rcases List.mem_append.mp hx with hx | hx
    · rcases List.mem_append.mp hx with hx | hx
      · exact A.2.2 x hx
      · exact B.2.2 x hx
    · exact C.2.2 x hx
  simp only [mDate] at h
  split at h
  · rename_i x e
    cases h
    obtain ⟨a, b, c, rfl, ha, hb, hc, h⟩ := key e
    exact .iso (by omega) (by omega) (by omega) h
  · obtain ⟨a, b, c, rfl, ha, hb, hc, h⟩ := key h
    exact .us ha hb hc h

theorem DateToken.solid {u : Uni} {t : Text} (h : DateToken u t) : ∀ c ∈ t, isWs c = false := by
  have hw : ∀ {a b c : Text} {s : Char}, (∀ x ∈ a ++ b ++ c, u.isD x = true) → isWs s = false → ∀ x ∈ a ++ s :: (b ++ s :: c), isWs x = false := by
    intro a b c s h hs x hx
    have hf := fig_of h
    simp only [List.mem_append, List.mem_cons] at hx
    rcases hx with hx | rfl | hx | rfl | hx
    · exact (hf x (by simp [hx])).1
    · exact hs
    · exact (hf x (by simp [hx])).1
    · exact hs
    · exact (hf x (by simp [hx])).1
  cases h with
  | iso ha hb hc h => exact hw h rfl
  | us ha hb hc h => exact hw h rfl

theorem maybeDate {u : Uni} : Post (maybeTakeRegex (mDate u)) fun o => ∀ t, o = some t → DateToken u t.s := by
  intro l a l' h t ht
  subst ht
  simp only [maybeTakeRegex] at h
  split at h
  · cases h
  · rename_i blanks full rest e
    have ht : DateToken u (trim full) := by
      simp only [tryMatch] at e
      split at e
      · rename_i s r e'
        cases e
        have := mDate_token e'
        rw [trim_solid ((fun c hc => by have := takeWhile_imp hc; simp only [isBlank, Bool.and_eq_true] at this; exact this.1.1)) this.solid]
        exact this
      · cases e
    have : Post (do moveInput blanks; let t ← matchToken (trim full); moveInput (byteLen (trim full)); pure (some t) : P (Option CTok)) fun o => ∀ t, o = some t → t.s = trim full := by
      refine Post.seq fun _ => Post.bind (g := fun t => t.s = trim full) ?_ fun t ht => Post.seq fun _ => Post.pure ?_
      · intro l a l' h; cases h; rfl
      · intro t' e; cases e; exact ht
    rw [this _ _ _ h t rfl]
    exact ht

theorem takeDate_post {E : Env} {npos : Nat} : Post (takeDate E npos) fun t => DateToken E.uni t.s := by
  refine Post.seq fun _ => Post.bind maybeDate fun o ho => ?_
  cases o with
  | some t => exact Post.pure (ho t rfl)
  | none => exact Post.unknown

theorem isDay_of {E : Env} (hE : Calendar E) {t d : Text} (ht : DateToken E.uni t) (h : E.date t = some d) : IsDay d := by
  rw [hE, Option.map_eq_some_iff] at h
  obtain ⟨v, hv, rfl⟩ := h
  obtain ⟨d, rfl, hw, hr⟩ := (C83_read ht _).mp hv
  refine ⟨d, hr, rfl, ?_⟩
  simp only [denotes, DateTime.text, (C83_written hw hr).2]

theorem intoDate_post {E : Env} (hE : Calendar E) {npos : Nat} {t : CTok} (ht : DateToken E.uni t.s) : Post (intoDate E npos t) IsDay := by
  simp only [intoDate]
  split
  · rename_i d e; exact Post.pure (isDay_of hE ht e)
  · exact Post.tokErr

theorem delayed_post {α : Type} {npos : Nat} {v : P α} {g : α → Prop} (h : Post v g) : Post (delayed npos v) g := by
  intro l a l' e
  simp only [delayed] at e
  split at e
  · cases e
  · rename_i b l1 e1
    exact Post.seq (m := take npos ")".toList) (fun _ => Post.pure (h _ _ _ e1)) _ _ _ e
  · split at e <;> cases e

theorem oneDate_post {E : Env} (hE : Calendar E) {npos : Nat} : Post (oneDate E npos) IsDay :=
  Post.seq fun _ => Post.bind takeDate_post fun _ ht => delayed_post (intoDate_post hE ht)

theorem twoDates_post {E : Env} (hE : Calendar E) {npos : Nat} : Post (twoDates E npos) fun p => IsDay p.1 ∧ IsDay p.2 :=
  Post.seq fun _ => Post.bind takeDate_post fun _ hs => Post.bind (intoDate_post hE hs) fun _ hm =>
    Post.bind takeDate_post fun _ ht => Post.bind (intoDate_post hE ht) fun _ hn => Post.seq fun _ => Post.pure ⟨hm, hn⟩

/-- The dates of the validation are days. -/
def ValDays (v : Validation) : Prop := ∀ t ∈ validationDates v, IsDay t

theorem valDays_nil {v : Validation} (h : validationDates v = []) : ValDays v := by intro t ht; rw [h] at ht; cases ht

theorem validator_post {E : Env} (hE : Calendar E) {npos : Nat} (k : VKind) : Post (validator E npos k) ValDays := by
  have one : ∀ {f : Text → Validation}, (∀ d, validationDates (f d) = [d]) → Post (do let d ← oneDate E npos; pure (f d) : P Validation) ValDays := by
    intro f hf
    refine Post.bind (oneDate_post hE) fun d hd => Post.pure ?_
    intro t ht; rw [hf, List.mem_singleton] at ht; subst ht; exact hd
  have two : ∀ {f : Text → Text → Validation}, (∀ d e, validationDates (f d e) = [d, e]) → Post (do let (a, b) ← twoDates E npos; pure (f a b) : P Validation) ValDays := by
    intro f hf
    refine Post.bind (twoDates_post hE) fun p hp => Post.pure ?_
    intro t ht; rw [hf] at ht
    simp only [List.mem_cons, List.not_mem_nil, or_false] at ht
    rcases ht with rfl | rfl
    · exact hp.1
    · exact hp.2
  cases k
  case dateAfter | dateBefore | dateEqualTo | dateOnOrAfter | dateOnOrBefore => exact one fun _ => rfl
  case dateBetween | dateNotBetween => exact two fun _ _ => rfl
  case dateIsValid | email | url => exact Post.pure (valDays_nil rfl)
  all_goals exact Post.seq fun _ => Post.pure (valDays_nil rfl)

theorem takeValidation_post {E : Env} (hE : Calendar E) {npos : Nat} : Post (takeValidation E npos) ValDays := by
  refine Post.seq fun name => ?_
  try dsimp only
  split
  · exact validator_post hE _
  · exact Post.tokErr

theorem optionUpdate_post {E : Env} (hE : Calendar E) {npos : Nat} (k : OKind) : Post (optionUpdate E npos k) fun f => ∀ o, OptsDays o → OptsDays (f o) := by
  cases k
  case validate =>
    refine Post.bind (takeValidation_post hE) fun v hv => Post.pure fun o _ => ?_
    intro v' e; cases e; exact hv
  case lock | fill => exact Post.pure fun o ho => ho
  case fontSize =>
    refine Post.seq fun _ => Post.seq fun t => ?_
    try dsimp only
    split
    · exact Post.pure fun o ho => ho
    · exact Post.tokErr
  all_goals exact Post.seq fun _ => Post.pure fun o ho => ho

/-- The options of the row and the cell that are worked on. -/
def TargetDays (t : Target) : Prop := OptsDays t.row.opts ∧ OptsDays t.cell

theorem option_post {E : Env} (hE : Calendar E) {npos : Nat} {isRow : Bool} {y : Nat} {t : Target} (ht : TargetDays t) :
    Post (option E npos isRow y t) TargetDays := by
  refine Post.seq fun name => ?_
  try dsimp only
  split
  · exact Post.tokErr
  · simp only [fillOption]
    split
    · refine Post.seq fun o => ?_
      cases o with
      | none => exact Post.pure ht
      | some _ =>
        refine Post.seq fun a => ?_
        try dsimp only
        split
        · exact Post.pure ht
        · exact Post.tokErr
    · exact Post.tokErr
  · refine Post.bind (optionUpdate_post hE _) fun f hf => Post.pure ?_
    simp only [Target.assign]
    split
    · exact ⟨hf _ ht.1, ht.2⟩
    · exact ⟨ht.1, hf _ ht.2⟩

theorem optionsLoop_post {E : Env} (hE : Calendar E) {npos : Nat} {isRow : Bool} {y : Nat} (n : Nat) {t : Target} (ht : TargetDays t) :
    Post (optionsLoop E npos isRow y n t) TargetDays := by
  induction n generalizing t with
  | zero => intro l a l' h; cases h
  | succ n ih =>
    refine Post.bind (option_post hE ht) fun t ht => Post.seq fun o => ?_
    cases o with
    | some _ => exact ih ht
    | none =>
      refine Post.seq fun o => ?_
      cases o with
      | some _ => exact Post.pure ht
      | none => exact ih ht

theorem listsLoop_post {E : Env} (hE : Calendar E) {npos x y : Nat} (n : Nat) {row : RowS} {parsed : Option Opts} (hr : OptsDays row.opts)
    (hp : ∀ o, parsed = some o → OptsDays o) : Post (listsLoop E npos x y n row parsed) fun r => OptsDays r.1.opts ∧ OptsDays r.2.1 := by
  induction n generalizing row parsed with
  | zero => intro l a l' h; cases h
  | succ n ih =>
    refine Post.seq fun o => ?_
    cases o with
    | none =>
      intro l a l' h
      cases h
      refine ⟨hr, ?_⟩
      cases parsed with
      | none => exact hr
      | some o => exact hp o rfl
    | some p =>
      obtain ⟨isRow, tok⟩ := p
      try dsimp only
      split
      · exact Post.tokErr
      · split
        · exact Post.tokErr
        · refine Post.bind (g := TargetDays) ?_ fun t ht => ih ht.1 ?_
          · intro l a l' h
            exact optionsLoop_post hE _ ⟨hr, hr⟩ _ _ _ h
          · intro o e
            split at e
            · exact hp o e
            · cases e; exact ht.2

theorem cellsLoop_days {E : Env} (hE : Calendar E) {fs : List Csvp.Field} {row row' : RowS} {cs : List Cell} (hr : OptsDays row.opts)
    (h : cellsLoop E row fs = .ok (row', cs)) : OptsDays row'.opts ∧ ∀ c ∈ cs, OptsDays c.opts := by
  induction fs generalizing row cs with
  | nil => cases h; exact ⟨hr, fun _ hc => by cases hc⟩
  | cons f fs ih =>
    simp only [cellsLoop] at h
    split at h
    · cases h
    · rename_i row1 c e1
      split at h
      · cases h
      · rename_i row2 cs' e2
        cases h
        simp only [cellParse] at e1
        split at e1
        · cases e1
        · cases e1
        · rename_i r1 opts value l e3
          split at e1
          · cases e1
          · rename_i a e4
            cases e1
            have h1 := listsLoop_post hE _ hr (fun _ e => by cases e) _ _ _ e3
            have h2 := ih h1.1 e2
            refine ⟨h2.1, fun c hc => ?_⟩
            rcases List.mem_cons.mp hc with rfl | hc
            · exact h1.2
            · exact h2.2 c hc

theorem rowParse_days {E : Env} (hE : Calendar E) {fs : List Csvp.Field} {r : Row} (h : rowParse E fs = .ok r) : RowDays r := by
  simp only [rowParse] at h
  split at h
  · cases h
  · rename_i row cs e
    cases h
    exact cellsLoop_days hE (row := {}) (fun _ e => by cases e) e

theorem rowsLoop_days {E : Env} (hE : Calendar E) {rs : List (List Csvp.Field)} {rows : List Row} (h : Sheet.rowsLoop E rs = .ok rows) : ∀ r ∈ rows, RowDays r := by
  induction rs generalizing rows with
  | nil => cases h; intro r hr; cases hr
  | cons r rs ih =>
    simp only [Sheet.rowsLoop] at h
    split at h
    · cases h
    · rename_i r' e1
      split at h
      · cases h
      · rename_i rs' e2
        cases h
        intro r hr
        rcases List.mem_cons.mp hr with rfl | hr
        · exact rowParse_days hE e1
        · exact ih e2 r hr

theorem parse_days {E : Env} (hE : Calendar E) {csv : Text} {n : Nat} {s : Sheet} (h : Sheet.parse E csv n = .ok s) : ∀ r ∈ s.rows, RowDays r := by
  simp only [Sheet.parse] at h
  split at h
  · cases h
  · split at h
    · cases h
    · rename_i e; cases h; exact rowsLoop_days hE e

theorem expandLoop_days {left n : Nat} {rows : List Row} (h : ∀ r ∈ rows, RowDays r) : ∀ r ∈ expandLoop left n rows, RowDays r := by
  induction rows generalizing n with
  | nil => intro r hr; cases hr
  | cons r rs ih =>
    have h1 := h r (by simp)
    have h2 : ∀ r ∈ rs, RowDays r := fun r hr => h r (by simp [hr])
    simp only [expandLoop]
    split
    · intro q hq
      rcases List.mem_append.mp hq with hq | hq
      · rw [(List.mem_replicate.mp hq).2]; exact h1
      · exact ih h2 q hq
    · intro q hq
      rcases List.mem_cons.mp hq with rfl | hq
      · exact h1
      · exact ih h2 q hq

theorem evalFills_days {s s1 : Sheet} (h : evalFills s = some s1) (hs : ∀ r ∈ s.rows, RowDays r) : ∀ r ∈ s1.rows, RowDays r := by
  simp only [evalFills] at h
  split at h
  · cases h; exact hs
  · split at h
    · cases h
    · cases h; exact expandLoop_days hs

theorem evalCells_opts {sc : Scope} {y x : Nat} {cs : List Cell} {o : Out (List Cell)} (h : EvalCells sc y x cs o) {cs' : List Cell} (e : o = .ok cs')
    {c' : Cell} (hc : c' ∈ cs') : ∃ c ∈ cs, c'.opts = c.opts := by
  induction h generalizing cs' with
  | nil => cases e; cases hc
  | @value x c cs o h1 h2 ih =>
    cases o with
    | ok l =>
      cases e
      rcases List.mem_cons.mp hc with rfl | hc
      · exact ⟨c, by simp, rfl⟩
      · obtain ⟨c1, h, e⟩ := ih rfl hc; exact ⟨c1, by simp [h], e⟩
    | err p e' => cases e
    | panic => cases e
  | @formula x c cs o a b h1 h2 h3 ih =>
    cases o with
    | ok l =>
      cases e
      rcases List.mem_cons.mp hc with rfl | hc
      · exact ⟨c, by simp, rfl⟩
      · obtain ⟨c1, h, e⟩ := ih rfl hc; exact ⟨c1, by simp [h], e⟩
    | err p e' => cases e
    | panic => cases e
  | err => cases e
  | panic => cases e

theorem evalAll_days {sc : Scope} {y : Nat} {rs rs' : List Row} (h : EvalAll sc y rs rs') (hs : ∀ r ∈ rs, RowDays r) : ∀ r ∈ rs', RowDays r := by
  induction h with
  | nil => exact hs
  | @cons y r rs r' rs' h1 h2 ih =>
    intro q hq
    rcases List.mem_cons.mp hq with rfl | hq
    · obtain ⟨o', h3, h4⟩ := h1
      cases o' with
      | ok cs =>
        cases h4
        have hr := hs r (by simp)
        refine ⟨hr.1, fun c hc => ?_⟩
        obtain ⟨c0, hc0, e⟩ := evalCells_opts h3 rfl hc
        rw [e]; exact hr.2 c0 hc0
      | err p e => cases h4
      | panic => cases h4
    · exact ih (fun r hr => hs r (by simp [hr])) q hq

/-- C83.  The dates of the validations of a sheet that is parsed and evaluated are days, and never times. -/
theorem C83_sheet {E : Env} (hE : Calendar E) {csv : Text} {n : Nat} {s s' : Sheet} {sc : Scope} {ext : Text → Option Ast}
    (hp : Sheet.parse E csv n = .ok s) (he : EvalSheet sc ext s (.ok s')) : ∀ r ∈ s'.rows, RowDays r := by
  obtain ⟨s1, sheet, own, e, own', o', h1, _, _, _, _, h2, h3⟩ := he
  cases o' with
  | ok rows =>
    cases h3
    cases h2 with
    | ok h2 => exact evalAll_days h2 (evalFills_days h1 (parse_days hE hp))
  | err p e => cases h3
  | panic => cases h3

theorem excelRule_days {v : Validation} (h : ValDays v) (x y : Nat) : excelRule denotes x y v ≠ none := by
  cases v
  case dateAfter d | dateBefore d | dateEqualTo d | dateOnOrAfter d | dateOnOrBefore d =>
    obtain ⟨_, _, _, e⟩ := h d (by simp [validationDates])
    simp [excelRule, e, DateVal.distance]
  case dateBetween d d' | dateNotBetween d d' =>
    obtain ⟨_, _, _, e⟩ := h d (by simp [validationDates])
    obtain ⟨_, _, _, e'⟩ := h d' (by simp [validationDates])
    simp [excelRule, e, e', DateVal.distance]
  all_goals simp [excelRule]

theorem writes_days {s' : Sheet} (hd : ∀ r ∈ s'.rows, ∀ c ∈ r.cells, OptsDays c.opts) (overwrite : Bool) (name : Text) (file : Option Workbook) :
    ∃ wb, writeExcel denotes overwrite name s' file = some wb := by
  have hb : ∀ ws, ∃ ws', buildWorksheet denotes overwrite s' ws = some ws' := by
    intro ws
    apply Option.ne_none_iff_exists'.mp
    intro hn
    simp only [buildWorksheet] at hn
    split at hn
    · cases hn
    · rw [Option.map_eq_none_iff] at hn
      obtain ⟨⟨⟨x, y⟩, v⟩, hm, he⟩ := mapM_none.mp hn
      obtain ⟨c, hw, hv⟩ := mem_pending.mp hm
      have hw := hw.1
      simp only [sheetCell, Option.bind_eq_some_iff] at hw
      obtain ⟨r, hr, hc⟩ := hw
      exact excelRule_days (hd r (List.mem_of_getElem? hr) c (List.mem_of_getElem? hc) v hv) _ _ he
  have hc : ∀ wb : Workbook, (∃ ws, (name, ws) ∈ wb) → ∃ wb', changeSheet (buildWorksheet denotes overwrite s') name wb = some wb' := by
    intro wb
    induction wb with
    | nil => rintro ⟨_, h⟩; cases h
    | cons p wb ih =>
      rintro ⟨ws, h⟩
      obtain ⟨m, w⟩ := p
      simp only [changeSheet]
      split
      · obtain ⟨w', e⟩ := hb w; exact ⟨_, by rw [e]; rfl⟩
      · rename_i hne
        rcases List.mem_cons.mp h with e | h
        · cases e; exact absurd rfl hne
        · obtain ⟨w', e⟩ := ih ⟨ws, h⟩; exact ⟨_, by rw [e]; rfl⟩
  apply hc
  simp only [createWorksheet]
  split
  · exact ⟨blankSheet, by simp⟩
  · rename_i ws e
    simp only [sheetNamed, Option.map_eq_some_iff] at e
    obtain ⟨⟨m, w⟩, h1, h2⟩ := e
    have := List.find?_some h1
    simp only [decide_eq_true_eq] at this
    exact ⟨w, by rw [← this]; exact List.mem_of_find?_eq_some h1⟩

/-- C83.  Writing such a sheet to a workbook does not panic. -/
theorem C83_excel {E : Env} (hE : Calendar E) {csv : Text} {n : Nat} {s s' : Sheet} {sc : Scope} {ext : Text → Option Ast}
    (hp : Sheet.parse E csv n = .ok s) (he : EvalSheet sc ext s (.ok s')) (overwrite : Bool) (name : Text) (file : Option Workbook) :
    ∃ wb, writeExcel denotes overwrite name s' file = some wb :=
  writes_days (fun r hr => (C83_sheet hE hp he r hr).2) overwrite name file

theorem token_of_dateText {E : Env} {t v : Text} (h : DateText E t v) : DateToken E.uni t := by
  have hD : ∀ {lo hi : Nat} {a : Text}, Digs lo hi a → ∀ x ∈ a, E.uni.isD x = true := by
    intro lo hi a ha x hx
    have hx := ha.2.2 x hx
    have h128 : x.toNat < 128 := by
      simp only [Char.isDigit, Bool.and_eq_true, decide_eq_true_eq] at hx
      have : x.toNat ≤ 57 := hx.2
      omega
    rw [Uni.isD, if_pos h128, hx]
  have hall : ∀ {a b c : Text} {i j k l m n : Nat}, Digs i j a → Digs k l b → Digs m n c → ∀ x ∈ a ++ b ++ c, E.uni.isD x = true := by
    intro a b c i j k l m n ha hb hc x hx
    rcases List.mem_append.mp hx with hx | hx
    · rcases List.mem_append.mp hx with hx | hx
      · exact hD ha x hx
      · exact hD hb x hx
    · exact hD hc x hx
  obtain ⟨_, a, b, c, ⟨ha, hb, hc, rfl⟩ | ⟨ha, hb, hc, rfl⟩⟩ := h
  · exact .iso (Nat.le_antisymm ha.2.1 ha.1) (Nat.le_antisymm hb.2.1 hb.1) (Nat.le_antisymm hc.2.1 hc.1) (hall ha hb hc)
  · exact .us ⟨ha.1, ha.2.1⟩ ⟨hb.1, hb.2.1⟩ ⟨hc.1, hc.2.1⟩ (hall ha hb hc)

/-- C83.  The dates of the specification of options (C28) are the days that are written, and what is stored is the day as `yyyy-mm-dd`. -/
theorem C83_dateText {E : Env} (hE : Calendar E) (t v : Text) : DateText E t v ↔ ∃ d, Writes t d ∧ d.Real ∧ v = dayText d := by
  constructor
  · intro h
    have h1 := h.1
    rw [hE, Option.map_eq_some_iff] at h1
    obtain ⟨x, hx, rfl⟩ := h1
    obtain ⟨d, rfl, hw, hr⟩ := (C83_read (token_of_dateText h) _).mp hx
    exact ⟨d, hw, hr, rfl⟩
  · rintro ⟨d, hw, hr, rfl⟩
    refine ⟨by rw [hE, (C83_written hw hr).1]; rfl, ?_⟩
    cases hw with
    | @iso a b c y m d ha hb hc => exact ⟨a, b, c, .inl ⟨⟨ha.1, ha.2, ha.3⟩, ⟨hb.1, hb.2, hb.3⟩, ⟨hc.1, hc.2, hc.3⟩, rfl⟩⟩
    | @us a b c y m d ha hb hc => exact ⟨a, b, c, .inr ⟨⟨ha.1, ha.2, ha.3⟩, ⟨hb.1, hb.2, hb.3⟩, ⟨by have := hc.1; omega, hc.2, hc.3⟩, rfl⟩⟩
    | @usShort a b c y m d ha hb hc => exact ⟨a, b, c, .inr ⟨⟨ha.1, ha.2, ha.3⟩, ⟨hb.1, hb.2, hb.3⟩, ⟨hc.1, by have := hc.2; omega, hc.3⟩, rfl⟩⟩

/-! ### Examples -/

/-- An environment with the calendar. -/
def calendarDemo : Env := { demo with date := fun t => (tokenInto t).map DateTime.text }

theorem calendarDemo_calendar : Calendar calendarDemo := fun _ => rfl

/-- A token, the day it writes and the text of that day. -/
example : DateToken calendarDemo.uni "2/29/24".toList ∧ Writes "2/29/24".toList ⟨2024, 2, 29⟩ ∧ Day.Real ⟨2024, 2, 29⟩ ∧ dayText ⟨2024, 2, 29⟩ = "2024-02-29".toList := by
  refine ⟨.us (a := ['2']) (b := ['2', '9']) (c := ['2', '4']) (by decide) (by decide) (by decide) (by decide),
    .usShort (a := ['2']) (b := ['2', '9']) (c := ['2', '4']) (y := 24) ⟨by decide, by decide, by decide, by decide⟩ ⟨by decide, by decide, by decide, by decide⟩ ⟨by decide, by decide, by decide, by decide⟩, ⟨29, .leapFebruary (by simp only [LeapYear]; omega), by decide⟩, by decide⟩

/-- There was no such day in 2023, and the option is an error. -/
example : tokenInto "2/29/23".toList = none := by decide +kernel

/-- The options of a cell with a date. -/
example : ∃ c l, takeValidation calendarDemo 100 ⟨"=date_between(2/29/24 2024-12-31)]]".toList, 4⟩ = .ok (.dateBetween "2024-02-29".toList c) l ∧ c = "2024-12-31".toList := by
  exact ⟨_, _, by rfl, by rfl⟩

end Verif.Date
