import Verif.Csvp.Naive
/-
Property theorems C01-C09 about the CSV parser (model: Verif.Csvp.Model, vocabulary: Verif.Csvp.Spec).
-/
namespace Verif.Csvp
open Verif Verif.Csvp.Spec

/-! ## C01: CSV parsing never panics -/

/-- C01.  For every text and configuration the result is a list of records or a `ParseError`:
never the panic of the position conversion, and the model's loop bound is never hit. -/
theorem C01_no_panic (cfg : Config) (t : Text) :
    (∃ rs, parse cfg t = .ok rs) ∨ ∃ bad msg pos, parse cfg t = .error (.parse bad msg pos) := by
  have := parse_post cfg t
  revert this
  generalize parse cfg t = x
  intro h
  match x, h with
  | .ok rs, _ => exact Or.inl ⟨rs, rfl⟩
  | .error (.parse b m p), _ => exact Or.inr ⟨b, m, p, rfl⟩

/-- C01 (strengthening): the only thing that is ever rejected is a character `c` that is neither white space nor
the separator and comes after a double quote, with nothing but white space in between.  The error names `c`, is
reported on the line of `c` and quotes the (at most ten) characters following it. -/
theorem C01_error_position (cfg : Config) (t : Text) (bad : Text) (msg : Msg) (pos : SrcPos)
    (h : parse cfg t = .error (.parse bad msg pos)) :
    ∃ q i c, q < i ∧ t[q]? = some '"' ∧ (∀ j, q < j → j < i → ∃ d, t[j]? = some d ∧ isWs d = true) ∧
      t[i]? = some c ∧ isWs c = false ∧ c ≠ cfg.sep ∧ msg = .trailing c ∧ bad = (t.drop (i + 1)).take 10 ∧
      pos.line = cfg.above + lineOf t i := by
  have hp := parse_post cfg t
  rw [h] at hp
  obtain ⟨i, c, hc, hm, hw, hs, ⟨q, h1, h2, h3⟩, hpos, hb⟩ := hp
  refine ⟨q, i, c, h1, h2, h3, hc, hw, hs, hm, hb, ?_⟩
  have hne : c ≠ '\n' := by rintro rfl; exact absurd hw (by decide)
  rw [hpos, recPos_closed cfg t i _ hc, if_neg hne]

/-- In particular, a text without double quotes is never rejected. -/
theorem C01_no_quote (cfg : Config) (t : Text) (h : '"' ∉ t) : ∃ rs, parse cfg t = .ok rs := by
  rcases C01_no_panic cfg t with h' | ⟨bad, msg, pos, h'⟩
  · exact h'
  · obtain ⟨q, _, _, _, hq, _⟩ := C01_error_position cfg t bad msg pos h'
    exact absurd (List.mem_of_getElem? hq) h

example : ∃ bad msg pos, parse ⟨',', 0⟩ "\"a\" x".toList = .error (.parse bad msg pos) := by
  refine ⟨[], .trailing 'x', ⟨0, 4⟩, ?_⟩; decide
example : ∃ rs, parse ⟨',', 0⟩ "a,b\\".toList = .ok rs := C01_no_quote _ _ (by decide)
example : (values (parse ⟨',', 0⟩ "a,b".toList)).isSome := by decide

/-! ## C02: addresses are grid coordinates -/

/-- C02. -/
theorem C02_addresses (cfg : Config) (t : Text) (rs : List (List Field)) (h : parse cfg t = .ok rs)
    (y x : Nat) (r : List Field) (f : Field) (hr : rs[y]? = some r) (hf : r[x]? = some f) :
    f.addr = ⟨x, y⟩ := by
  have hp := parse_post cfg t
  rw [h] at hp
  obtain ⟨-, l, m, hrec⟩ := RecsAt.get hp y r hr
  have := hrec.addr x f hf
  simpa using this

example : grid (parse ⟨',', 7⟩ "a,b\n#c\nd".toList) =
    some [[(⟨0, 0⟩, ['a']), (⟨1, 0⟩, ['b'])], [(⟨0, 1⟩, ['d'])]] := by decide

/-! ## C03: plain round trip -/

/-- C03.  Any grid of plain values is read back exactly.  Exclusions, each of which the format
itself forces: a row is non-empty, does not start with `#`, does not end in a backslash, and the
grid does not start with a blank line. -/
theorem C03_plain_round_trip (cfg : Config) (hsep : SepOk cfg.sep) (rows : List (List Text))
    (hrow : ∀ r ∈ rows, r ≠ [] ∧ (∀ v ∈ r, PlainValue cfg.sep v) ∧
      (∀ v, r.head? = some v → v.head? ≠ some '#') ∧ (∀ v, r.getLast? = some v → v.getLast? ≠ some '\\'))
    (hfirst : rows.head? ≠ some [[]]) :
    values (parse cfg (csvText cfg.sep rows)) = some rows := by
  obtain ⟨is, h1, h2, h3⟩ := plain_items_ok cfg.sep rows hrow
  have hh : (is.flatMap (Item.text cfg.sep) ++ []).head? ≠ some '\n' := by
    rw [List.append_nil, h2]
    cases rows with
    | nil => simp [csvText]
    | cons r rows =>
      obtain ⟨hne, hv, -, -⟩ := hrow r (by simp)
      cases r with
      | nil => exact absurd rfl hne
      | cons v vs =>
        simp only [csvText, List.flatMap_cons]
        cases v with
        | nil =>
          cases vs with
          | nil => simp at hfirst
          | cons w ws =>
            simp [List.intercalate]
            exact fun h => hsep.ne_nl h
        | cons c v =>
          have := (hv (c :: v) (by simp)).2.2.1
          cases vs <;> simp [List.intercalate] at * <;> exact fun h => this.1 h.symm
  have := cParse_items cfg.sep hsep 0 is h1 [] hh
  rw [List.replicate_zero, List.nil_append, List.append_nil, h2, h3] at this
  rw [values_parse, this]
  simp [cRecords, cFields, cField_nil]

/-- C03, together with C02: the addressed grid is exactly the written one. -/
theorem C03_plain_round_trip_grid (cfg : Config) (hsep : SepOk cfg.sep) (rows : List (List Text))
    (hrow : ∀ r ∈ rows, r ≠ [] ∧ (∀ v ∈ r, PlainValue cfg.sep v) ∧
      (∀ v, r.head? = some v → v.head? ≠ some '#') ∧ (∀ v, r.getLast? = some v → v.getLast? ≠ some '\\'))
    (hfirst : rows.head? ≠ some [[]]) :
    grid (parse cfg (csvText cfg.sep rows)) = some (addressed 0 rows) := by
  rw [grid_eq, C03_plain_round_trip cfg hsep rows hrow hfirst]; rfl

example : values (parse ⟨',', 0⟩ (csvText ',' [["foo".toList, "a b\"".toList], [[], "x#".toList], [[]]])) =
    some [["foo".toList, "a b\"".toList], [[], "x#".toList], [[]]] := by
  refine C03_plain_round_trip ⟨',', 0⟩ (by decide) _ ?_ (by decide)
  intro r hr
  simp only [List.mem_cons, List.not_mem_nil, or_false] at hr
  rcases hr with rfl | rfl | rfl <;> refine ⟨by decide, by decide, ?_, ?_⟩ <;> simp
example : SepOk ',' ∧ ∀ r ∈ ["foo".toList :: ["a b\"".toList], [[], "x".toList], [[]]], r ≠ [] ∧
    (∀ v ∈ r, PlainValue ',' v) := by decide

/-! ## C04: quoted round trip -/

/-- The full statement of C04: every grid of trimmed values, all quoted, is read back. -/
def C04_full : Prop :=
  ∀ (cfg : Config), SepOk cfg.sep → ∀ rows : List (List Text),
    (∀ r ∈ rows, r ≠ [] ∧ ∀ v ∈ r, trim v = v) →
    values (parse cfg (csvText cfg.sep (rows.map (·.map quote)))) = some rows

/-- C04 is false of the code: the two-row grid `"a"⏎"b"⏎` is rejected, because the newline after
the closing quote is skipped as white space and the next row is taken for trailing garbage. -/
theorem C04_violated : ¬ C04_full := by
  intro h
  have := h ⟨',', 0⟩ (by decide) [[['a']], [['b']]] (by decide)
  revert this; decide

/-- The quoted field of a non-final row can also silently swallow the row break: `"a"⏎,b` is one
record. -/
theorem C04_row_break_lost :
    values (parse ⟨',', 0⟩ "\"a\"\n,b".toList) = some [["a".toList, "b".toList]] := by decide

/-- C04, the part that holds.  Any written-down lines (comments, and records mixing quoted and
unquoted fields in which only the last field of a line must be unquoted) followed by a final record
whose fields are all arbitrary, quoted or not, quoted contents being arbitrary text including quotes,
separators and newlines. -/
theorem C04_quoted_partial (cfg : Config) (hsep : SepOk cfg.sep) (k : Nat) (lines : List Item)
    (hl : ∀ i ∈ lines, i.Ok cfg.sep) (f : FieldSrc) (fs : List FieldSrc)
    (hf : f.text.head? ≠ some '#') (hok : f.Ok cfg.sep) (hoks : ∀ g ∈ fs, g.Ok cfg.sep)
    (hlast : ∀ ps, (f :: fs).getLast (by simp) = .plain ps → (FieldSrc.plain ps).value ≠ [])
    (hhead : (lines.flatMap (Item.text cfg.sep) ++ fieldsText cfg.sep f fs).head? ≠ some '\n') :
    values (parse cfg (List.replicate k '\n' ++
        (lines.flatMap (Item.text cfg.sep) ++ fieldsText cfg.sep f fs))) =
      some (lines.flatMap Item.values ++ [f.value :: fs.map FieldSrc.value]) := by
  rw [values_parse, cParse_items cfg.sep hsep k lines hl _ hhead]
  have hh := fieldsText_head cfg.sep f fs [] hsep hf (by simp)
  rw [List.append_nil] at hh
  have hfe := cFields_eof cfg.sep hsep ((fieldsText cfg.sep f fs).length + 1) f fs [] hok hoks ?_
    (by have := fieldsText_length cfg.sep f fs; omega)
  · unfold cRecords
    rw [if_neg hh, hfe]
    cases hL : (fieldsText cfg.sep f fs).length with
    | zero =>
      -- the final record is not empty text
      exfalso
      have hnil : fieldsText cfg.sep f fs = [] := List.eq_nil_of_length_eq_zero hL
      rw [hnil] at hfe
      simp [cFields, cField_nil] at hfe
    | succ n => simp [cRecords, cFields, cField_nil]
  · intro ps hps hnil
    refine hlast ps hps ?_
    rw [FieldSrc.value, ← trim_trimStart, hnil]; rfl

/-- C04 for a single record: all values quoted, any contents. -/
theorem C04_single_record_partial (cfg : Config) (hsep : SepOk cfg.sep) (v : Text) (vs : List Text)
    (ht : ∀ w ∈ v :: vs, trim w = w) :
    values (parse cfg (List.intercalate [cfg.sep] ((v :: vs).map quote))) = some [v :: vs] := by
  have hq : ∀ w, (FieldSrc.quoted [] w []).text = quote w := fun w => rfl
  have := C04_quoted_partial cfg hsep 0 [] (by simp) (.quoted [] v []) (vs.map fun w => .quoted [] w [])
    (by simp [FieldSrc.text]) ⟨rfl, rfl⟩ (by
      intro g hg; obtain ⟨w, -, rfl⟩ := List.mem_map.mp hg; exact ⟨rfl, rfl⟩)
    (by
      intro ps hps
      have : ∀ g ∈ (FieldSrc.quoted [] v [] :: vs.map fun w => FieldSrc.quoted [] w []),
          ∃ w, g = FieldSrc.quoted [] w [] := by
        intro g hg
        rcases List.mem_cons.mp hg with rfl | hg
        · exact ⟨v, rfl⟩
        · obtain ⟨w, -, rfl⟩ := List.mem_map.mp hg; exact ⟨w, rfl⟩
      obtain ⟨w, hw⟩ := this _ (List.getLast_mem (by simp))
      rw [hps] at hw; cases hw)
    (by
      rw [fieldsText_intercalate]
      cases vs <;> simp [List.intercalate, FieldSrc.text])
  rw [fieldsText_intercalate] at this
  simp only [List.replicate_zero, List.nil_append, List.flatMap_nil, List.map_cons, List.map_map, hq]
    at this
  have e1 : (FieldSrc.text ∘ fun w => FieldSrc.quoted [] w []) = quote := by funext w; exact hq w
  rw [e1] at this
  rw [List.map_cons, this]
  simp only [FieldSrc.value, Option.some.injEq, List.cons.injEq, and_true]
  refine ⟨ht v (by simp), ?_⟩
  conv => rhs; rw [← List.map_id vs]
  apply List.map_congr_left
  intro w hw
  exact ht w (by simp [hw])

example : values (parse ⟨',', 0⟩ (List.intercalate [','] (["a,\n\"b".toList, "c".toList].map quote))) =
    some ["a,\n\"b".toList :: ["c".toList]] := by decide
example : (Item.record (.quoted [' '] "a,\"\n".toList ['\n']) [.plain [.ch 'b', .cont, .ch 'c']]).Ok ',' := by
  decide

/-! ## C05: source positions -/

/-- The full statement of C05: every recorded position is the line and column of its character. -/
def C05_full : Prop :=
  ∀ (cfg : Config) (t : Text) (rs : List (List Field)), parse cfg t = .ok rs →
    ReadAll (fun p i => p = truePos cfg.above t i) t rs

/-- C05 is false of the code: in `a⏎b` the character `b` is reported at column 1 of its line, a
place where the text has no character at all. -/
theorem C05_violated : ¬ C05_full := by
  intro h
  have hp : parse ⟨',', 0⟩ "a\nb".toList =
      .ok [[⟨⟨0, 0⟩, ['a'], [⟨0, 0⟩]⟩], [⟨⟨0, 1⟩, ['b'], [⟨1, 1⟩]⟩]] := by decide
  obtain ⟨idx, h1, -⟩ := h _ _ _ hp
  obtain ⟨ir, -, hr⟩ := forall₂_mem_left h1 [⟨⟨0, 1⟩, ['b'], [⟨1, 1⟩]⟩] (by simp)
  obtain ⟨is, -, hf⟩ := forall₂_mem_left hr ⟨⟨0, 1⟩, ['b'], [⟨1, 1⟩]⟩ (by simp)
  have hpos := hf.positions
  cases is with
  | nil => cases hpos
  | cons i is =>
    cases hpos with
    | cons hp _ =>
      have hi := hf.inside i (by simp)
      have : i < 3 := hi
      match i with
      | 0 => revert hp; decide
      | 1 => revert hp; decide
      | 2 => revert hp; decide

/-- C05, the part that holds.  All fields are read from distinct characters of the text in order;
every character other than a newline is reported on its true line; its column is the true column on
the first line of the csv section and exactly one more than the true column on every other line; a
newline (inside quotes) is reported at column 0 of the line after it. -/
theorem C05_positions_partial (cfg : Config) (t : Text) (rs : List (List Field))
    (h : parse cfg t = .ok rs) :
    ReadAll (fun p i =>
      (t[i]? ≠ some '\n' → p.line = cfg.above + lineOf t i ∧
        p.off = colOf t i + (if lineOf t i = 0 then 0 else 1)) ∧
      (t[i]? = some '\n' → p.line = cfg.above + lineOf t i + 1 ∧ p.off = 0)) t rs := by
  obtain ⟨idx, h1, h2⟩ := parse_idx h
  exact ⟨idx, Forall₂.imp_mem h1 fun _ _ hh => Forall₂.imp_mem hh fun _ _ hf => hf.readFrom, h2⟩

/-- C05 for a csv section without newline (a single-line section): positions are exact. -/
theorem C05_single_line_partial (cfg : Config) (t : Text) (rs : List (List Field))
    (h : parse cfg t = .ok rs) (hn : '\n' ∉ t) :
    ReadAll (fun p i => p = truePos cfg.above t i) t rs := by
  obtain ⟨idx, h1, h2⟩ := C05_positions_partial cfg t rs h
  refine ⟨idx, Forall₂.imp_mem h1 fun _ _ hh => Forall₂.imp_mem hh fun f is hf => ?_, h2⟩
  refine ⟨hf.inside, hf.value, Forall₂.imp_mem hf.positions fun p i hp => ?_⟩
  have h0 : lineOf t i = 0 := by
    unfold lineOf
    rw [List.count_eq_zero]
    exact fun hm => hn (List.mem_of_mem_take hm)
  have := hp.1 (fun he => hn (List.mem_of_getElem? he))
  rw [h0] at this
  unfold truePos
  rw [h0]
  cases p; simp_all

/-- C05, alignment: when the text has no quotes, character `k` of a field's value is the character
at the `k`-th index, so `position_for_offset k` belongs to it. -/
theorem C05_aligned_partial (cfg : Config) (t : Text) (rs : List (List Field))
    (h : parse cfg t = .ok rs) (hq : '"' ∉ t) (r : List Field) (hr : r ∈ rs) (f : Field) (hf : f ∈ r) :
    ∃ is : List Nat, f.value <+: charsAt t is ∧ f.positions.length = is.length ∧
      is.length = (charsAt t is).length ∧
      ∀ k i, is[k]? = some i → ∃ p, f.positionForOffset k = some p ∧
        p.line = cfg.above + lineOf t i ∧ p.off = colOf t i + (if lineOf t i = 0 then 0 else 1) := by
  obtain ⟨is, raw, hs, hv, hu⟩ := field_raw h r hr f hf
  have hc := charsAt_of_map t is raw hs.chars
  have hlen : is.length = raw.length := by
    have := congrArg List.length hs.chars; simpa using this
  refine ⟨is, ?_, by rw [hs.pos]; simp, by rw [hc, hlen], ?_⟩
  · rw [hc, hv]; exact trim_prefix_of_head raw (hu hq).1
  · intro k i hk
    have hi := hs.range i (List.mem_of_getElem? hk)
    have hget : t[i]? = some t[i] := List.getElem?_eq_getElem hi.2
    have hnl : t[i] ≠ '\n' := by
      intro he
      have hmem : some t[i] ∈ raw.map some := by
        rw [← hs.chars, ← hget]
        exact List.mem_map_of_mem (List.mem_of_getElem? hk)
      simp only [List.mem_map, Option.some.injEq, exists_eq_right] at hmem
      exact (hu hq).2.2 (he ▸ hmem)
    refine ⟨recPos cfg t i, ?_, ?_⟩
    · unfold Field.positionForOffset
      have hk' : k < is.length := (List.getElem?_eq_some_iff.mp hk).1
      rw [if_neg (by rw [hs.pos]; simp; omega), hs.pos]
      simp [hk]
    · rw [recPos_closed cfg t i _ hget, if_neg hnl]
      refine ⟨rfl, ?_⟩
      simp only; split <;> simp

/-- C05, the end of a field: the place reported for an unexpected end of a field is directly after its last
character (as reported), when it has one, for every text. -/
theorem C05_end_partial (cfg : Config) (t : Text) (rs : List (List Field))
    (h : parse cfg t = .ok rs) (r : List Field) (hr : r ∈ rs) (f : Field) (hf : f ∈ r) :
    ∃ is : List Nat, f.value = trim (charsAt t is) ∧
      (is = [] → f.eofPosition = none) ∧
      ∀ i, is.getLast? = some i → t[i]? ≠ some '\n' → ∃ p, f.eofPosition = some p ∧
        p.line = cfg.above + lineOf t i ∧ p.off = colOf t i + 1 + (if lineOf t i = 0 then 0 else 1) := by
  obtain ⟨is, raw, hs, hv, -⟩ := field_raw h r hr f hf
  refine ⟨is, by rw [charsAt_of_map t is raw hs.chars, hv], ?_, ?_⟩
  · rintro rfl
    simp [Field.eofPosition, hs.pos]
  · intro i hi hnl
    have hlt := (hs.range i (List.mem_of_getLast? hi)).2
    have hget : t[i]? = some t[i] := List.getElem?_eq_getElem hlt
    refine ⟨_, by rw [Field.eofPosition, hs.pos, List.getLast?_map, hi]; rfl, ?_⟩
    rw [recPos_closed cfg t i _ hget, if_neg (fun he => hnl (by rw [hget, he]))]
    refine ⟨rfl, ?_⟩
    simp only; split <;> simp

/-- Without that hypothesis alignment fails: the value of `" a"` is `a`, but offset 0 maps to the
blank. -/
theorem C05_aligned_violated_quoted :
    parse ⟨',', 0⟩ "\" a\"".toList = .ok [[⟨⟨0, 0⟩, ['a'], [⟨0, 1⟩, ⟨0, 2⟩]⟩]] := by decide

example : ∃ rs, parse ⟨',', 3⟩ "a,b\\\nc\nd".toList = .ok rs ∧ rs.length = 2 := by
  refine ⟨_, rfl, ?_⟩; decide

/-! ## C06: comments and leading newlines -/

/-- C06, comments: after any written-down lines, a comment line can be deleted without changing
values or addresses; what follows is arbitrary text.  (The hypothesis excludes the case in which the
deletion would turn following blank lines into leading blank lines, which are skipped.) -/
theorem C06_comment (cfg : Config) (hsep : SepOk cfg.sep) (k : Nat) (lines : List Item)
    (hl : ∀ i ∈ lines, i.Ok cfg.sep) (comment : Text) (hc : '\n' ∉ comment) (rest : Text)
    (hhead : (lines.flatMap (Item.text cfg.sep) ++ rest).head? ≠ some '\n') :
    grid (parse cfg (List.replicate k '\n' ++ (lines.flatMap (Item.text cfg.sep) ++
        ('#' :: (comment ++ '\n' :: rest))))) =
      grid (parse cfg (List.replicate k '\n' ++ (lines.flatMap (Item.text cfg.sep) ++ rest))) := by
  rw [grid_eq, grid_eq, values_parse, values_parse, cParse_items cfg.sep hsep k lines hl rest hhead]
  have h1 := cParse_items cfg.sep hsep k (lines ++ [.comment comment])
    (by intro i hi; rcases List.mem_append.mp hi with hi | hi
        · exact hl i hi
        · simp at hi; subst hi; exact hc) rest
    (by
      cases lines with
      | nil => simp [Item.text]
      | cons i is =>
        have : (i.text cfg.sep) ≠ [] := by
          have := Item.text_length cfg.sep i; intro h; simp [h] at this
        cases hi : i.text cfg.sep with
        | nil => exact absurd hi this
        | cons c s => simp [hi] at hhead ⊢; exact hhead)
  simp only [List.flatMap_append, List.flatMap_cons, List.flatMap_nil, List.append_nil, Item.text,
    Item.values, List.append_assoc, List.cons_append, List.nil_append] at h1
  rw [h1]

/-- C06, leading newlines: adding newlines in front of any text changes nothing. -/
theorem C06_leading_newlines (cfg : Config) (k : Nat) (t : Text) :
    grid (parse cfg (List.replicate k '\n' ++ t)) = grid (parse cfg t) := by
  rw [grid_eq, grid_eq, values_parse, values_parse]
  have : (List.replicate k '\n' ++ t).dropWhile (· = '\n') = t.dropWhile (· = '\n') := by
    induction k with
    | zero => rfl
    | succ k ih =>
      rw [List.replicate_succ, List.cons_append, List.dropWhile_cons_of_pos (by simp), ih]
  unfold cParse; rw [this]

/-- The excluded case is real: after a leading comment a blank line is a record. -/
theorem C06_exclusion_needed :
    values (parse ⟨',', 0⟩ "#c\n\na".toList) = some [[[]], [['a']]] ∧
    values (parse ⟨',', 0⟩ "\na".toList) = some [[['a']]] := by decide

example : grid (parse ⟨',', 0⟩ "a,b\n# x,y\n\"c\",d".toList) = grid (parse ⟨',', 0⟩ "a,b\n\"c\",d".toList) ∧
    (grid (parse ⟨',', 0⟩ "a,b\n# x,y\n\"c\",d".toList)).isSome := by decide

/-! ## C07: line continuations -/

/-- C07.  Lines written with continuations anywhere in their unquoted fields have the same values
and addresses as the lines with all continuations deleted. -/
theorem C07_continuation (cfg : Config) (hsep : SepOk cfg.sep) (lines : List Item)
    (hl : ∀ i ∈ lines, i.Ok cfg.sep) (hl' : ∀ i ∈ lines, (eraseItem i).Ok cfg.sep) (rest : Text)
    (hhead : (lines.flatMap (Item.text cfg.sep) ++ rest).head? ≠ some '\n')
    (hhead' : ((lines.map eraseItem).flatMap (Item.text cfg.sep) ++ rest).head? ≠ some '\n') :
    grid (parse cfg (lines.flatMap (Item.text cfg.sep) ++ rest)) =
      grid (parse cfg ((lines.map eraseItem).flatMap (Item.text cfg.sep) ++ rest)) := by
  have h1 := cParse_items cfg.sep hsep 0 lines hl rest hhead
  have h2 := cParse_items cfg.sep hsep 0 (lines.map eraseItem)
    (by intro i hi; obtain ⟨j, hj, rfl⟩ := List.mem_map.mp hi; exact hl' j hj) rest hhead'
  simp only [List.replicate_zero, List.nil_append] at h1 h2
  have e : (lines.map eraseItem).flatMap Item.values = lines.flatMap Item.values := by
    rw [List.flatMap_map]; congr 1; funext i; exact eraseItem_values i
  rw [grid_eq, grid_eq, values_parse, values_parse, h1, h2, e]

example : (Item.record (.plain [.ch 'a', .cont, .cont, .ch ' ', .ch 'b']) []).Ok ',' ∧
    (eraseItem (Item.record (.plain [.ch 'a', .cont, .cont, .ch ' ', .ch 'b']) [])).text ',' = "a b\n".toList := by
  decide

/-! ## C08: values are trimmed -/

/-- C08. -/
theorem C08_trimmed (cfg : Config) (t : Text) (rs : List (List Field)) (h : parse cfg t = .ok rs)
    (r : List Field) (hr : r ∈ rs) (f : Field) (hf : f ∈ r) :
    (∀ c, f.value.head? = some c → isWs c = false) ∧
    (∀ c, f.value.getLast? = some c → isWs c = false) := by
  obtain ⟨is, raw, -, hv, -⟩ := field_raw h r hr f hf
  rw [hv]
  exact ⟨trim_head raw, trim_last raw⟩

example : values (parse ⟨',', 0⟩ "  a b\t,\" c \"".toList) = some [["a b".toList, "c".toList]] := by decide

/-! ## C09: record shape -/

/-- C09.  Records are non-empty; in a text without quotes no value contains the separator or a
newline. -/
theorem C09_shape (cfg : Config) (t : Text) (rs : List (List Field)) (h : parse cfg t = .ok rs) :
    (∀ r ∈ rs, r ≠ []) ∧
    ('"' ∉ t → ∀ r ∈ rs, ∀ f ∈ r, cfg.sep ∉ f.value ∧ '\n' ∉ f.value) := by
  constructor
  · intro r hr
    have hp := parse_post cfg t
    rw [h] at hp
    obtain ⟨y, hy⟩ := List.getElem?_of_mem hr
    exact (RecsAt.get hp y r hy).1
  · intro hq r hr f hf
    obtain ⟨is, raw, -, hv, hu⟩ := field_raw h r hr f hf
    obtain ⟨-, u1, u2⟩ := hu hq
    rw [hv]
    exact ⟨fun hm => u1 (trim_subset _ _ hm), fun hm => u2 (trim_subset _ _ hm)⟩

/-- C09, companion: a text without quotes is always accepted. -/
theorem C09_quote_free_accepted (cfg : Config) (t : Text) (hq : '"' ∉ t) :
    ∃ rs, parse cfg t = .ok rs := by
  rcases C01_no_panic cfg t with h | ⟨b, m, p, h⟩
  · exact h
  · obtain ⟨q, _, _, _, hq', _⟩ := C01_error_position cfg t b m p h
    exact absurd (List.mem_of_getElem? hq') hq

example : '"' ∉ "a,b\n# \\\n,".toList := by decide

/-! ## C47: a text without quotes and backslashes is read by splitting -/

/-- C47.  For every text without double quotes and backslashes the values are exactly what one gets
by dropping leading newlines, splitting into lines, dropping comment lines, splitting each line at
the separator and trimming (a blank field at the very end of an unterminated last line is dropped). -/
theorem C47_naive (cfg : Config) (hsep : SepOk cfg.sep) (t : Text) (hq : '"' ∉ t) (hb : '\\' ∉ t) :
    values (parse cfg t) = some (naive cfg.sep t) := by
  rw [values_parse]
  unfold cParse naive
  have hsub : ∀ c ∈ t.dropWhile (· = '\n'), c ∈ t := fun c hc => (List.dropWhile_suffix _).subset hc
  rw [cRecords_naive cfg.sep hsep _ [] _ (fun h => hq (hsub _ h)) (fun h => hb (hsub _ h))
    (Nat.lt_succ_self _)]
  simp

/-- The naive reading of a non-trivial text; the hypotheses hold for it. -/
example : '"' ∉ "\na, b\n#c\nd,\n,".toList ∧ '\\' ∉ "\na, b\n#c\nd,\n,".toList ∧
    naive ',' "\na, b\n#c\nd,\n,".toList = [[['a'], ['b']], [['d'], []], [[]]] := by decide

end Verif.Csvp
