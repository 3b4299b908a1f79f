import Verif.Cli.Examples
import Verif.Csvp.Quoted
import Verif.Parser.Reread
/-
End to end: the CSV that the program writes, compiled again (C102).
-/
namespace Verif.Cli
open Verif.Ast Verif.Loader Verif.Sheet Verif.Cache Verif.Csvp.Spec
open Verif.Cell hiding Target
open Verif.Target hiding MPath

/-- The written records `g` can be read as a cells section: the cells are trimmed, no record begins like a comment, only the last record may end in a cell
that is quoted (also an empty one that is the whole record), and none in a backslash. -/
structure Again (g : List (List Text)) : Prop where
  rows : ∀ r ∈ g, r ≠ [] ∧ ∀ v ∈ r, trim v = v
  comment : ∀ r ∈ g, ∀ v, r.head? = some v → v.head? = some '#' → needsQuotes v = true
  quotes : ∀ before r after, g = before ++ r :: after → after ≠ [] → r ≠ [[]] ∧ ∀ v, r.getLast? = some v → needsQuotes v = false
  escape : ∀ r ∈ g, ∀ v, r.getLast? = some v → needsQuotes v = false → v.getLast? ≠ some '\\'

/-- How a field is written. -/
def fieldSrc (v : Text) : FieldSrc := if needsQuotes v then .quoted [] v [] else .plain (v.map .ch)

theorem quoteText_doubled (v : Text) : quoteText v = doubled v := by
  induction v with
  | nil => rfl
  | cons c v ih =>
    rw [quoteText, List.flatMap_cons, doubled, ← ih]
    split <;> rfl

theorem fieldSrc_text (v : Text) : (fieldSrc v).text = writeField v := by
  rw [fieldSrc, writeField]
  split
  · simp only [FieldSrc.text, List.nil_append, quoteText_doubled]; rfl
  · rw [FieldSrc.text, Csvp.flatMap_ch_text]

theorem fieldSrc_value {v : Text} (h : trim v = v) : (fieldSrc v).value = v := by
  rw [fieldSrc]
  split
  · exact h
  · rw [FieldSrc.value, Csvp.flatMap_ch_chars]; exact h

theorem fieldSrc_ok {v : Text} (_h : trim v = v) : (fieldSrc v).Ok ',' := by
  rw [fieldSrc]
  split
  · exact ⟨rfl, rfl⟩
  · rename_i hn
    have hn' : ∀ c ∈ v, c ≠ ',' ∧ c ≠ '"' ∧ c ≠ '\r' ∧ c ≠ '\n' := by
      intro c hc
      simp only [needsQuotes, List.any_eq_true, not_exists, not_and, Bool.or_eq_true, beq_iff_eq, not_or] at hn
      have := hn c hc
      exact ⟨this.1.1.1, this.1.1.2, this.1.2, this.2⟩
    refine ⟨by rw [Csvp.flatMap_ch_chars]; exact fun h' => (hn' _ h').1 rfl, by rw [Csvp.flatMap_ch_chars]; exact fun h' => (hn' _ h').2.2.2 rfl, ?_⟩
    rw [Csvp.flatMap_ch_chars]
    intro h'
    cases ht : trimStart v with
    | nil => rw [ht] at h'; cases h'
    | cons c t =>
      rw [ht] at h'; cases h'
      have : '"' ∈ v := by
        have hs : trimStart v = v.dropWhile isWs := rfl
        exact List.dropWhile_sublist _ |>.subset (by rw [← hs, ht]; exact List.mem_cons_self)
      exact (hn' _ this).2.1 rfl

theorem joinFields_text (v : Text) (vs : List Text) : joinFields (v :: vs) = fieldsText ',' (fieldSrc v) (vs.map fieldSrc) := by
  induction vs generalizing v with
  | nil => rw [joinFields, List.map_nil, fieldsText, fieldSrc_text]
  | cons w vs ih => rw [joinFields, List.map_cons, fieldsText, fieldSrc_text, ih]

theorem fieldSrc_head {v : Text} (h : v.head? = some '#' → needsQuotes v = true) : (fieldSrc v).text.head? ≠ some '#' := by
  rw [fieldSrc_text, writeField]
  split
  · simp
  · rename_i hn; exact fun h' => hn (h h')

/-- A record that ends in an unquoted cell is a line. -/
theorem record_item {v : Text} {vs : List Text} (h1 : ∀ w ∈ v :: vs, trim w = w) (h2 : v.head? = some '#' → needsQuotes v = true) (h3 : v :: vs ≠ [[]])
    (h4 : ∀ w, (v :: vs).getLast? = some w → needsQuotes w = false ∧ w.getLast? ≠ some '\\') :
    writeRecord (v :: vs) = Item.text ',' (.record (fieldSrc v) (vs.map fieldSrc)) ∧ (Item.record (fieldSrc v) (vs.map fieldSrc)).Ok ',' ∧
      Item.values (.record (fieldSrc v) (vs.map fieldSrc)) = [v :: vs] := by
  refine ⟨?_, ⟨fieldSrc_head h2, fieldSrc_ok (h1 v List.mem_cons_self), ?_, ?_⟩, ?_⟩
  · have : joinFields (v :: vs) ≠ [] := by
      intro h
      rcases joinFields_nil h with h | h
      · cases h
      · exact h3 h
    rw [writeRecord, if_neg this, joinFields_text]; rfl
  · intro g hg
    obtain ⟨w, hw, rfl⟩ := List.mem_map.mp hg
    exact fieldSrc_ok (h1 w (List.mem_cons_of_mem _ hw))
  · have e : (fieldSrc v :: vs.map fieldSrc).getLast (by simp) = fieldSrc ((v :: vs).getLast (by simp)) := by
      have : ∀ (l : List Text) (hne : l ≠ []), (l.map fieldSrc).getLast (by simpa using hne) = fieldSrc (l.getLast hne) := by
        intro l hne
        rw [List.getLast_map]
      exact this (v :: vs) (by simp)
    rw [e]
    obtain ⟨k1, k2⟩ := h4 _ (List.getLast?_eq_some_getLast (by simp))
    rw [fieldSrc, k1]
    simp only [Bool.false_eq_true, if_false, FieldSrc.EndOk]
    intro h
    rw [List.getLast?_map] at h
    cases hl : ((v :: vs).getLast (by simp)).getLast? with
    | none => rw [hl] at h; cases h
    | some c =>
      rw [hl] at h
      simp only [Option.map_some, Option.some.injEq, Piece.ch.injEq] at h
      exact k2 (by rw [hl, h])
  · simp only [Item.values, List.map_map]
    rw [fieldSrc_value (h1 v List.mem_cons_self)]
    congr 2
    conv => rhs; rw [← List.map_id vs]
    exact List.map_congr_left fun w hw => fieldSrc_value (h1 w (List.mem_cons_of_mem _ hw))

/-- The last record, if it ends in a quoted cell. -/
theorem record_quoted {v : Text} {vs : List Text} (h1 : ∀ w ∈ v :: vs, trim w = w) (h4 : ∀ w, (v :: vs).getLast? = some w → needsQuotes w = true) :
    ∃ (f : FieldSrc) (fs : List FieldSrc), fieldsText ',' f fs = joinFields (v :: vs) ++ ['\n'] ∧ (∀ g ∈ f :: fs, g.Ok ',') ∧
      (∃ b w a, (f :: fs).getLast (by simp) = .quoted b w a) ∧ (f.text.head? = some '"' ∨ f = fieldSrc v) ∧ f.value :: fs.map FieldSrc.value = v :: vs := by
  induction vs generalizing v with
  | nil =>
    have hq := h4 v rfl
    refine ⟨.quoted [] v ['\n'], [], ?_, ?_, ⟨_, _, _, rfl⟩, .inl rfl, ?_⟩
    · rw [fieldsText, joinFields, writeField, if_pos hq, quoteText_doubled]
      simp [FieldSrc.text]
    · intro g hg; rw [List.mem_singleton.mp hg]; exact ⟨rfl, rfl⟩
    · simp only [FieldSrc.value, List.map_nil, h1 v List.mem_cons_self]
  | cons w vs ih =>
    obtain ⟨f, fs, e1, e2, ⟨b, x, a, e3⟩, -, e5⟩ := ih (v := w) (fun x hx => h1 x (List.mem_cons_of_mem _ hx)) (by simpa using h4)
    refine ⟨fieldSrc v, f :: fs, ?_, ?_, ⟨b, x, a, ?_⟩, .inr rfl, ?_⟩
    · rw [fieldsText, e1, joinFields, fieldSrc_text]; simp
    · intro g hg
      rcases List.mem_cons.mp hg with rfl | hg
      · exact fieldSrc_ok (h1 v List.mem_cons_self)
      · exact e2 g hg
    · rw [List.getLast_cons (by simp)]; exact e3
    · rw [fieldSrc_value (h1 v List.mem_cons_self), List.map_cons, e5]

theorem lines_of {g : List (List Text)} (h1 : ∀ r ∈ g, r ≠ [] ∧ ∀ v ∈ r, trim v = v) (h2 : ∀ r ∈ g, ∀ v, r.head? = some v → v.head? = some '#' → needsQuotes v = true)
    (h3 : ∀ r ∈ g, r ≠ [[]] ∧ ∀ w, r.getLast? = some w → needsQuotes w = false ∧ w.getLast? ≠ some '\\') :
    ∃ is : List Item, (∀ i ∈ is, i.Ok ',') ∧ is.flatMap (Item.text ',') = csvWrite g ∧ is.flatMap Item.values = g := by
  induction g with
  | nil => exact ⟨[], by simp, rfl, rfl⟩
  | cons r g ih =>
    obtain ⟨is, e1, e2, e3⟩ := ih (fun r hr => h1 r (List.mem_cons_of_mem _ hr)) (fun r hr => h2 r (List.mem_cons_of_mem _ hr)) (fun r hr => h3 r (List.mem_cons_of_mem _ hr))
    cases r with
    | nil => exact absurd rfl (h1 [] List.mem_cons_self).1
    | cons v vs =>
      obtain ⟨k1, k2, k3⟩ := record_item (h1 _ List.mem_cons_self).2 (h2 _ List.mem_cons_self v rfl) (h3 _ List.mem_cons_self).1 (h3 _ List.mem_cons_self).2
      refine ⟨.record (fieldSrc v) (vs.map fieldSrc) :: is, ?_, ?_, ?_⟩
      · intro i hi
        rcases List.mem_cons.mp hi with rfl | hi
        · exact k2
        · exact e1 i hi
      · rw [List.flatMap_cons, e2, ← k1]; rfl
      · rw [List.flatMap_cons, e3, k3]; rfl

theorem csvWrite_head (g : List (List Text)) : (csvWrite g).head? ≠ some '\n' := by
  cases g with
  | nil => simp [csvWrite]
  | cons r g =>
    rw [csvWrite, List.flatMap_cons, writeRecord]
    split
    · simp
    · rename_i h
      obtain ⟨c, t, e, hc⟩ := joinFields_start h
      rw [e]
      intro h'
      cases h'
      cases hc

theorem csvWrite_append (g h : List (List Text)) : csvWrite (g ++ h) = csvWrite g ++ csvWrite h := by simp [csvWrite]

/-- The cells section reader reads back what the CSV writer wrote. -/
theorem again_values {g : List (List Text)} (h : Again g) (n : Nat) : Csvp.Spec.values (Csvp.parse ⟨',', n⟩ (csvWrite g)) = some g := by
  by_cases hall : ∀ r ∈ g, r ≠ [[]] ∧ ∀ w, r.getLast? = some w → needsQuotes w = false
  · obtain ⟨is, e1, e2, e3⟩ := lines_of h.rows h.comment fun r hr => ⟨(hall r hr).1, fun w hw => ⟨(hall r hr).2 w hw, h.escape r hr w hw ((hall r hr).2 w hw)⟩⟩
    have := Csvp.cParse_items ',' (by decide) 0 is e1 [] (by rw [List.append_nil, e2]; exact csvWrite_head g)
    rw [List.replicate_zero, List.nil_append, List.append_nil, e2, e3] at this
    rw [Csvp.values_parse, this]
    simp [Csvp.cRecords, Csvp.cFields, Csvp.cField_nil]
  · rcases List.eq_nil_or_concat g with rfl | ⟨init, r, rfl⟩
    · rfl
    rw [List.concat_eq_append] at h hall ⊢
    have hinit : ∀ q ∈ init, q ≠ [[]] ∧ ∀ w, q.getLast? = some w → needsQuotes w = false := by
      intro q hq
      obtain ⟨s, t, rfl⟩ := List.append_of_mem hq
      exact h.quotes s q (t ++ [r]) (by simp) (by simp)
    have hr : r = [[]] ∨ ∃ w, r.getLast? = some w ∧ needsQuotes w = true := by
      by_contra hno
      rw [not_or] at hno
      refine hall fun q hq => ?_
      rcases List.mem_append.mp hq with hq | hq
      · exact hinit q hq
      · rw [List.mem_singleton.mp hq]
        refine ⟨hno.1, fun w hw => ?_⟩
        cases hn : needsQuotes w with
        | false => rfl
        | true => exact absurd ⟨w, hw, hn⟩ hno.2
    obtain ⟨is, e1, e2, e3⟩ := lines_of (g := init) (fun r hr => h.rows r (by simp [hr])) (fun r hr => h.comment r (by simp [hr]))
      (fun r hr => ⟨(hinit r hr).1, fun w hw => ⟨(hinit r hr).2 w hw, h.escape r (by simp [hr]) w hw ((hinit r hr).2 w hw)⟩⟩)
    have hlast : ∃ (f : FieldSrc) (fs : List FieldSrc), fieldsText ',' f fs = writeRecord r ∧ (∀ g ∈ f :: fs, g.Ok ',') ∧
        (∃ b w a, (f :: fs).getLast (by simp) = .quoted b w a) ∧ f.text.head? ≠ some '#' ∧ f.value :: fs.map FieldSrc.value = r := by
      rcases hr with rfl | ⟨w, hw, hn⟩
      · exact ⟨.quoted [] [] ['\n'], [], rfl, by intro g hg; rw [List.mem_singleton.mp hg]; exact ⟨rfl, rfl⟩, ⟨_, _, _, rfl⟩, by decide, rfl⟩
      · cases r with
        | nil => cases hw
        | cons v vs =>
          obtain ⟨f, fs, k1, k2, k3, k4, k5⟩ := record_quoted (h.rows (v :: vs) (by simp)).2 (fun x hx => by rw [hw] at hx; cases hx; exact hn)
          refine ⟨f, fs, ?_, k2, k3, ?_, k5⟩
          · have : joinFields (v :: vs) ≠ [] := by
              intro h'
              rcases joinFields_nil h' with h' | h'
              · cases h'
              · cases h'
                cases hw
                cases hn
            rw [k1, writeRecord, if_neg this]
          · rcases k4 with k4 | rfl
            · rw [k4]; decide
            · exact fieldSrc_head (h.comment (v :: vs) (by simp) v rfl)
    obtain ⟨f, fs, k1, k2, ⟨b, w, a, k3⟩, k4, k5⟩ := hlast
    have e : csvWrite (init ++ [r]) = is.flatMap (Item.text ',') ++ fieldsText ',' f fs := by
      rw [csvWrite_append, e2, k1]; simp [csvWrite]
    have := Csvp.C04_quoted_partial ⟨',', n⟩ (show SepOk ',' by decide) 0 is e1 f fs k4 (k2 f List.mem_cons_self) (fun g hg => k2 g (List.mem_cons_of_mem _ hg))
      (fun ps hps => by rw [k3] at hps; cases hps) (by show (is.flatMap (Item.text ',') ++ fieldsText ',' f fs).head? ≠ _; rw [← e]; exact csvWrite_head _)
    rw [List.replicate_zero, List.nil_append] at this
    rw [e, this, e3, k5]

/-- A cell as the program writes it: not the beginning of an option list or a byte order mark, and a formula is in the form in which formulas are displayed. -/
def Settled (E : Env) (v : Text) : Prop :=
  NoList v ∧ NoMark v ∧ (v.head? = some '=' → ∃ f, Parser.parse E.uni E.f64 v = .ok f ∧ v = '=' :: Parser.display f)

/-- Formulas without texts with quotes, names `fn` and floats in other notations are written like that. -/
theorem settled_formula {E : Env} {b : Ast} (hp : Parser.Parsed E.uni E.f64 b) (h : Parser.Plain E.f64 b) :
    ∃ f, Parser.parse E.uni E.f64 ('=' :: Parser.display b) = .ok f ∧ '=' :: Parser.display b = '=' :: Parser.display f := by
  obtain ⟨f, h1, h2⟩ := Parser.reread_exists hp h
  have := Parser.C12_display_parses E.uni E.f64 f h2
  rw [Parser.displayFormula] at this
  refine ⟨f, ?_, by rw [Parser.reread_text h1]⟩
  rw [← Parser.reread_text h1]; exact this

theorem settled_display {E : Env} {b : Ast} (hp : Parser.Parsed E.uni E.f64 b) (h : Parser.Plain E.f64 b) : Settled E ('=' :: Parser.display b) :=
  ⟨⟨fun ⟨t, h⟩ => (by cases h), fun ⟨t, h⟩ => (by cases h)⟩, by rw [NoMark]; simp; decide, fun _ => settled_formula hp h⟩

section
variable {E : Env} {a : Args} {fs : FS Text} {files : Files Text} {mp : MPath} {p : Path} {kv : Text → Option Ast}

/-- C79 for every CSV that can be read, with formulas (and without a separator line): every run succeeds, texts are written as they are, and formulas as they
are displayed, with the names that are given with `-k` replaced by their values. -/
theorem C79_formulas (version : Nat) (ts : List Text) (partials : Text → List Text) (cuts : List Nat) (hs : Setup E a mp p kv) (hb : CanBackup ts a files p)
    {t : Text} (hf : Fresh fs mp t) (hsep : ∀ l ∈ Source.rlines t, trim l ≠ ['-', '-', '-']) {g : List (List Text)}
    (hg : Csvp.Spec.values (Csvp.parse ⟨',', 0⟩ t) = some g)
    (hcells : ∀ r ∈ g, ∀ v ∈ r, NoList v ∧ NoMark v ∧ (v.head? = some '=' → ∃ f, Parser.parse E.uni E.f64 v = .ok f))
    {kvs : List (Text × Ast)} (hvalues : Parser.parseKeyValues E.uni E.f64 a.keyValues = some kvs) (horder : InOrder kvs)
    (h0 : NoMark (cellAt (rowsOf (files p)) 0 0)) :
    (∃ e states w, Main E version ts partials cuts a fs files e states w) ∧
    ∀ e states w, Main E version ts partials cuts a fs files e states w →
      e = some .success ∧ (∀ x ∈ w, x.1 = mp) ∧ ∃ final out, states.getLast? = some final ∧ Wrote files final p out ∧
        (csvRead out).length = g.length ∧
        (∀ i j r v, g[i]? = some r → r[j]? = some v → ∃ t, cellShown E (assign kvs) v t ∧
          cellAt (csvRead out) i j = if a.safe = true ∧ cellAt (rowsOf (files p)) i j ≠ [] then cellAt (rowsOf (files p)) i j else t) ∧
        ∀ i j r, g[i]? = some r → r.length ≤ j → cellAt (csvRead out) i j = cellAt (rowsOf (files p)) i j ∨ cellAt (csvRead out) i j = [] := by
  obtain ⟨c1, c2, c3⟩ := Source.C10_no_separator t hsep
  have := main_assignments version ts partials cuts hs hb hf (sc := Scope.empty) (defs := []) (by rw [c1]; rfl) (by rw [c2]; exact hg) hvalues (by rw [List.append_nil]; exact horder)
    hcells (fun _ => rfl) (fun _ => rfl) (by simp) h0
  rw [List.append_nil] at this
  exact this

/-- C102, the part that holds.  Let `out` be a CSV file as the program writes it (any records, written by the CSV writer).  If its records can be read as a
cells section (`Again`), its cells are `Settled` and it has no separator line, then the program, run without `-k` on `out` as its source, succeeds, and a target
that was not there before shows what `out` shows. -/
theorem C102_again_partial (version : Nat) (ts : List Text) (partials : Text → List Text) (cuts : List Nat) (hs : Setup E a mp p kv) (hb : CanBackup ts a files p)
    (ov : Bool) (s : Sheet) (old : Option Text) (hbom : NoBom ov s old) (hf : Fresh fs mp (writeCsv ov s old))
    (hsep : ∀ l ∈ Source.rlines (writeCsv ov s old), trim l ≠ ['-', '-', '-']) (hag : Again (csvRead (writeCsv ov s old)))
    (hset : ∀ r ∈ csvRead (writeCsv ov s old), ∀ v ∈ r, Settled E v) (hk : a.keyValues = []) (hnew : files p = none) :
    (∃ e states w, Main E version ts partials cuts a fs files e states w) ∧
    ∀ e states w, Main E version ts partials cuts a fs files e states w →
      e = some .success ∧ ∃ final out, states.getLast? = some final ∧ Wrote files final p out ∧
        (csvRead out).length = (csvRead (writeCsv ov s old)).length ∧ ∀ i j, cellAt (csvRead out) i j = cellAt (csvRead (writeCsv ov s old)) i j := by
  have hg : Csvp.Spec.values (Csvp.parse ⟨',', 0⟩ (writeCsv ov s old)) = some (csvRead (writeCsv ov s old)) := by
    have h1 := again_values hag 0
    have h2 : csvWrite (csvRead (writeCsv ov s old)) = writeCsv ov s old := by
      rw [writeCsv, read_write _ hbom]
      simp only [csvWrite, List.flatMap_map]
      congr 1
      funext r
      split
      · rename_i h; subst h; rfl
      · rfl
    rw [h2] at h1; exact h1
  have hempty : ∀ f, subst (assign []) f = f := subst_none
  obtain ⟨h1, h2⟩ := C79_formulas version ts partials cuts hs hb hf hsep hg (fun r hr v hv => ⟨(hset r hr v hv).1, (hset r hr v hv).2.1, fun h => by
    obtain ⟨f, h, -⟩ := (hset r hr v hv).2.2 h; exact ⟨f, h⟩⟩) (kvs := []) (by rw [hk]; rfl) trivial (by rw [hnew]; simp [NoMark, rowsOf, cellAt])
  refine ⟨h1, fun e states w h => ?_⟩
  obtain ⟨q1, -, final, out, q2, q3, q4, q5, q6⟩ := h2 e states w h
  refine ⟨q1, final, out, q2, q3, q4, fun i j => ?_⟩
  cases hr : (csvRead (writeCsv ov s old))[i]? with
  | none =>
    have : (csvRead out)[i]? = none := by rw [List.getElem?_eq_none_iff, q4]; exact List.getElem?_eq_none_iff.mp hr
    rw [cellAt, cellAt, hr, this]
  | some r =>
    have hold : cellAt (rowsOf (files p)) i j = [] := by rw [hnew]; simp [rowsOf, cellAt]
    cases hv : r[j]? with
    | some v =>
      obtain ⟨t, ⟨t1, t2⟩, t3⟩ := q5 i j r v hr hv
      have hv' : cellAt (csvRead (writeCsv ov s old)) i j = v := by rw [cellAt, hr]; simp [hv]
      rw [t3, hold, if_neg (by simp), hv']
      by_cases he : v.head? = some '='
      · obtain ⟨f, f1, f2⟩ := (hset r (List.mem_of_getElem? hr) v (List.mem_of_getElem? hv)).2.2 he
        rw [t2 f he f1, hempty, ← f2]
      · exact t1 he
    | none =>
      have hv' : cellAt (csvRead (writeCsv ov s old)) i j = [] := by rw [cellAt, hr]; simp [hv]
      rw [hv']
      rcases q6 i j r hr (List.getElem?_eq_none_iff.mp hv) with h | h
      · rw [h, hold]
      · exact h

/-- A source file that cannot be parsed. -/
theorem main_bad {version : Nat} {ts : List Text} {partials : Text → List Text} {cuts : List Nat} {src : Text} {x : LoadError} (hs : Setup E a mp p kv)
    (hf : Fresh fs mp src) (hp : parseModule E src = .error x) {e : Option Exit} {states : List (Files Text)} {w : List (MPath × Module Text)}
    (h : Main E version ts partials cuts a fs files e states w) : (e = some .failure ∨ e = some .panic) ∧ states = [files] ∧ w = [] := by
  obtain ⟨c, hc, h1, h2, h3⟩ := hs.configured
  have hcomp : ∀ {uc co w}, Compile (parseModule E) version uc kv fs mp co w → co = .error ∧ w = [] := fun h => (compile_alone_error hf hp).mp h
  cases h with
  | badArgs h' => rw [hc] at h'; cases h'
  | noName h' h'' => rw [hs.main] at h''; cases h''
  | failed h' hm hcm he =>
    rw [hc] at h'; cases h'
    rw [hs.main] at hm; cases hm
    refine ⟨?_, rfl, (hcomp hcm).2⟩
    rcases he with rfl | rfl
    · exact .inl rfl
    · exact .inr rfl
  | panics h' hm hcm => rw [hc] at h'; cases h'; rw [hs.main] at hm; cases hm; cases (hcomp hcm).1
  | hangs h' hm hcm => rw [hc] at h'; cases h'; rw [hs.main] at hm; cases hm; cases (hcomp hcm).1
  | compiled h' hm hcm => rw [hc] at h'; cases h'; rw [hs.main] at hm; cases hm; cases (hcomp hcm).1

/-- A compiled sheet of one column with the texts. -/
def column (vs : List Text) : Sheet := ⟨vs.map fun v => ⟨{}, none, [⟨none, ⟨⟨0, 0⟩, [], []⟩, v, {}⟩]⟩, true⟩

theorem outputRows_column (ov : Bool) (l : List Text) (i : Nat) : outputRows ov 1 [] i (column l).rows = l.map fun v => [v] := by
  induction l generalizing i with
  | nil => rfl
  | cons v l ih =>
    have e : (column (v :: l)).rows = ⟨{}, none, [⟨none, ⟨⟨0, 0⟩, [], []⟩, v, {}⟩]⟩ :: (column l).rows := rfl
    rw [e, outputRows, ih]
    rfl

theorem column_written (ov : Bool) (v : Text) (vs : List Text) : writeCsv ov (column (v :: vs)) none = csvWrite ((v :: vs).map fun v => [v]) := by
  have hw : ∀ (l : List Text), List.foldl max 1 ((column l).rows.map (·.cells.length)) = 1 := by
    intro l
    induction l with
    | nil => rfl
    | cons v l ih => exact ih
  have : widestRow (column (v :: vs)) = 1 := hw vs
  rw [writeCsv, this, readExisting, outputRows_column]

/-- C102 is false of the code: a target in which a cell with a comma, a quote or a line break, in a single column, is followed by any other cell is rejected as
a source file. -/
theorem C102_violated {version : Nat} {ts : List Text} {partials : Text → List Text} {cuts : List Nat} (hs : Setup E a mp p kv) (ov : Bool) (v w : Text)
    (rest : List Text) (hv : needsQuotes v = true) (hw : trim w = w ∧ w ≠ []) (hsep : ∀ l ∈ Source.rlines (writeCsv ov (column (v :: w :: rest)) none), trim l ≠ ['-', '-', '-'])
    (hf : Fresh fs mp (writeCsv ov (column (v :: w :: rest)) none)) {e : Option Exit} {states : List (Files Text)} {ws : List (MPath × Module Text)}
    (h : Main E version ts partials cuts a fs files e states ws) : (e = some .failure ∨ e = some .panic) ∧ states = [files] ∧ ws = [] := by
  obtain ⟨c1, c2, c3⟩ := Source.C10_no_separator _ hsep
  have hnext : ∃ c tl, csvWrite ((w :: rest).map fun v => [v]) = c :: tl ∧ isWs c = false ∧ c ≠ ',' := by
    obtain ⟨hw1, hw2⟩ := hw
    cases w with
    | nil => exact absurd rfl hw2
    | cons c w =>
      have hj : joinFields [c :: w] = writeField (c :: w) := rfl
      rw [List.map_cons, csvWrite, List.flatMap_cons, writeRecord, hj, writeField]
      split
      · exact ⟨'"', _, rfl, by decide, by decide⟩
      · rename_i hn
        refine ⟨c, _, rfl, Csvp.trim_head (c :: w) c (by rw [hw1]; rfl), ?_⟩
        rintro rfl
        exact hn rfl
  obtain ⟨c, tl, k1, k2, k3⟩ := hnext
  have e : writeCsv ov (column (v :: w :: rest)) none = fieldsText ',' (.quoted [] v []) [] ++ '\n' :: ([] ++ c :: tl) := by
    rw [column_written, List.map_cons]
    have : csvWrite ([v] :: (w :: rest).map fun v => [v]) = writeRecord [v] ++ csvWrite ((w :: rest).map fun v => [v]) := rfl
    have hj : joinFields [v] = writeField v := rfl
    rw [this, k1, writeRecord, hj, writeField, if_pos hv, fieldsText, FieldSrc.text, quoteText_doubled]
    simp
  have hbad := Csvp.C04_rejected ⟨',', (Source.SourceCode.new (writeCsv ov (column (v :: w :: rest)) none)).lenCode⟩ (show SepOk ',' by decide) 0 [] (by simp) (.quoted [] v []) []
    (by simp [FieldSrc.text]) ⟨rfl, rfl⟩ (by simp) (b := []) (v := v) (a := []) rfl (ws := []) (rest := tl) rfl k2 k3 (by simp [fieldsText, FieldSrc.text])
  rw [List.flatMap_nil, List.replicate_zero, List.nil_append, List.nil_append, ← e] at hbad
  refine main_bad hs hf (x := []) ?_ h
  rw [parseModule, c1]
  simp only [parseScope]
  rw [Sheet.parse, c2]
  split
  · rfl
  · rename_i heq
    split at heq
    · cases heq
    · rename_i recs hrecs
      rw [hrecs] at hbad; cases hbad

/-- C102 is also false of a target that begins with `#`: compiled again, the row is gone. -/
theorem C102_violated_comment (version : Nat) (ts : List Text) (partials : Text → List Text) (cuts : List Nat) (hs : Setup E a mp p kv) (hb : CanBackup ts a files p) (ov : Bool)
    (t : Text) (hq : needsQuotes t = false) (hf : Fresh fs mp (writeCsv ov (column ['#' :: t]) none)) (hk : a.keyValues = []) (hnew : files p = none) :
    (∃ e states w, Main E version ts partials cuts a fs files e states w) ∧
    ∀ e states w, Main E version ts partials cuts a fs files e states w →
      e = some .success ∧ ∃ final out, states.getLast? = some final ∧ Wrote files final p out ∧ csvRead out = [] := by
  have hq' : needsQuotes ('#' :: t) = false := by rw [needsQuotes, List.any_cons]; exact hq
  have hnl : '\n' ∉ t ∧ '\r' ∉ t := by
    constructor <;> intro h <;>
    · have : needsQuotes t = true := by rw [needsQuotes, List.any_eq_true]; exact ⟨_, h, by decide⟩
      rw [hq] at this; cases this
  have e : writeCsv ov (column ['#' :: t]) none = '#' :: (t ++ ['\n']) := by
    rw [column_written]
    have : csvWrite (['#' :: t].map fun v => [v]) = writeRecord ['#' :: t] ++ [] := rfl
    have hj : joinFields ['#' :: t] = writeField ('#' :: t) := rfl
    rw [this, writeRecord, hj, writeField, hq']
    simp
  rw [e] at hf
  have hlines : Source.rlines ('#' :: (t ++ ['\n'])) = ['#' :: t] := by
    have key : ∀ (t cur : Text), '\n' ∉ t → '\r' ∉ cur ++ t → Source.rlinesFrom cur (t ++ ['\n']) = [cur ++ t] := by
      intro t
      induction t with
      | nil =>
        intro cur _ h2
        rw [List.append_nil] at h2
        simp only [List.nil_append, Source.rlinesFrom, if_true, List.append_nil]
        rw [Source.stripCr, if_neg]
        intro h
        exact h2 (List.mem_of_getLast? h)
      | cons c t ih =>
        intro cur h1 h2
        rw [List.cons_append, Source.rlinesFrom, if_neg (by rintro rfl; simp at h1), ih _ (fun h => h1 (List.mem_cons_of_mem _ h)) (by simpa using h2)]
        simp
    have := key ('#' :: t) [] (by simpa using hnl.1) (by simpa using hnl.2)
    simpa [Source.rlines] using this
  have hg : Csvp.Spec.values (Csvp.parse ⟨',', 0⟩ ('#' :: (t ++ ['\n']))) = some [] := by
    have := Csvp.cParse_items ',' (by decide) 0 [.comment t] (by intro i hi; rw [List.mem_singleton.mp hi]; exact hnl.1) [] (by simp [Item.text])
    rw [List.replicate_zero, List.nil_append, List.append_nil] at this
    have e2 : [Item.comment t].flatMap (Item.text ',') = '#' :: (t ++ ['\n']) := by simp [Item.text]
    rw [e2] at this
    rw [Csvp.values_parse, this]
    simp [Csvp.cRecords, Csvp.cFields, Csvp.cField_nil, Item.values]
  obtain ⟨h1, h2⟩ := C79_formulas version ts partials cuts hs hb hf (by
    rw [hlines]
    intro l hl
    rw [List.mem_singleton.mp hl]
    intro h
    have h1 : trim ('#' :: t) = trimEnd ('#' :: t) := by rw [trim, Csvp.trimStart_cons, if_neg (by decide)]
    have h2 : trimEnd ('#' :: t) <+: '#' :: t := by
      have : (('#' :: t).reverse.dropWhile isWs) <:+ ('#' :: t).reverse := List.dropWhile_suffix _
      have := List.reverse_prefix.mpr this
      rwa [List.reverse_reverse] at this
    rw [← h1, h] at h2
    obtain ⟨x, hx⟩ := h2
    cases hx) hg (by simp) (kvs := []) (by rw [hk]; rfl) trivial (by rw [hnew]; simp [NoMark, rowsOf, cellAt])
  refine ⟨h1, fun e states w h => ?_⟩
  obtain ⟨q1, -, final, out, q2, q3, q4, -⟩ := h2 e states w h
  exact ⟨q1, final, out, q2, q3, List.length_eq_zero_iff.mp q4⟩

/-! ### An example: `=f(TRUE, 1)` and `a, b` in the first column, `ok` and nothing in the second -/

def againSheet : Sheet :=
  ⟨[⟨{}, none, [⟨some (.call "f".toList [.bool true, .int false none 1]), ⟨⟨0, 0⟩, [], []⟩, [], {}⟩, ⟨none, ⟨⟨1, 0⟩, [], []⟩, "ok".toList, {}⟩]⟩,
    ⟨{}, none, [⟨none, ⟨⟨0, 1⟩, [], []⟩, "a, b".toList, {}⟩]⟩], true⟩

theorem again_records : csvRead (writeCsv true againSheet none) = [["=f(TRUE, 1)".toList, "ok".toList], ["a, b".toList, []]] := by decide

theorem again_ok : Again (csvRead (writeCsv true againSheet none)) := by
  rw [again_records]
  refine ⟨by decide, ?_, ?_, ?_⟩
  · intro r hr v hv
    simp only [List.mem_cons, List.not_mem_nil, or_false] at hr
    rcases hr with rfl | rfl <;> cases hv <;> decide
  · intro before r after h ha
    rcases before with _ | ⟨b, _ | ⟨b', before⟩⟩
    · cases h
      refine ⟨by decide, fun v hv => ?_⟩
      cases hv; rfl
    · cases h; exact absurd rfl ha
    · simp at h
  · intro r hr v hv
    simp only [List.mem_cons, List.not_mem_nil, or_false] at hr
    rcases hr with rfl | rfl <;> cases hv <;> decide

theorem again_settled (E : Env) : ∀ r ∈ csvRead (writeCsv true againSheet none), ∀ v ∈ r, Settled E v := by
  rw [again_records]
  have h1 : Settled E "=f(TRUE, 1)".toList := by
    refine settled_display (b := .call "f".toList [.bool true, .int false none 1]) ?_ ?_
    · exact parse_parsed (v := "=f(true, 1)".toList) (Parser.parse_lexed (e := _)
        (ts := [⟨.reference, "f".toList⟩, ⟨.openParen, "(".toList⟩, ⟨.boolean, "true".toList⟩, ⟨.comma, ",".toList⟩, ⟨.integer, "1".toList⟩, ⟨.closeParen, ")".toList⟩]) rfl rfl rfl)
    · refine .call (by decide) fun a ha => ?_
      simp only [List.mem_cons, List.not_mem_nil, or_false] at ha
      rcases ha with rfl | rfl
      · exact .bool
      · exact .int
  have h2 : ∀ v : Text, v ∈ ["ok".toList, "a, b".toList, []] → Settled E v := by
    intro v hv
    simp only [List.mem_cons, List.not_mem_nil, or_false] at hv
    rcases hv with rfl | rfl | rfl <;> exact ⟨by unfold NoList; decide, by unfold NoMark; decide, fun h => by cases h⟩
  intro r hr v hv
  simp only [List.mem_cons, List.not_mem_nil, or_false] at hr
  rcases hr with rfl | rfl
  · simp only [List.mem_cons, List.not_mem_nil, or_false] at hv
    rcases hv with rfl | rfl
    · exact h1
    · exact h2 _ (by simp)
  · simp only [List.mem_cons, List.not_mem_nil, or_false] at hv
    rcases hv with rfl | rfl
    · exact h2 _ (by simp)
    · exact h2 _ (by simp)

/-- C102 on the example. -/
example (E : Env) (version : Nat) (e : Option Exit) (states : List (Files Text)) (w : List (MPath × Module Text))
    (h : Main E version [] (fun _ => []) [] (exampleArgs false []) (exampleFs (writeCsv true againSheet none)) (fun _ => none) e states w) :
    e = some .success ∧ ∃ final out, states.getLast? = some final ∧ Wrote (fun _ => none) final (Path.ofText "out.csv".toList) out ∧
      cellAt (csvRead out) 0 0 = "=f(TRUE, 1)".toList ∧ cellAt (csvRead out) 1 0 = "a, b".toList := by
  obtain ⟨h1, final, out, h2, h3, -, h4⟩ := (C102_again_partial version [] (fun _ => []) [] (exampleSetup E false [] [] rfl) (by intro h; cases h) true againSheet none
    (by unfold NoBom; decide) (exampleFresh _) (by decide) again_ok (again_settled E) rfl rfl).2 e states w h
  refine ⟨h1, final, out, h2, h3, ?_, ?_⟩
  · rw [h4, again_records]; rfl
  · rw [h4, again_records]; rfl

/-- `"a,b"⏎c⏎` meets the conditions of `C102_violated`. -/
example : needsQuotes "a,b".toList = true ∧ (trim "c".toList = "c".toList ∧ "c".toList ≠ []) ∧ writeCsv true (column ["a,b".toList, "c".toList]) none = "\"a,b\"\nc\n".toList ∧
    ∀ l ∈ Source.rlines "\"a,b\"\nc\n".toList, trim l ≠ ['-', '-', '-'] := by decide

end
end Verif.Cli
