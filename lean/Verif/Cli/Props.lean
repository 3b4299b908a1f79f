import Verif.Cli.Cells
import Verif.Cli.Split
import Verif.Parser.Code
import Verif.Csvp.Props
import Verif.Parser.Props
import Verif.Ast.Assign
/-
End to end: from the source file to the target (C79, C80).
-/
namespace Verif.Cli
open Verif.Ast Verif.Loader Verif.Sheet Verif.Cache Verif.Csvp.Spec
open Verif.Cell hiding Target
open Verif.Target hiding MPath

/-! ## C79 -/

/-- A text that is CSV without anything special: no quotes, no escapes, no `---` line, and no cell that begins with `=`, with an option list or
with a byte order mark. -/
structure PlainCsv (t : Text) : Prop where
  quotes : '"' ∉ t
  escapes : '\\' ∉ t
  separator : ∀ l ∈ Source.rlines t, trim l ≠ ['-', '-', '-']
  cells : ∀ r ∈ naive ',' t, ∀ v ∈ r, v.head? ≠ some '=' ∧ NoList v ∧ NoMark v

theorem PlainCsv.trimmed {t : Text} (h : PlainCsv t) : (∀ r ∈ naive ',' t, r ≠ [] ∧ ∀ v ∈ r, trim v = v) ∧
    Csvp.Spec.values (Csvp.parse ⟨',', 0⟩ t) = some (naive ',' t) := by
  have hv := Csvp.C47_naive ⟨',', 0⟩ (by decide) t h.quotes h.escapes
  refine ⟨?_, hv⟩
  simp only at hv
  cases hp : Csvp.parse ⟨',', 0⟩ t with
  | error e => rw [hp] at hv; cases hv
  | ok recs =>
    rw [hp] at hv
    simp only [Csvp.Spec.values, Option.some.injEq] at hv
    rw [← hv]
    intro r hr
    obtain ⟨rec, hrec, rfl⟩ := List.mem_map.mp hr
    refine ⟨by simpa using (Csvp.C09_shape _ _ _ hp).1 rec hrec, fun v hv => ?_⟩
    obtain ⟨f, hf, rfl⟩ := List.mem_map.mp hv
    obtain ⟨h1, h2⟩ := Csvp.C08_trimmed _ _ _ hp rec hrec f hf
    exact trim_of_trimmed h1 h2

theorem total_plain {rows part : List Row} (h : ∀ r ∈ part, r.fill = none) : total rows part = part.length := by
  induction part with
  | nil => rfl
  | cons r part ih =>
    rw [total_cons, ih fun r hr => h r (List.mem_cons_of_mem _ hr), (C24_copies rows r).1 (h r List.mem_cons_self), List.length_cons, Nat.add_comm]

theorem evalFills_plain {rows : List Row} (h : ∀ r ∈ rows, r.fill = none) : ∃ s₁, evalFills ⟨rows, false⟩ = some s₁ := by
  cases hf : evalFills ⟨rows, false⟩ with
  | some s₁ => exact ⟨s₁, rfl⟩
  | none =>
    rw [C25_rejected_iff] at hf
    rw [List.filter_eq_nil_iff.mpr] at hf
    · simp at hf
    · intro r hr
      simp only [decide_eq_true_eq]
      rintro ⟨y, hy⟩
      rw [h r hr] at hy; cases hy

section
variable {E : Env} {version : Nat} {ts : List Text} {partials : Text → List Text} {cuts : List Nat} {a : Args} {fs : FS Text} {files : Files Text}
  {mp : MPath} {p : Path} {kv : Text → Option Ast}

/-- C79.  If the source file is plain CSV, every run of the program succeeds and puts every cell, without the white space around it, where it
stands in the source file (with `--safe`, unless the target has something there); other files, except for object files of the source file and the
backup, are left alone.  And there is a run. -/
theorem C79_plain (version : Nat) (ts : List Text) (partials : Text → List Text) (cuts : List Nat) (hs : Setup E a mp p kv) (hb : CanBackup ts a files p)
    {t : Text} (hf : Fresh fs mp t) (hplain : PlainCsv t) (h0 : NoMark (cellAt (rowsOf (files p)) 0 0)) :
    (∃ e states w, Main E version ts partials cuts a fs files e states w) ∧
    ∀ e states w, Main E version ts partials cuts a fs files e states w →
      e = some .success ∧ (∀ x ∈ w, x.1 = mp) ∧ ∃ final out, states.getLast? = some final ∧ Wrote files final p out ∧
        (csvRead out).length = (naive ',' t).length ∧
        (∀ i j r v, (naive ',' t)[i]? = some r → r[j]? = some v →
          cellAt (csvRead out) i j = if a.safe = true ∧ cellAt (rowsOf (files p)) i j ≠ [] then cellAt (rowsOf (files p)) i j else v) ∧
        (files p = none → ∀ i j, cellAt (csvRead out) i j = cellAt (naive ',' t) i j) := by
  obtain ⟨c1, c2, c3⟩ := Source.C10_no_separator t hplain.separator
  obtain ⟨t1, t2⟩ := hplain.trimmed
  have hcode : parseScope E (Source.SourceCode.new t).code = .ok (Scope.empty, []) := by rw [c1]; rfl
  have hg : Csvp.Spec.values (Csvp.parse ⟨',', (Source.SourceCode.new t).lenCode⟩ (Source.SourceCode.new t).csv) = some (naive ',' t) := by
    rw [c2, c3, t2]
  have hrt : List.Forall₂ (RowText E) (naive ',' t) ((naive ',' t).map plainRow) := by
    rw [List.forall₂_map_right_iff, List.forall₂_same]
    exact fun r hr => rowText_plain (t1 r hr).1 fun v hv => ⟨(t1 r hr).2 v hv, (hplain.cells r hr v hv).2.1⟩
  have hform : ∀ r ∈ (naive ',' t).map plainRow, FormulaTexts E r := by
    rintro _ hr ⟨ss, v⟩ hc he
    obtain ⟨r, hr', rfl⟩ := List.mem_map.mp hr
    simp only [plainRow, List.mem_map, Prod.mk.injEq] at hc
    obtain ⟨v', hv', -, rfl⟩ := hc
    exact absurd he (hplain.cells r hr' v' hv').1
  have hmark : ∀ r ∈ (naive ',' t).map plainRow, ∀ c ∈ r.cells, NoMark c.2 := by
    rintro _ hr ⟨ss, v⟩ hc
    obtain ⟨r, hr', rfl⟩ := List.mem_map.mp hr
    simp only [plainRow, List.mem_map, Prod.mk.injEq] at hc
    obtain ⟨v', hv', -, rfl⟩ := hc
    exact (hplain.cells r hr' v' hv').2.2
  obtain ⟨rows, ⟨l1, l2⟩, hpm, hmain⟩ := main_cells (version := version) (partials := partials) (cuts := cuts) hs hb hf hcode hg hrt hform h0 hmark
  rw [List.length_map] at l1
  have hrow : ∀ (i : Nat) (row : Row), rows[i]? = some row → ∃ r, (naive ',' t)[i]? = some r ∧ row.fill = none ∧
      row.cells.map (fun c => (c.value, c.ast)) = r.map fun v => (v, none) := by
    intro i row hrow
    have hi : i < (naive ',' t).length := by rw [← l1]; exact (List.getElem?_eq_some_iff.mp hrow).1
    refine ⟨(naive ',' t)[i], List.getElem?_eq_getElem hi, ?_⟩
    obtain ⟨row', h1, h2⟩ := l2 i (plainRow (naive ',' t)[i]) (by rw [List.getElem?_map, List.getElem?_eq_getElem hi]; rfl)
    rw [hrow] at h1; cases h1
    refine ⟨h2.fill, ?_⟩
    have := congrArg (List.map Prod.snd) h2.cells
    simp only [List.map_map] at this
    have e1 : (row.cells.map (fun c => (c.value, c.ast))) = List.map (Prod.snd ∘ fun c => (c.opts, c.value, c.ast)) row.cells := rfl
    rw [e1, this]
    simp only [plainRow, List.map_map]
    refine List.map_congr_left fun v hv => ?_
    simp only [Function.comp]
    rw [formulaOf, if_neg (hplain.cells _ (List.getElem_mem hi) v hv).1]
  have hfill : ∀ r ∈ rows, r.fill = none := by
    intro r hr
    obtain ⟨i, hi⟩ := List.getElem?_of_mem hr
    exact (hrow i r hi).choose_spec.2.1
  have hast : ∀ r ∈ rows, ∀ c ∈ r.cells, c.ast = none := by
    intro r hr c hc
    obtain ⟨i, hi⟩ := List.getElem?_of_mem hr
    obtain ⟨r', -, -, h⟩ := hrow i r hi
    have : (c.value, c.ast) ∈ r.cells.map (fun c => (c.value, c.ast)) := List.mem_map.mpr ⟨c, hc, rfl⟩
    rw [h] at this
    obtain ⟨v, -, hv⟩ := List.mem_map.mp this
    exact (Prod.mk.inj hv).2.symm
  obtain ⟨s₁, hs₁⟩ := evalFills_plain hfill
  constructor
  · obtain ⟨l, -, rfl⟩ := hs.values
    obtain ⟨ke, hke⟩ := isEnum_collect l
    obtain ⟨s', hs'⟩ := evalSheet_exists (sc := Scope.empty) (ext := collect l) hs₁ (own := []) ⟨by simp, by intro n v; simp [Scope.empty]⟩ hke
      (fun y q x c f hq hc hf => by
        obtain ⟨before, r, after, i, f1, -, -, f4⟩ := expanded_row hs₁ hq
        have : c.ast = none := hast r (by rw [f1]; simp) c (by subst f4; exact List.mem_of_getElem? hc)
        rw [this] at hf; cases hf)
    exact main_alone_exists hs hf hpm rfl hs'
  · intro e states w h
    obtain ⟨hw, ⟨s₁', final, out, q1, q2, q3, q4, q5, q6, q7⟩ | ⟨-, -, q⟩⟩ := hmain e states w h
    · have htot : ∀ before after : List Row, rows = before ++ after → total rows before = before.length := fun before after he =>
        total_plain fun r hr => hfill r (by rw [he]; exact List.mem_append_left _ hr)
      have hlen : (csvRead out).length = (naive ',' t).length := by rw [q5, htot rows [] (by simp), l1]
      have hcell : ∀ i j r v, (naive ',' t)[i]? = some r → r[j]? = some v →
          cellAt (csvRead out) i j = if a.safe = true ∧ cellAt (rowsOf (files p)) i j ≠ [] then cellAt (rowsOf (files p)) i j else v := by
        intro i j r v hr hv
        have hi : i < rows.length := by rw [l1]; exact (List.getElem?_eq_some_iff.mp hr).1
        obtain ⟨r', k1, -, k3⟩ := hrow i rows[i] (List.getElem?_eq_getElem hi)
        rw [hr] at k1; cases k1
        have hj : j < rows[i].cells.length := by
          have := congrArg List.length k3
          simp only [List.length_map] at this
          rw [this]; exact (List.getElem?_eq_some_iff.mp hv).1
        have hsplit : rows = rows.take i ++ rows[i] :: rows.drop (i + 1) := by
          rw [List.getElem_cons_drop, List.take_append_drop]
        obtain ⟨x, m1, m2, -⟩ := q6 _ _ _ hsplit 0 (by rw [(C24_copies rows _).1 (hfill _ (List.getElem_mem hi))]; omega) j _ (List.getElem?_eq_getElem hj)
        have ht : total rows (rows.take i) + 0 = i := by rw [htot _ _ (List.take_append_drop i rows).symm]; simp; omega
        rw [ht] at m1
        have hval : rows[i].cells[j].value = v := by
          have := congrArg (fun l => l[j]?) k3
          simp only [List.getElem?_map, List.getElem?_eq_getElem hj, hv, Option.map_some, Option.some.injEq, Prod.mk.injEq] at this
          exact this.1
        rw [m1, shown, m2 (hast _ (List.getElem_mem hi) _ (List.getElem_mem hj)), hval]
      refine ⟨q2, hw, final, out, q3, q4, hlen, hcell, ?_⟩
      intro hnone i j
      cases hr : (naive ',' t)[i]? with
      | none =>
        have : (csvRead out)[i]? = none := by rw [List.getElem?_eq_none_iff, hlen]; exact List.getElem?_eq_none_iff.mp hr
        rw [cellAt, cellAt, hr, this]
      | some r =>
        cases hv : r[j]? with
        | some v =>
          rw [hcell i j r v hr hv, hnone, if_neg (by simp [rowsOf, cellAt]), cellAt, hr]
          simp [hv]
        | none =>
          have hi : i < rows.length := by rw [l1]; exact (List.getElem?_eq_some_iff.mp hr).1
          obtain ⟨r', k1, -, k3⟩ := hrow i rows[i] (List.getElem?_eq_getElem hi)
          rw [hr] at k1; cases k1
          have hsplit : rows = rows.take i ++ rows[i] :: rows.drop (i + 1) := by
            rw [List.getElem_cons_drop, List.take_append_drop]
          have ht : total rows (rows.take i) + 0 = i := by rw [htot _ _ (List.take_append_drop i rows).symm]; simp; omega
          have := q7 _ _ _ hsplit 0 (by rw [(C24_copies rows _).1 (hfill _ (List.getElem_mem hi))]; omega) j (by
            have := congrArg List.length k3
            simp only [List.length_map] at this
            rw [this]; exact List.getElem?_eq_none_iff.mp hv)
          rw [ht, hnone] at this
          have he : cellAt (naive ',' t) i j = [] := by rw [cellAt, hr]; simp [hv]
          rw [he]
          rcases this with h | h
          · rw [h]; simp [rowsOf, cellAt]
          · exact h
    · exfalso
      rcases q with q | ⟨s₂, -, before, r, after, i, x, c, f, er, f1, -, f3, f4, -⟩
      · rw [hs₁] at q; cases q
      · rw [hast r (by rw [f1]; simp) c (List.mem_of_getElem? f3)] at f4; cases f4

/-! ## C80 -/

open Verif.Parser (Stmt Line codeText stmts)

/-- A source file with a code section that has the lines `ls` and no `use`, a separator line, and the cells section `csv` (with or without a
newline at the end). -/
structure SourceFile (E : Env) (ls : List Line) (csv src : Text) : Prop where
  lines : ∀ l ∈ ls, l.Ok E.uni E.f64
  uses : ∀ m, Stmt.use m ∉ stmts ls
  separator : ∀ l ∈ splitAt '\n' (codeText ls), trim l ≠ ['-', '-', '-']
  codeCr : '\r' ∉ codeText ls
  csvCr : '\r' ∉ csv
  text : ∃ t, Source.Ended csv t ∧ src = codeText ls ++ "\n---\n".toList ++ t

theorem SourceFile.split {E : Env} {ls : List Line} {csv src : Text} (h : SourceFile E ls csv src) :
    (Source.SourceCode.new src).code = some (codeText ls) ∧ (Source.SourceCode.new src).csv = csv := by
  obtain ⟨t, h1, rfl⟩ := h.text
  have := Source.split_source (codeText ls) ['-', '-', '-'] csv t h.codeCr h.separator (by decide) (by decide) (by decide) h.csvCr h1
  have he : codeText ls ++ "\n---\n".toList ++ t = codeText ls ++ '\n' :: (['-', '-', '-'] ++ '\n' :: t) := by
    rw [List.append_assoc]; rfl
  rw [he]
  exact ⟨this.1, this.2.1⟩

theorem usesFirst_of {ss : List Stmt} (h : ∀ m, Stmt.use m ∉ ss) : Parser.UsesFirst ss := by
  induction ss with
  | nil => trivial
  | cons s ss ih =>
    have h' : ∀ m, Stmt.use m ∉ ss := fun m hm => h m (List.mem_cons_of_mem _ hm)
    cases s with
    | use m => exact absurd List.mem_cons_self (h m)
    | fn => exact ⟨h', ih h'⟩
    | var => exact ⟨h', ih h'⟩

theorem modules_of {ss : List Stmt} (h : ∀ m, Stmt.use m ∉ ss) : ss.filterMap Stmt.module? = [] := by
  rw [List.filterMap_eq_nil_iff]
  intro s hs
  cases s with
  | use m => exact absurd hs (h m)
  | fn => rfl
  | var => rfl

/-- The definitions `sc` are those of the statements: for every name the last one. -/
structure Defines (ss : List Stmt) (sc : Scope) : Prop where
  functions : ∀ n, sc.functions n = (ss.filterMap (Stmt.function? n)).getLast?
  vars : ∀ n, sc.variables n = (ss.filterMap (Stmt.variable? n)).getLast?

variable {ls : List Line} {csv src : Text} {g : List (List Text)} {rs : List RowSrc}

/-- C80.  For a source file with a code section and a cells section, every run of the program ends in one of two ways.  Either it succeeds, and
the target shows the rows of the cells section, each as often as its fill says, with texts as they are and formulas with the names resolved
according to the code section, the named cells and `-k`.  Or it is unsuccessful and leaves all files but object files alone, because the fills
cannot be expanded or a formula has an error. -/
theorem C80_program (version : Nat) (ts : List Text) (partials : Text → List Text) (cuts : List Nat) (hs : Setup E a mp p kv) (hb : CanBackup ts a files p)
    (hsrc : SourceFile E ls csv src) (hf : Fresh fs mp src) (hg : Csvp.Spec.values (Csvp.parse ⟨',', 0⟩ csv) = some g)
    (ht : List.Forall₂ (RowText E) g rs) (hform : ∀ r ∈ rs, FormulaTexts E r) (h0 : NoMark (cellAt (rowsOf (files p)) 0 0))
    (h1 : ∀ r ∈ rs, ∀ c ∈ r.cells, NoMark c.2) :
    ∃ sc rows, Defines (stmts ls) sc ∧ AreRows E rs rows ∧ ∀ e states w, Main E version ts partials cuts a fs files e states w →
      (∀ x ∈ w, x.1 = mp) ∧
      ((∃ s₁ final out, evalFills ⟨rows, false⟩ = some s₁ ∧ e = some .success ∧ states.getLast? = some final ∧ Wrote files final p out ∧
          Shows (effective sc kv s₁) a.safe rows (rowsOf (files p)) (csvRead out)) ∨
        ((e = some .failure ∨ e = some .panic) ∧ states = [files] ∧
          (2 ≤ (rows.filter fun r => decide (Unbounded r)).length ∨
            ∃ s₁, evalFills ⟨rows, false⟩ = some s₁ ∧ HasError (effective sc kv s₁) rows))) := by
  obtain ⟨c1, c2⟩ := hsrc.split
  obtain ⟨sc, s1, s2, s3, -⟩ := Parser.C48_code_section_partial E.uni E.f64 ls hsrc.lines (usesFirst_of hsrc.uses)
  rw [modules_of hsrc.uses] at s1
  obtain ⟨rows, r1, -, r2⟩ := main_cells (version := version) (partials := partials) (cuts := cuts) hs hb hf (sc := sc)
    (by rw [c1]; exact s1) (by rw [c2, Csvp.values_parse]; rw [Csvp.values_parse] at hg; exact hg) ht hform h0 h1
  refine ⟨sc, rows, ⟨s2, s3⟩, r1, fun e states w h => ?_⟩
  obtain ⟨hw, h | ⟨q1, q2, q3⟩⟩ := r2 e states w h
  · exact ⟨hw, .inl h⟩
  · refine ⟨hw, .inr ⟨q1, q2, ?_⟩⟩
    rw [C25_rejected_iff] at q3
    exact q3

theorem parsed_plain {u : Parser.Uni} {F : Parser.F64} {f : Ast} (h : Parser.Parsed u F f) : plain f ∧ ∀ pos, resolve pos f = some f := by
  refine ⟨?_, fun pos => by cases h <;> rfl⟩
  induction h with
  | call _ _ ih =>
    rw [plain]
    rename_i args _ _
    have : ∀ l : List Ast, (∀ x ∈ l, plain x = true) → plainL l = true := by
      intro l
      induction l with
      | nil => intro _; rfl
      | cons x l ihl =>
        intro hl
        rw [plainL, hl x List.mem_cons_self, ihl fun y hy => hl y (List.mem_cons_of_mem _ hy)]
        rfl
    exact this args ih
  | «infix» _ _ _ ih1 ih2 => rw [plain, ih1, ih2]; rfl
  | _ => rfl

theorem parse_parsed {u : Parser.Uni} {F : Parser.F64} {v : Text} {f : Ast} (h : Parser.parse u F v = .ok f) : Parser.Parsed u F f := by
  obtain ⟨ts, r, hts, hp, _⟩ := Parser.parse_some h
  exact (Parser.parsed F false u _).1 _ _ _ _ hts hp

theorem printable_parsed {u : Parser.Uni} {F : Parser.F64} {f : Ast} (h : Parser.Printable u F f) : Parser.Parsed u F f :=
  parse_parsed (Parser.C12_display_parses u F f h)

theorem keyValues_parsed {u : Parser.Uni} {F : Parser.F64} {kvs : List Text} {l : List (Text × Ast)} (h : Parser.parseKeyValues u F kvs = some l) :
    ∀ d ∈ l, Parser.Parsed u F d.2 := by
  induction kvs generalizing l with
  | nil => cases h; simp
  | cons k kvs ih =>
    rw [Parser.parseKeyValues] at h
    split at h
    · split at h
      · rename_i f hf
        rw [Option.map_eq_some_iff] at h
        obtain ⟨l', h1, rfl⟩ := h
        intro d hd
        rcases List.mem_cons.mp hd with rfl | hd
        · exact parse_parsed hf
        · exact ih h1 d hd
      · cases h
    · cases h

theorem last_var {defs : List (Text × Ast)} {d : Text × Ast} (hd : d ∈ defs) (ho : InOrder defs) :
    ((defs.map fun d => Stmt.var d.1 d.2).filterMap (Stmt.variable? d.1)).getLast? = some (.var d.1 d.2) := by
  obtain ⟨s, t, rfl⟩ := List.append_of_mem hd
  have h1 := (inOrder_append ho).1
  rw [List.map_append, List.map_cons, List.filterMap_append, List.filterMap_cons]
  have h2 : (t.map fun d => Stmt.var d.1 d.2).filterMap (Stmt.variable? d.1) = [] := by
    rw [List.filterMap_eq_nil_iff]
    intro s hs
    obtain ⟨e, he, rfl⟩ := List.mem_map.mp hs
    exact if_neg (h1 e he)
  simp only [Stmt.variable?, if_true, h2]
  simp

theorem no_var {defs : List (Text × Ast)} {n : Text} (h : ∀ d ∈ defs, d.1 ≠ n) :
    ((defs.map fun d => Stmt.var d.1 d.2).filterMap (Stmt.variable? n)) = [] := by
  rw [List.filterMap_eq_nil_iff]
  intro s hs
  obtain ⟨e, he, rfl⟩ := List.mem_map.mp hs
  exact if_neg (h e he)

theorem collect_order {l m : List (Text × Ast)} (ho : InOrder (l ++ m)) {d : Text × Ast} (hd : d ∈ l) : collect l d.1 = some d.2 := by
  obtain ⟨s, t, rfl⟩ := List.append_of_mem hd
  rw [List.append_assoc, List.cons_append] at ho
  have h1 := (inOrder_append ho).1
  rw [List.append_cons, collect_app, collect_none t d.1 fun e he => h1 e (List.mem_append_left _ he), Option.none_or, collect_snoc, if_pos rfl]

/-- The program assigns `defs` in the code section, one after the other, after `kvs` on the command line, and the cells have no options. -/
structure Assignments (E : Env) (a : Args) (ls : List Line) (g : List (List Text)) (kvs defs : List (Text × Ast)) : Prop where
  values : Parser.parseKeyValues E.uni E.f64 a.keyValues = some kvs
  code : stmts ls = defs.map fun d => .var d.1 d.2
  order : InOrder (kvs ++ defs)
  cells : ∀ r ∈ g, ∀ v ∈ r, NoList v ∧ NoMark v ∧ (v.head? = some '=' → ∃ f, Parser.parse E.uni E.f64 v = .ok f)

/-- What the target shows for a cell with the text: the text or, for a formula, the formula with the names replaced by their values. -/
def cellShown (E : Env) (σ : Text → Option Ast) (v t : Text) : Prop :=
  (v.head? ≠ some '=' → t = v) ∧ ∀ f, v.head? = some '=' → Parser.parse E.uni E.f64 v = .ok f → t = '=' :: Parser.display (subst σ f)

/-- Every run on a source file whose code section is the assignments `defs`. -/
theorem main_assignments (version : Nat) (ts : List Text) (partials : Text → List Text) (cuts : List Nat) (hs : Setup E a mp p kv) (hb : CanBackup ts a files p)
    (hf : Fresh fs mp src) {sc : Scope} (s1 : parseScope E (Source.SourceCode.new src).code = .ok (sc, []))
    (hg : Csvp.Spec.values (Csvp.parse ⟨',', 0⟩ (Source.SourceCode.new src).csv) = some g)
    {kvs defs : List (Text × Ast)} (hvalues : Parser.parseKeyValues E.uni E.f64 a.keyValues = some kvs) (horder : InOrder (kvs ++ defs))
    (hcells : ∀ r ∈ g, ∀ v ∈ r, NoList v ∧ NoMark v ∧ (v.head? = some '=' → ∃ f, Parser.parse E.uni E.f64 v = .ok f))
    (s2 : ∀ n, sc.functions n = none) (s3 : ∀ n, sc.variables n = ((defs.map fun d => Stmt.var d.1 d.2).filterMap (Stmt.variable? n)).getLast?)
    (hdefs : ∀ d ∈ defs, Parser.Parsed E.uni E.f64 d.2) (h0 : NoMark (cellAt (rowsOf (files p)) 0 0)) :
    (∃ e states w, Main E version ts partials cuts a fs files e states w) ∧
    ∀ e states w, Main E version ts partials cuts a fs files e states w →
      e = some .success ∧ (∀ x ∈ w, x.1 = mp) ∧ ∃ final out, states.getLast? = some final ∧ Wrote files final p out ∧
        (csvRead out).length = g.length ∧
        (∀ i j r v, g[i]? = some r → r[j]? = some v → ∃ t, cellShown E (assign (kvs ++ defs)) v t ∧
          cellAt (csvRead out) i j = if a.safe = true ∧ cellAt (rowsOf (files p)) i j ≠ [] then cellAt (rowsOf (files p)) i j else t) ∧
        ∀ i j r, g[i]? = some r → r.length ≤ j → cellAt (csvRead out) i j = cellAt (rowsOf (files p)) i j ∨ cellAt (csvRead out) i j = [] := by
  have hkv : kv = collect kvs := by
    obtain ⟨l, h1, h2⟩ := hs.values
    rw [hvalues] at h1; cases h1; exact h2
  have htrim : ∀ r ∈ g, r ≠ [] ∧ ∀ v ∈ r, trim v = v := by
    cases hp : Csvp.parse ⟨',', 0⟩ (Source.SourceCode.new src).csv with
    | error e => rw [hp] at hg; cases hg
    | ok recs =>
      rw [hp] at hg
      simp only [Csvp.Spec.values, Option.some.injEq] at hg
      rw [← hg]
      intro r hr
      obtain ⟨rec, hrec, rfl⟩ := List.mem_map.mp hr
      refine ⟨by simpa using (Csvp.C09_shape _ _ _ hp).1 rec hrec, fun v hv => ?_⟩
      obtain ⟨f, hf, rfl⟩ := List.mem_map.mp hv
      obtain ⟨h1, h2⟩ := Csvp.C08_trimmed _ _ _ hp rec hrec f hf
      exact trim_of_trimmed h1 h2
  have hrt : List.Forall₂ (RowText E) g (g.map plainRow) := by
    rw [List.forall₂_map_right_iff, List.forall₂_same]
    exact fun r hr => rowText_plain (htrim r hr).1 fun v hv => ⟨(htrim r hr).2 v hv, (hcells r hr v hv).1⟩
  have hform : ∀ r ∈ g.map plainRow, FormulaTexts E r := by
    rintro _ hr ⟨ss, v⟩ hc he
    obtain ⟨r, hr', rfl⟩ := List.mem_map.mp hr
    simp only [plainRow, List.mem_map, Prod.mk.injEq] at hc
    obtain ⟨v', hv', -, rfl⟩ := hc
    exact (hcells r hr' v' hv').2.2 he
  have hmark : ∀ r ∈ g.map plainRow, ∀ c ∈ r.cells, NoMark c.2 := by
    rintro _ hr ⟨ss, v⟩ hc
    obtain ⟨r, hr', rfl⟩ := List.mem_map.mp hr
    simp only [plainRow, List.mem_map, Prod.mk.injEq] at hc
    obtain ⟨v', hv', -, rfl⟩ := hc
    exact (hcells r hr' v' hv').2.1
  obtain ⟨rows, ⟨l1, l2⟩, hpm, hmain⟩ := main_cells (version := version) (partials := partials) (cuts := cuts) hs hb hf (sc := sc)
    s1 (by rw [Csvp.values_parse]; rw [Csvp.values_parse] at hg; exact hg) hrt hform h0 hmark
  rw [List.length_map] at l1
  -- the rows
  have hrow : ∀ (i : Nat) (row : Row), rows[i]? = some row → ∃ r, g[i]? = some r ∧ row.fill = none ∧ row.opts.var = none ∧
      (∀ c ∈ row.cells, c.opts.var = none) ∧ row.cells.map (fun c => (c.value, c.ast)) = r.map fun v => (v, formulaOf E v) := by
    intro i row hrow
    have hi : i < g.length := by rw [← l1]; exact (List.getElem?_eq_some_iff.mp hrow).1
    refine ⟨g[i], List.getElem?_eq_getElem hi, ?_⟩
    obtain ⟨row', h1, h2⟩ := l2 i (plainRow g[i]) (by rw [List.getElem?_map, List.getElem?_eq_getElem hi]; rfl)
    rw [hrow] at h1; cases h1
    have hopts : row.opts = {} := h2.opts
    refine ⟨h2.fill, by rw [hopts], ?_, ?_⟩
    · intro c hc
      have : (c.opts, c.value, c.ast) ∈ row.cells.map (fun c => (c.opts, c.value, c.ast)) := List.mem_map.mpr ⟨c, hc, rfl⟩
      rw [h2.cells] at this
      obtain ⟨x, hx, he⟩ := List.mem_map.mp this
      simp only [plainRow, List.mem_map] at hx
      obtain ⟨v, -, rfl⟩ := hx
      rw [← (Prod.mk.inj he).1, hopts]; rfl
    · have := congrArg (List.map Prod.snd) h2.cells
      simp only [List.map_map] at this
      have e1 : (row.cells.map (fun c => (c.value, c.ast))) = List.map (Prod.snd ∘ fun c => (c.opts, c.value, c.ast)) row.cells := rfl
      rw [e1, this]
      simp only [plainRow, List.map_map]
      rfl
  have hfill : ∀ r ∈ rows, r.fill = none := by
    intro r hr
    obtain ⟨i, hi⟩ := List.getElem?_of_mem hr
    exact (hrow i r hi).choose_spec.2.1
  have hnames : ∀ r ∈ rows, names r = [] := by
    intro r hr
    obtain ⟨i, hi⟩ := List.getElem?_of_mem hr
    obtain ⟨_, -, -, h1, h2, -⟩ := hrow i r hi
    rw [names, h1]
    simp only [Option.toList_none, List.nil_append, List.filterMap_eq_nil_iff]
    exact h2
  have hast : ∀ r ∈ rows, ∀ c ∈ r.cells, ∀ f, c.ast = some f → Parser.Parsed E.uni E.f64 f := by
    intro r hr c hc f hf'
    obtain ⟨i, hi⟩ := List.getElem?_of_mem hr
    obtain ⟨r', -, -, -, -, h⟩ := hrow i r hi
    have : (c.value, c.ast) ∈ r.cells.map (fun c => (c.value, c.ast)) := List.mem_map.mpr ⟨c, hc, rfl⟩
    rw [h] at this
    obtain ⟨v, -, hv⟩ := List.mem_map.mp this
    rw [hf', formulaOf] at hv
    have hv' := (Prod.mk.inj hv).2
    split at hv'
    · cases hp : Parser.parse E.uni E.f64 v with
      | error e => rw [hp] at hv'; cases hv'
      | ok b => rw [hp] at hv'; cases hv'; exact parse_parsed hp
    · cases hv'
  obtain ⟨s₁, hs₁⟩ := evalFills_plain hfill
  -- the definitions
  have hassigns : ∀ pos, Assigns (effective sc kv s₁) (some pos) (kvs ++ defs) := by
    intro pos
    have hsv : ∀ n, sheetVars s₁ n = none := by
      intro n
      refine C23_undefined s₁ n fun q hq => ?_
      obtain ⟨y, hy⟩ := List.getElem?_of_mem hq
      obtain ⟨before, r, after, i, f1, -, -, f4⟩ := expanded_row hs₁ hy
      rw [f4, names_placed, hnames r (by rw [f1]; simp)]; simp
    have heff : ∀ n, (effective sc kv s₁).variables n = (sc.variables n).or (collect kvs n) := by
      intro n
      rw [effective]
      simp only [hsv n, Option.none_or, hkv]
    refine ⟨fun f => ?_, fun n hn => ?_, fun d hd => ?_, horder⟩
    · exact s2 f
    · by_contra hno
      rw [List.map_append, List.mem_append, not_or] at hno
      rw [heff, s3, no_var fun d hd he => hno.2 (List.mem_map.mpr ⟨d, hd, he⟩), collect_none kvs n fun d hd he => hno.1 (List.mem_map.mpr ⟨d, hd, he⟩)] at hn
      cases hn
    · rcases List.mem_append.mp hd with hd | hd
      · have hp := keyValues_parsed hvalues d hd
        refine ⟨(parsed_plain hp).1, d.2, ?_, (parsed_plain hp).2 _⟩
        rw [heff, s3, no_var fun e he h' => ?_, collect_order horder hd]
        · rfl
        · obtain ⟨s, t, hst⟩ := List.append_of_mem hd
          have ho := horder
          rw [hst, List.append_assoc, List.cons_append] at ho
          exact (inOrder_append ho).1 e (List.mem_append_right _ he) h'
      · have hp := hdefs d hd
        refine ⟨(parsed_plain hp).1, .var d.1 d.2, ?_, rfl⟩
        rw [heff, s3, last_var hd (inOrder_append horder)]; rfl
  have heval : ∀ (pos : Addr) (f : Ast), Parser.Parsed E.uni E.f64 f → _ := fun pos f hp => eval_assigns (hassigns pos) f (parsed_plain hp).1
  constructor
  · obtain ⟨ke, hke⟩ := isEnum_collect kvs
    have hown : ∃ own, IsEnum own sc.variables := by
      refine ⟨defs.map fun d => (d.1, .var d.1 d.2), ?_, ?_⟩
      · have ho := inOrder_append horder
        clear * - ho
        induction defs with
        | nil => simp
        | cons d ds ih =>
          simp only [List.map_cons, List.nodup_cons]
          refine ⟨fun h => ?_, by simpa using ih ho.2.2⟩
          simp only [List.map_map, List.mem_map] at h
          obtain ⟨e, he, h'⟩ := h
          exact ho.1 e he h'
      · intro k v
        rw [s3]
        constructor
        · intro h
          obtain ⟨d, hd, he⟩ := List.mem_map.mp h
          cases he
          exact last_var hd (inOrder_append horder)
        · intro h
          by_cases hk : ∃ d ∈ defs, d.1 = k
          · obtain ⟨d, hd, rfl⟩ := hk
            rw [last_var hd (inOrder_append horder)] at h
            cases h
            exact List.mem_map.mpr ⟨d, hd, rfl⟩
          · rw [no_var fun d hd he => hk ⟨d, hd, he⟩] at h; cases h
    obtain ⟨own, hown⟩ := hown
    obtain ⟨s', hs'⟩ := evalSheet_exists (sc := sc) (ext := kv) hs₁ hown (by rw [hkv]; exact hke)
      (fun y q x c f hq hc hf => by
        obtain ⟨before, r, after, i, f1, -, -, f4⟩ := expanded_row hs₁ hq
        exact ⟨_, (heval ⟨x, y⟩ f (hast r (by rw [f1]; simp) c (by subst f4; exact List.mem_of_getElem? hc) f hf)).1⟩)
    exact main_alone_exists hs hf hpm rfl hs'
  · intro e states w h
    obtain ⟨hw, ⟨s₁', final, out, q1, q2, q3, q4, q5, q6, q7⟩ | ⟨-, -, q⟩⟩ := hmain e states w h
    · rw [hs₁] at q1; cases q1
      have htot : ∀ before after : List Row, rows = before ++ after → total rows before = before.length := fun before after he =>
        total_plain fun r hr => hfill r (by rw [he]; exact List.mem_append_left _ hr)
      refine ⟨q2, hw, final, out, q3, q4, by rw [q5, htot rows [] (by simp), l1], ?_, ?_⟩
      rotate_left
      · intro i j r hr hj
        have hi : i < rows.length := by rw [l1]; exact (List.getElem?_eq_some_iff.mp hr).1
        obtain ⟨r', k1, -, -, -, k3⟩ := hrow i rows[i] (List.getElem?_eq_getElem hi)
        rw [hr] at k1; cases k1
        have hsplit : rows = rows.take i ++ rows[i] :: rows.drop (i + 1) := by
          rw [List.getElem_cons_drop, List.take_append_drop]
        have ht : total rows (rows.take i) + 0 = i := by rw [htot _ _ (List.take_append_drop i rows).symm]; simp; omega
        have := q7 _ _ _ hsplit 0 (by rw [(C24_copies rows _).1 (hfill _ (List.getElem_mem hi))]; omega) j (by
          have := congrArg List.length k3
          simp only [List.length_map] at this
          rw [this]; exact hj)
        rw [ht] at this
        exact this
      intro i j r v hr hv
      have hi : i < rows.length := by rw [l1]; exact (List.getElem?_eq_some_iff.mp hr).1
      obtain ⟨r', k1, -, -, -, k3⟩ := hrow i rows[i] (List.getElem?_eq_getElem hi)
      rw [hr] at k1; cases k1
      have hj : j < rows[i].cells.length := by
        have := congrArg List.length k3
        simp only [List.length_map] at this
        rw [this]; exact (List.getElem?_eq_some_iff.mp hv).1
      have hsplit : rows = rows.take i ++ rows[i] :: rows.drop (i + 1) := by
        rw [List.getElem_cons_drop, List.take_append_drop]
      obtain ⟨x, m1, m2, m3⟩ := q6 _ _ _ hsplit 0 (by rw [(C24_copies rows _).1 (hfill _ (List.getElem_mem hi))]; omega) j _ (List.getElem?_eq_getElem hj)
      have ht : total rows (rows.take i) + 0 = i := by rw [htot _ _ (List.take_append_drop i rows).symm]; simp; omega
      rw [ht] at m1 m3
      have hval : rows[i].cells[j].value = v ∧ rows[i].cells[j].ast = formulaOf E v := by
        have := congrArg (fun l => l[j]?) k3
        simp only [List.getElem?_map, List.getElem?_eq_getElem hj, hv, Option.map_some, Option.some.injEq, Prod.mk.injEq] at this
        exact this
      refine ⟨x, ⟨fun hh => ?_, fun f hh hp => ?_⟩, m1⟩
      · rw [m2 (by rw [hval.2, formulaOf, if_neg hh]), hval.1]
      · obtain ⟨b, n1, n2⟩ := m3 f (by rw [hval.2, formulaOf, if_pos hh, hp]; rfl)
        have := (heval ⟨j, i⟩ f (parse_parsed hp)).2 _ n1
        cases this
        exact n2
    · exfalso
      rcases q with q | ⟨s₂, q0, before, r, after, i, x, c, f, er, f1, -, f3, f4, f5⟩
      · rw [hs₁] at q; cases q
      · rw [hs₁] at q0; cases q0
        have := (heval _ f (hast r (by rw [f1]; simp) c (List.mem_of_getElem? f3) f f4)).2 _ f5
        cases this

/-- C80, assignments.  If the code section consists of assignments, each of which only uses names assigned before it (on the command line or in the
code section) and names that are not assigned at all, every run succeeds, and every formula is shown with the names replaced by their values, which are
those of assignments made one after the other. -/
theorem C80_assignments (version : Nat) (ts : List Text) (partials : Text → List Text) (cuts : List Nat) (hs : Setup E a mp p kv) (hb : CanBackup ts a files p)
    (hsrc : SourceFile E ls csv src) (hf : Fresh fs mp src) (hg : Csvp.Spec.values (Csvp.parse ⟨',', 0⟩ csv) = some g)
    {kvs defs : List (Text × Ast)} (has : Assignments E a ls g kvs defs) (h0 : NoMark (cellAt (rowsOf (files p)) 0 0)) :
    (∃ e states w, Main E version ts partials cuts a fs files e states w) ∧
    ∀ e states w, Main E version ts partials cuts a fs files e states w →
      e = some .success ∧ (∀ x ∈ w, x.1 = mp) ∧ ∃ final out, states.getLast? = some final ∧ Wrote files final p out ∧
        (csvRead out).length = g.length ∧
        ∀ i j r v, g[i]? = some r → r[j]? = some v → ∃ t, cellShown E (assign (kvs ++ defs)) v t ∧
          cellAt (csvRead out) i j = if a.safe = true ∧ cellAt (rowsOf (files p)) i j ≠ [] then cellAt (rowsOf (files p)) i j else t := by
  obtain ⟨c1, c2⟩ := hsrc.split
  obtain ⟨sc, s1, s2, s3, -⟩ := Parser.C48_code_section_partial E.uni E.f64 ls hsrc.lines (usesFirst_of hsrc.uses)
  rw [modules_of hsrc.uses] at s1
  obtain ⟨h1, h2⟩ := main_assignments version ts partials cuts hs hb hf (sc := sc) (defs := defs) (by rw [c1]; exact s1) (by rw [c2]; exact hg) has.values has.order has.cells
    (fun f => by
      rw [s2, has.code]
      have : (defs.map fun d => Stmt.var d.1 d.2).filterMap (Stmt.function? f) = [] := by
        rw [List.filterMap_eq_nil_iff]
        intro s hs'
        obtain ⟨e, he, rfl⟩ := List.mem_map.mp hs'
        rfl
      rw [this]; rfl) (fun n => by rw [s3, has.code])
    (fun d hd => by
      obtain ⟨l, hl, hl'⟩ : ∃ l ∈ ls, l.stmt = some (Stmt.var d.1 d.2) := by
        have : Stmt.var d.1 d.2 ∈ stmts ls := by rw [has.code]; exact List.mem_map.mpr ⟨d, hd, rfl⟩
        exact List.mem_filterMap.mp this
      have hok := (hsrc.lines l hl).2.1 _ hl'
      exact printable_parsed hok.2) h0
  refine ⟨h1, fun e states w h => ?_⟩
  obtain ⟨q1, q2, final, out, q3, q4, q5, q6, -⟩ := h2 e states w h
  exact ⟨q1, q2, final, out, q3, q4, q5, q6⟩

end
end Verif.Cli
