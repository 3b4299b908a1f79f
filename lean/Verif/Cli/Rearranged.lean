import Verif.Cli.ModulesExample
/-
How a program is divided into modules, the order of `use` lines and the names of modules do not matter (C113).
-/
namespace Verif.Cli
open Verif.Ast Verif.Loader Verif.Sheet Verif.Cache Verif.Csvp.Spec
open Verif.Cell hiding Target
open Verif.Target hiding MPath
open Verif.Parser (Stmt Line codeText stmts)

/-! ## Specification -/

/-- The statements `ss'` have the same definitions as `ss`, in the same order, and use the same modules under the names that `ρ` gives them, in any order. -/
structure Relabelled (ρ : MPath → MPath) (ss ss' : List Stmt) : Prop where
  definitions : ss'.filter (fun s => s.module?.isNone) = ss.filter (fun s => s.module?.isNone)
  uses : ∀ q', q' ∈ usedBy ss' ↔ ∃ q ∈ usedBy ss, q' = ρ q

/-! ## Proofs -/

/-- The two modules have the same definitions and use the same modules. -/
structure Same (ρ : MPath → MPath) (m m' : Mod) : Prop where
  functions : ∀ g, m'.scope.functions g = m.scope.functions g
  vars : ∀ x, m'.scope.variables x = m.scope.variables x
  exports : ∀ n, n ∈ m'.scope.exports ↔ n ∈ m.scope.exports
  uses : ∀ q', q' ∈ m'.required ↔ ∃ q ∈ m.required, q' = ρ q

theorem filterMap_definitions {α : Type} {f : Stmt → Option α} (hf : ∀ m, f (.use m) = none) (ss : List Stmt) :
    ss.filterMap f = (ss.filter fun s => s.module?.isNone).filterMap f := by
  induction ss with
  | nil => rfl
  | cons s ss ih =>
    cases s with
    | use m => rw [List.filterMap_cons, hf, ih]; rfl
    | fn n ps b => rw [List.filterMap_cons, ih]; rfl
    | var n v => rw [List.filterMap_cons, ih]; rfl

theorem mem_names {ss : List Stmt} {n : Text} : (∃ s ∈ ss, s.name? = some n) ↔ n ∈ ss.filterMap Stmt.name? := by rw [List.mem_filterMap]

theorem Relabelled.same {ρ : MPath → MPath} {ss ss' : List Stmt} (h : Relabelled ρ ss ss') {m m' : Mod} (hm : IsModule ss m) (hm' : IsModule ss' m') : Same ρ m m' := by
  have key : ∀ {α : Type} {f : Stmt → Option α}, (∀ m, f (.use m) = none) → ss'.filterMap f = ss.filterMap f := fun hf => by
    rw [filterMap_definitions hf ss, filterMap_definitions hf ss', h.definitions]
  refine ⟨fun g => ?_, fun x => ?_, fun n => ?_, fun q' => ?_⟩
  · rw [hm.defines.functions, hm'.defines.functions, key fun _ => rfl]
  · rw [hm.defines.vars, hm'.defines.vars, key fun _ => rfl]
  · rw [hm.exports, hm'.exports, mem_names, mem_names, key fun _ => rfl]
  · rw [hm.required, hm'.required]; exact h.uses q'

section
variable {fetch fetch' : MPath → Except LoadError Mod} {ρ : MPath → MPath} {main main' : Mod} {Q : MPath → Prop}

/-- The modules of the two programs. -/
def Paired (fetch fetch' : MPath → Except LoadError Mod) (ρ : MPath → MPath) (Q : MPath → Prop) : Prop :=
  ∀ q, Q q → ∃ m m', fetch q = .ok m ∧ fetch' (ρ q) = .ok m' ∧ Same ρ m m' ∧ ∀ r ∈ m.required, Q r

theorem same_defined {m m' : Mod} (h : Same ρ m m') (n : Name) : Defined m'.scope n ↔ Defined m.scope n := by
  cases n with
  | v x => simp only [Defined, h.vars]
  | f g => simp only [Defined, h.functions]

theorem sees_to (hp : Paired fetch fetch' ρ Q) {m : Mod} {n : Name} (h : Sees fetch m n) : ∀ {m'}, Same ρ m m' → (∀ r ∈ m.required, Q r) → Sees fetch' m' n := by
  induction h with
  | own hd => intro m' hs _; exact .own ((same_defined hs _).mpr hd)
  | @used m n q m₁ hq hf he _ ih =>
    intro m' hs hQ
    obtain ⟨m₂, m₁', e1, e2, e3, e4⟩ := hp q (hQ q hq)
    rw [hf] at e1; cases e1
    exact .used ((hs.uses _).mpr ⟨q, hq, rfl⟩) e2 ((e3.exports _).mpr he) (ih e3 e4)

theorem sees_from (hp : Paired fetch fetch' ρ Q) {m' : Mod} {n : Name} (h : Sees fetch' m' n) : ∀ {m}, Same ρ m m' → (∀ r ∈ m.required, Q r) → Sees fetch m n := by
  induction h with
  | own hd => intro m hs _; exact .own ((same_defined hs _).mp hd)
  | @used m' n q' m₁' hq hf he _ ih =>
    intro m hs hQ
    obtain ⟨q, hq₁, rfl⟩ := (hs.uses _).mp hq
    obtain ⟨m₁, m₂, e1, e2, e3, e4⟩ := hp q (hQ q hq₁)
    rw [hf] at e2; cases e2
    exact .used hq₁ e1 ((e3.exports _).mp he) (ih e3 e4)

theorem reach_in (hp : Paired fetch fetch' ρ Q) (hQ : ∀ r ∈ main.required, Q r) {q : MPath} (h : Reach fetch main q) : Q q := by
  induction h with
  | direct h => exact hQ _ h
  | indirect _ hf h ih =>
    obtain ⟨m₁, m₂, e1, -, -, e4⟩ := hp _ ih
    rw [hf] at e1; cases e1
    exact e4 _ h

theorem reach_to (hp : Paired fetch fetch' ρ Q) (hm : Same ρ main main') (hQ : ∀ r ∈ main.required, Q r) {q : MPath} (h : Reach fetch main q) : Reach fetch' main' (ρ q) := by
  induction h with
  | direct h => exact .direct ((hm.uses _).mpr ⟨_, h, rfl⟩)
  | indirect h1 hf h ih =>
    obtain ⟨m₁, m₂, e1, e2, e3, e4⟩ := hp _ (reach_in hp hQ h1)
    rw [hf] at e1; cases e1
    exact .indirect ih e2 ((e3.uses _).mpr ⟨_, h, rfl⟩)

theorem reach_from (hp : Paired fetch fetch' ρ Q) (hm : Same ρ main main') (hQ : ∀ r ∈ main.required, Q r) {q' : MPath} (h : Reach fetch' main' q') :
    ∃ q, q' = ρ q ∧ Reach fetch main q := by
  induction h with
  | direct h => obtain ⟨q, h1, rfl⟩ := (hm.uses _).mp h; exact ⟨q, rfl, .direct h1⟩
  | indirect _ hf h ih =>
    obtain ⟨q, rfl, hq⟩ := ih
    obtain ⟨m₁, m₂, e1, e2, e3, e4⟩ := hp _ (reach_in hp hQ hq)
    rw [hf] at e2; cases e2
    obtain ⟨r, h1, rfl⟩ := (e3.uses _).mp h
    exact ⟨r, rfl, .indirect hq e1 h1⟩

theorem inProgram_to (hp : Paired fetch fetch' ρ Q) (hm : Same ρ main main') (hQ : ∀ r ∈ main.required, Q r) {m : Mod} (h : InProgram fetch main m) :
    ∃ m', InProgram fetch' main' m' ∧ Same ρ m m' := by
  rcases h with rfl | ⟨q, h1, h2⟩
  · exact ⟨main', .inl rfl, hm⟩
  · obtain ⟨m₁, m₂, e1, e2, e3, -⟩ := hp q (reach_in hp hQ h1)
    rw [h2] at e1; cases e1
    exact ⟨m₂, .inr ⟨_, reach_to hp hm hQ h1, e2⟩, e3⟩

theorem inProgram_from (hp : Paired fetch fetch' ρ Q) (hm : Same ρ main main') (hQ : ∀ r ∈ main.required, Q r) {m' : Mod} (h : InProgram fetch' main' m') :
    ∃ m, InProgram fetch main m ∧ Same ρ m m' := by
  rcases h with rfl | ⟨q', h1, h2⟩
  · exact ⟨main, .inl rfl, hm⟩
  · obtain ⟨q, rfl, hq⟩ := reach_from hp hm hQ h1
    obtain ⟨m₁, m₂, e1, e2, e3, -⟩ := hp q (reach_in hp hQ hq)
    rw [h2] at e2; cases e2
    exact ⟨m₁, .inr ⟨_, hq, e1⟩, e3⟩

theorem isUnion_to (hp : Paired fetch fetch' ρ Q) (hm : Same ρ main main') (hQ : ∀ r ∈ main.required, Q r) {K : Scope} (h : IsUnion fetch main K) : IsUnion fetch' main' K := by
  refine ⟨fun x d => ?_, fun g d => ?_⟩
  · rw [h.vars]
    constructor
    · rintro ⟨m, h1, h2⟩
      obtain ⟨m', k1, k2⟩ := inProgram_to hp hm hQ h1
      exact ⟨m', k1, by rw [k2.vars]; exact h2⟩
    · rintro ⟨m', h1, h2⟩
      obtain ⟨m, k1, k2⟩ := inProgram_from hp hm hQ h1
      exact ⟨m, k1, by rw [← k2.vars]; exact h2⟩
  · rw [h.fns]
    constructor
    · rintro ⟨m, h1, h2⟩
      obtain ⟨m', k1, k2⟩ := inProgram_to hp hm hQ h1
      exact ⟨m', k1, by rw [k2.functions]; exact h2⟩
    · rintro ⟨m', h1, h2⟩
      obtain ⟨m, k1, k2⟩ := inProgram_from hp hm hQ h1
      exact ⟨m, k1, by rw [← k2.functions]; exact h2⟩

theorem covered_to (hp : Paired fetch fetch' ρ Q) {m m' : Mod} (hm : Same ρ m m') (hQ : ∀ r ∈ m.required, Q r) {K : Scope} (h : Covered fetch K m) : Covered fetch' K m' := by
  refine ⟨fun x a e n h1 h2 => ?_, fun g nm ps body e n h1 h2 h3 => ?_, fun g nm ps body h1 h2 k h3 h4 => ?_⟩
  · exact sees_to hp (h.vars x a (by rw [← hm.vars]; exact e) n h1 h2) hm hQ
  · exact sees_to hp (h.fns g nm ps body (by rw [← hm.functions]; exact e) n h1 h2 h3) hm hQ
  · exact sees_to hp (h.calls g nm ps body (sees_from hp h1 hm hQ) h2 k h3 h4) hm hQ

theorem separate_to (hp : Paired fetch fetch' ρ Q) (hm : Same ρ main main') (hQ : ∀ r ∈ main.required, Q r) {K : Scope} {ext : Text → Option Ast} (h : Separate fetch main K ext) :
    Separate fetch' main' K ext := by
  refine ⟨fun p' m' h1 h2 => ?_, fun p' m' x d h1 h2 h3 => ?_, covered_to hp hm hQ h.own, fun x d h1 h2 => sees_to hp (h.names x d h1 h2) hm hQ⟩
  · obtain ⟨q, rfl, hq⟩ := reach_from hp hm hQ h1
    obtain ⟨m₁, m₂, e1, e2, e3, e4⟩ := hp q (reach_in hp hQ hq)
    rw [h2] at e2; cases e2
    exact covered_to hp e3 e4 (h.libs q _ hq e1)
  · obtain ⟨q, rfl, hq⟩ := reach_from hp hm hQ h1
    obtain ⟨m₁, m₂, e1, e2, e3, e4⟩ := hp q (reach_in hp hQ hq)
    rw [h2] at e2; cases e2
    exact h.params q m₁ x d hq e1 (by rw [← e3.vars]; exact h3)
end

/-- The conditions on formulas do not depend on where the cells are in the source. -/
theorem allSeen_to {fetch fetch' : MPath → Except LoadError Mod} {ρ : MPath → MPath} {main main' : Mod} {Q : MPath → Prop} (hp : Paired fetch fetch' ρ Q) (hm : Same ρ main main')
    (hQ : ∀ r ∈ main.required, Q r) {K : Scope} {kv : Text → Option Ast} {s₁ s₁' : Sheet} {rows rows' : List Row} (her : rows.map erase = rows'.map erase)
    (hv : sheetVars s₁' = sheetVars s₁) (h : AllSeen fetch main K kv s₁ rows) : AllSeen fetch' main' K kv s₁' rows' := by
  have hn : mainNames kv s₁' = mainNames kv s₁ := by funext x; rw [mainNames, mainNames, hv]
  have seen : ∀ {a}, UsesSeen fetch main K a → UsesSeen fetch' main' K a := fun h n h1 h2 => sees_to hp (h n h1 h2) hm hQ
  refine ⟨by rw [hn]; exact separate_to hp hm hQ h.modules, fun r' hr' c' hc' f hf => ?_, fun pos x d v h1 h2 => seen (h.values pos x d v (by rw [← hn]; exact h1) h2)⟩
  obtain ⟨before', after', e⟩ := List.append_of_mem hr'
  obtain ⟨before, r, after, f1, -, -, -, f5⟩ := erase_split her.symm e
  obtain ⟨x, hx, e'⟩ := List.getElem_of_mem hc'
  obtain ⟨c, g1, g2, -⟩ := f5 x c' (by rw [List.getElem?_eq_getElem hx, e'])
  exact seen (h.formulas r (by rw [f1]; simp) c (List.mem_of_getElem? g1) f (by rw [g2]; exact hf))

section
variable {E : Env} {a : Args} {fs fs' : FS Text} {files : Files Text} {mp : MPath} {p : Path} {kv : Text → Option Ast}
  {ls ls' : List Line} {csv src src' : Text} {rs : List RowSrc} {lib lib' : List (MPath × List Stmt)}

/-- C113.  Two programs with the same cells section, whose modules have together the same definitions, in any arrangement in which everything is used only where it is
seen: every run of either succeeds, and the targets show the same. -/
theorem C113_arrangement_partial (version : Nat) (ts : List Text) (partials : Text → List Text) (cuts : List Nat) (hs : Setup E a mp p kv) (hb : CanBackup ts a files p)
    (hsrc : ModuleFile E ls csv src) (hf : Fresh fs mp src) (hc : CellsSection E csv rs) (hlib : Program E version fs a.noCache mp (stmts ls) lib)
    (hsrc' : ModuleFile E ls' csv src') (hf' : Fresh fs' mp src') (hlib' : Program E version fs' a.noCache mp (stmts ls') lib')
    (h0 : NoMark (cellAt (rowsOf (files p)) 0 0)) (h1 : ∀ r ∈ rs, ∀ c ∈ r.cells, NoMark c.2) :
    ∃ fetch main fetch' main' rows rows', IsModule (stmts ls) main ∧ (∀ e ∈ lib, ∃ m, fetch e.1 = .ok m ∧ IsModule e.2 m) ∧
      IsModule (stmts ls') main' ∧ (∀ e ∈ lib', ∃ m, fetch' e.1 = .ok m ∧ IsModule e.2 m) ∧ AreRows E rs rows ∧ AreRows E rs rows' ∧
      ∀ s₁ s₁' K order isParam, evalFills ⟨rows, false⟩ = some s₁ → evalFills ⟨rows', false⟩ = some s₁' → IsUnion fetch main K → IsUnion fetch' main' K → Tidy K none order isParam →
        AllClear (effective K kv s₁) rows → AllSeen fetch main K kv s₁ rows → AllSeen fetch' main' K kv s₁' rows' →
        ∀ e states w e' states' w', Main E version ts partials cuts a fs files e states w → Main E version ts partials cuts a fs' files e' states' w' →
          e = some .success ∧ e' = some .success ∧ ∃ final out final' out', states.getLast? = some final ∧ Wrote files final p out ∧
            states'.getLast? = some final' ∧ Wrote files final' p out' ∧ SameCells rows out out' := by
  obtain ⟨fetch, main, rows, i1, i2, i3, i4⟩ := C82_modules_partial version ts partials cuts hs hb hsrc hf hc hlib h0 h1
  obtain ⟨fetch', main', rows', i1', i2', i3', i4'⟩ := C82_modules_partial version ts partials cuts hs hb hsrc' hf' hc hlib' h0 h1
  refine ⟨fetch, main, fetch', main', rows, rows', i1, i2, i1', i2', i3, i3', fun s₁ s₁' K order isParam hs₁ hs₁' hu hu' hT hclear hseen hseen' e states w e' states' w' h h' => ?_⟩
  have her := areRows_erase i3 i3'
  obtain ⟨s₂, l1, l2⟩ := fills_erase her hs₁
  rw [hs₁'] at l1; cases l1
  have hsc : effective K kv s₁' = effective K kv s₁ := by simp only [effective, l2]
  obtain ⟨j1, -, final, out, j2, j3, j4⟩ := (i4 s₁ K order isParam hs₁ hu hT hclear hseen).2 e states w h
  obtain ⟨m1, -, final', out', m2, m3, m4⟩ := (i4' s₁' K order isParam hs₁' hu' hT (by rw [hsc]; exact allClear_erase her hclear) hseen').2 e' states' w' h'
  rw [hsc] at m4
  exact ⟨j1, m1, final, out, final', out', j2, j3, m2, m3, shows_same her j4 m4⟩

/-- C113, the order of the `use` lines and the names of the modules.  Give the modules of a program other names, in the files and in the `use` lines, and write the
`use` lines in any order: every run of either program succeeds, and the targets show the same. -/
theorem C113_names_partial (version : Nat) (ts : List Text) (partials : Text → List Text) (cuts : List Nat) (hs : Setup E a mp p kv) (hb : CanBackup ts a files p)
    (hsrc : ModuleFile E ls csv src) (hf : Fresh fs mp src) (hc : CellsSection E csv rs) (hlib : Program E version fs a.noCache mp (stmts ls) lib)
    (hsrc' : ModuleFile E ls' csv src') (hf' : Fresh fs' mp src') (hlib' : Program E version fs' a.noCache mp (stmts ls') lib')
    (h0 : NoMark (cellAt (rowsOf (files p)) 0 0)) (h1 : ∀ r ∈ rs, ∀ c ∈ r.cells, NoMark c.2)
    {ρ : MPath → MPath} (hmain : Relabelled ρ (stmts ls) (stmts ls')) (hmods : ∀ e ∈ lib, ∃ ss', (ρ e.1, ss') ∈ lib' ∧ Relabelled ρ e.2 ss') :
    ∃ fetch main rows, IsModule (stmts ls) main ∧ (∀ e ∈ lib, ∃ m, fetch e.1 = .ok m ∧ IsModule e.2 m) ∧ AreRows E rs rows ∧
      ∀ s₁ K order isParam, evalFills ⟨rows, false⟩ = some s₁ → IsUnion fetch main K → Tidy K none order isParam →
        AllClear (effective K kv s₁) rows → AllSeen fetch main K kv s₁ rows →
        ∀ e states w e' states' w', Main E version ts partials cuts a fs files e states w → Main E version ts partials cuts a fs' files e' states' w' →
          e = some .success ∧ e' = some .success ∧ ∃ final out final' out', states.getLast? = some final ∧ Wrote files final p out ∧
            states'.getLast? = some final' ∧ Wrote files final' p out' ∧ SameCells rows out out' := by
  obtain ⟨fetch, main, fetch', main', rows, rows', i1, i2, i1', i2', i3, i3', i4⟩ :=
    C113_arrangement_partial version ts partials cuts hs hb hsrc hf hc hlib hsrc' hf' hlib' h0 h1
  refine ⟨fetch, main, rows, i1, i2, i3, fun s₁ K order isParam hs₁ hu hT hclear hseen => ?_⟩
  have hm := hmain.same i1 i1'
  have hp : Paired fetch fetch' ρ fun q => ∃ ss, (q, ss) ∈ lib := by
    rintro q ⟨ss, hss⟩
    obtain ⟨m, e1, e2⟩ := i2 _ hss
    obtain ⟨ss', k1, k2⟩ := hmods _ hss
    obtain ⟨m', e1', e2'⟩ := i2' _ k1
    exact ⟨m, m', e1, e1', k2.same e2 e2', fun r hr => hlib.closed r (.inr ⟨_, hss, by rw [← e2.required]; exact hr⟩)⟩
  have hQ : ∀ r ∈ main.required, ∃ ss, (r, ss) ∈ lib := fun r hr => hlib.closed r (.inl (by rw [← i1.required]; exact hr))
  have her := areRows_erase i3 i3'
  obtain ⟨s₁', l1, l2⟩ := fills_erase her hs₁
  exact i4 s₁ s₁' K order isParam hs₁ l1 hu (isUnion_to hp hm hQ hu) hT hclear hseen (allSeen_to hp hm hQ her l2 hseen)

end

/-! ## An example -/

namespace Lib

/-- The main module of the example of C82, with another name for the library. -/
def mainLines' : List Line := [⟨[], some (.use "tax".toList), none⟩, ⟨[], some (.var tY call7), none⟩]

def mainText' : Text := "use tax\ny := double(7)\n---\n=(y + rate)\n".toList

def files' : FS Text :=
  ⟨fun m => if m = ["sheet".toList] then some (mainText', 7) else if m = ["tax".toList] then some (libText, 5) else none, fun _ => none⟩

theorem main_file' (E : Env) : ModuleFile E mainLines' cells mainText' := by
  refine ⟨?_, ?_, by decide +kernel, by decide +kernel, by decide, "=(y + rate)\n".toList, .inl (by decide), by decide +kernel⟩
  · intro l hl
    simp only [mainLines', List.mem_cons, List.not_mem_nil, or_false] at hl
    rcases hl with rfl | rfl
    · exact ⟨by simp, by intro s hs; cases hs; exact Parser.name_ascii E.uni (by decide), by simp⟩
    · exact (main_file E).lines _ (by simp [mainLines])
  · simp [mainLines', stmts, Parser.UsesFirst]

theorem program' (E : Env) {version : Nat} : Program E version files' false ["sheet".toList] (stmts mainLines') [(["tax".toList], stmts libLines)] := by
  refine ⟨?_, fun _ e _ o t h => (by cases h), ?_, by decide, fun m => if m = ["sheet".toList] then 1 else 0, ?_, ?_⟩
  · intro e he
    obtain rfl := List.mem_singleton.mp he
    exact ⟨libLines, [], libText, 5, [], lib_file E, rfl, lib_cells E, rfl⟩
  · rintro q (hq | ⟨e, he, hq⟩)
    · obtain rfl : q = ["tax".toList] := List.mem_singleton.mp hq
      exact ⟨_, List.mem_singleton.mpr rfl⟩
    · obtain rfl := List.mem_singleton.mp he
      cases hq
  · intro q hq
    obtain rfl : q = ["tax".toList] := List.mem_singleton.mp hq
    decide
  · intro e he q hq
    obtain rfl := List.mem_singleton.mp he
    cases hq

/-- C113 on the example: the library can be called `tax` instead of `lib`. -/
example (E : Env) (version : Nat) (e e' : Option Exit) (states states' : List (Files Text)) (w w' : List (MPath × Module Text))
    (h : Main E version [] (fun _ => []) [] (exampleArgs false []) files exampleFiles e states w)
    (h' : Main E version [] (fun _ => []) [] (exampleArgs false []) files' exampleFiles e' states' w') :
    e = some .success ∧ e' = some .success ∧ ∃ final out final' out', states.getLast? = some final ∧ Wrote exampleFiles final (Path.ofText "out.csv".toList) out ∧
      states'.getLast? = some final' ∧ Wrote exampleFiles final' (Path.ofText "out.csv".toList) out' ∧ cellAt (csvRead out) 0 0 = cellAt (csvRead out') 0 0 := by
  have h0 : NoMark (cellAt (rowsOf (exampleFiles (Path.ofText "out.csv".toList))) 0 0) := by unfold NoMark; decide
  obtain ⟨fetch, main, rows, d1, d2, d3, hmain⟩ := C113_names_partial version [] (fun _ => []) [] (exampleSetup E false [] [] rfl) (by intro h; cases h)
    (main_file E) (fs := files) ⟨7, rfl, by intro o t h; cases h⟩ (main_cells E) (program E) (main_file' E) (fs' := files') ⟨7, rfl, by intro o t h; cases h⟩ (program' E)
    (files := exampleFiles) h0
    (by
      intro r hr c hc
      obtain rfl := List.mem_singleton.mp hr
      obtain rfl := List.mem_singleton.mp hc
      unfold NoMark; decide)
    (ρ := fun q => if q = ["lib".toList] then ["tax".toList] else q)
    ⟨rfl, fun q' => ⟨fun hq => ⟨["lib".toList], List.mem_singleton.mpr rfl, List.mem_singleton.mp hq⟩, by
      rintro ⟨q, hq, rfl⟩
      obtain rfl : q = ["lib".toList] := List.mem_singleton.mp hq
      exact List.mem_singleton.mpr rfl⟩⟩
    (by
      intro e he
      obtain rfl := List.mem_singleton.mp he
      exact ⟨_, List.mem_singleton.mpr rfl, rfl, fun q' => ⟨fun hq => (by cases hq), by rintro ⟨q, hq, -⟩; cases hq⟩⟩)
  obtain ⟨r, c, s₁, order, isParam, rfl, m2, m3, m4, m5, m6, m7, m8, m9, -⟩ := met d1 d2 d3
  obtain ⟨k1, k2, final, out, final', out', k3, k4, k5, k6, k7⟩ := hmain s₁ K order isParam m5 m6 m7 m8 m9 e states w e' states' w' h h'
  exact ⟨k1, k2, final, out, final', out', k3, k4, k5, k6, k7.2 [] r [] rfl 0 (by rw [m4]; omega) 0 (by rw [m2]; simp)⟩

end Lib

end Verif.Cli
