import Verif.Cli.Sound
import Verif.Cli.Workbook
import Verif.Cli.ModulesExample
/-!
# C119 and C120 for programs with modules, whatever the target
-/
namespace Verif.Cli
open Verif.Ast Verif.Loader Verif.Sheet Verif.Cache Verif.Csvp.Spec
open Verif.Cell hiding Target
open Verif.Target hiding MPath
open Verif.Parser (Stmt Line codeText stmts Printable)

/-! ## Specification -/

/-- The compiled sheet `s` has for every formula of the rows a formula with the same value, for every spreadsheet program that agrees with the definitions
`sc`; and the text of it can be read, whatever the precedence of operators, as that formula and no other, if what the definitions and the formula are made of
is printed faithfully (see C12). -/
def CompiledValues (E : Env) (sc : Scope) (rows : List Row) (s : Sheet) : Prop :=
  ∀ before r after, rows = before ++ r :: after → ∀ i, i < copies rows r → ∀ x c, r.cells[x]? = some c → ∀ f, c.ast = some f →
    ∃ q c' b, s.rows[total rows before + i]? = some q ∧ q.cells[x]? = some c' ∧ c'.ast = some b ∧
      (∀ (D : Type) (M : Values D), Agrees M sc (some ⟨x, total rows before + i⟩) → M.value [] b = M.value [] f) ∧
      (Printable E.uni E.f64 f → (∀ n d v, sc.variables n = some d → resolve (some ⟨x, total rows before + i⟩) d = some v → Printable E.uni E.f64 v) →
        Parser.parse E.uni E.f64 ('=' :: Parser.display b) = .ok b ∧
        ∃ e pts, Parser.lex E.uni ('=' :: Parser.display b) = .ok (pts, e) ∧ ∀ b', Parser.Reads (pts.map (·.tok)) b' ↔ b' = b)

/-! ## Proofs -/

section
variable {u : Parser.Uni} {F : Parser.F64}

theorem printable_subst {σ : Text → Option Ast} (hσ : ∀ x a, σ x = some a → Printable u F a) {a : Ast} (ha : Printable u F a) :
    Printable u F (subst σ a) := by
  induction ha with
  | int h => exact .int h
  | float h1 h2 => exact .float h1 h2
  | @ref r h1 h2 =>
    rw [subst]
    cases h : σ r with
    | none => exact .ref h1 h2
    | some a => exact hσ _ _ h
  | text h => exact .text h
  | call h1 h2 _ ih =>
    simp only [subst, substL_eq]
    refine .call h1 h2 fun b hb => ?_
    obtain ⟨a, ha, rfl⟩ := List.mem_map.mp hb
    exact ih a ha
  | «infix» h _ _ ih1 ih2 => exact .infix h ih1 ih2

theorem mem_lookup {α β : Type} [BEq α] [LawfulBEq α] {l : List (α × β)} {x : α} {b : β} (h : l.lookup x = some b) : (x, b) ∈ l := by
  induction l with
  | nil => cases h
  | cons p l ih =>
    rw [List.lookup_cons] at h
    split at h
    · rename_i h1
      cases h
      rw [eq_of_beq h1]
      exact List.mem_cons_self
    · exact List.mem_cons_of_mem _ (ih h)

/-- What a formula means is printable if the formula and the definitions are. -/
theorem printable_means {sc : Scope} {pos : Option Addr}
    (hv : ∀ n d v, sc.variables n = some d → resolve pos d = some v → Printable u F v)
    (hf : ∀ g nm ps body, sc.functions g = some (.fn nm ps body) → Printable u F body) {a b : Ast}
    (h : Ast.Means sc pos a b) : Printable u F a → Printable u F b := by
  induction h with
  | leaf _ => exact id
  | ref _ => exact id
  | value h1 h2 _ ih => exact fun _ => ih (hv _ _ _ h1 h2)
  | @call f args bs _ hl _ ih =>
    intro ha
    cases ha with
    | call h1 h2 hargs =>
      refine .call h1 h2 fun b hb => ?_
      obtain ⟨i, hi⟩ := List.getElem?_of_mem hb
      have hlt : i < args.length := by rw [← hl]; exact (List.getElem?_eq_some_iff.mp hi).1
      exact ih i _ b (List.getElem?_eq_getElem hlt) hi (hargs _ (List.getElem_mem hlt))
  | body h1 _ _ ih =>
    intro ha
    cases ha with
    | call _ _ hargs => exact ih (printable_subst (fun x a hx => hargs _ (List.of_mem_zip (mem_lookup hx)).2) (hf _ _ _ _ h1))
  | «infix» _ _ ih1 ih2 =>
    intro ha
    cases ha with
    | «infix» h h1 h2 => exact .infix h (ih1 h1) (ih2 h2)
  | var _ _ => intro ha; cases ha

end

section
variable {E : Env} {version : Nat} {noCache : Bool} {fs : FS Text} {mp : MPath} {kv : Text → Option Ast}
  {ls : List Line} {csv src : Text} {rs : List RowSrc} {lib : List (MPath × List Stmt)}

/-- The functions of a program have printable bodies. -/
theorem program_printable {fetch : MPath → Except LoadError Mod} {main : Mod} {K : Scope} (hls : ∀ l ∈ ls, l.Ok E.uni E.f64)
    (hlib : Program E version fs noCache mp (stmts ls) lib) (him : IsModule (stmts ls) main)
    (hms : ∀ e ∈ lib, ∃ m, fetch e.1 = .ok m ∧ IsModule e.2 m) (hu : IsUnion fetch main K) {g nm : Text} {ps : List Text} {body : Ast}
    (h : K.functions g = some (.fn nm ps body)) : Printable E.uni E.f64 body := by
  obtain ⟨m, hm, hd⟩ := (hu.fns _ _).mp h
  have hreach : ∀ q, Reach fetch main q → ∃ ss, (q, ss) ∈ lib := by
    intro q hq
    induction hq with
    | direct h => exact hlib.closed _ (.inl (by rw [← him.required]; exact h))
    | indirect _ h1 h2 ih =>
      obtain ⟨ss, hss⟩ := ih
      obtain ⟨m, e1, e2⟩ := hms _ hss
      rw [h1] at e1; cases e1
      exact hlib.closed _ (.inr ⟨_, hss, by rw [← e2.required]; exact h2⟩)
  rcases hm with rfl | ⟨q, hq, hfq⟩
  · exact defines_printable hls him.defines hd
  · obtain ⟨ss, hss⟩ := hreach q hq
    obtain ⟨m', e1, e2⟩ := hms _ hss
    rw [hfq] at e1; cases e1
    obtain ⟨ls', _, _, _, _, k1, k2, -⟩ := hlib.files _ hss
    have := e2.defines
    rw [← k2] at this
    exact defines_printable k1.lines this hd

/-- C119, C120 for programs with modules, whatever the target: every compiled formula has the value of the formula of the source file by the definitions of
all modules together, and its text can be read in one way only. -/
theorem C119_compile_partial (version : Nat) (hv : ∃ l kvs, Parser.parseKeyValues E.uni E.f64 kvs = some l ∧ kv = collect l)
    (hsrc : ModuleFile E ls csv src) (hf : Fresh fs mp src) (hc : CellsSection E csv rs) (hlib : Program E version fs noCache mp (stmts ls) lib) :
    ∃ fetch main rows, IsModule (stmts ls) main ∧ (∀ e ∈ lib, ∃ m, fetch e.1 = .ok m ∧ IsModule e.2 m) ∧ AreRows E rs rows ∧
      ∀ s₁ K order isParam, evalFills ⟨rows, false⟩ = some s₁ → IsUnion fetch main K → Tidy K none order isParam →
        AllClear (effective K kv s₁) rows → AllSeen fetch main K kv s₁ rows →
        ∀ o w, Compile (parseModule E) version (!noCache) kv fs mp o w → ∃ s, o = .ok s ∧ CompiledValues E (effective K kv s₁) rows s := by
  obtain ⟨fetch, main, rows, h1, h2, h3, h4⟩ := C84_compile_partial version hv hsrc hf hc hlib
  refine ⟨fetch, main, rows, h1, h2, h3, fun s₁ K order isParam hs₁ hu hT hclear hseen o w h => ?_⟩
  obtain ⟨-, s, rfl, hm⟩ := (h4 s₁ K order isParam hs₁ hu hT hclear hseen).2 o w h
  refine ⟨s, rfl, fun before r after e1 i e2 x c e3 f e4 => ?_⟩
  obtain ⟨q, k1, -, k2⟩ := hm.rows before r after e1 i e2
  obtain ⟨c', k3, k4⟩ := k2 x c e3
  obtain ⟨b, k5, k6, -⟩ := k4.formula f e4
  refine ⟨q, c', b, k1, k3, k5, fun D M hM => C119_meaning _ _ _ _ k6 D M hM, fun hpf hpv => ?_⟩
  have hb := printable_means hpv (fun g nm ps body hg => program_printable hsrc.lines hlib h1 h2 hu hg) k6 hpf
  exact ⟨Parser.C12_display_parses _ _ _ hb, Parser.C120_unambiguous_partial _ _ _ hb⟩

variable {a : Args} {files : Files Text} {p : Path}

/-- C119, C120 for programs with modules: the text that is in the target for a formula. -/
theorem C119_modules_partial (version : Nat) (ts : List Text) (partials : Text → List Text) (cuts : List Nat) (hs : Setup E a mp p kv) (hb : CanBackup ts a files p)
    (hsrc : ModuleFile E ls csv src) (hf : Fresh fs mp src) (hc : CellsSection E csv rs) (hlib : Program E version fs a.noCache mp (stmts ls) lib)
    (h0 : NoMark (cellAt (rowsOf (files p)) 0 0)) (h1 : ∀ r ∈ rs, ∀ c ∈ r.cells, NoMark c.2) :
    ∃ fetch main rows, IsModule (stmts ls) main ∧ (∀ e ∈ lib, ∃ m, fetch e.1 = .ok m ∧ IsModule e.2 m) ∧ AreRows E rs rows ∧
      ∀ s₁ K order isParam, evalFills ⟨rows, false⟩ = some s₁ → IsUnion fetch main K → Tidy K none order isParam →
        AllClear (effective K kv s₁) rows → AllSeen fetch main K kv s₁ rows →
        ∀ e states w, Main E version ts partials cuts a fs files e states w →
          e = some .success ∧ ∃ final out, states.getLast? = some final ∧ Wrote files final p out ∧
            ShowsValues E (effective K kv s₁) a.safe rows (rowsOf (files p)) (csvRead out) := by
  obtain ⟨fetch, main, rows, q1, q2, q3, q4⟩ := C82_modules_partial version ts partials cuts hs hb hsrc hf hc hlib h0 h1
  refine ⟨fetch, main, rows, q1, q2, q3, fun s₁ K order isParam hs₁ hu hT hclear hseen e states w h => ?_⟩
  obtain ⟨k1, -, final, out, k2, k3, k4⟩ := (q4 s₁ K order isParam hs₁ hu hT hclear hseen).2 e states w h
  refine ⟨k1, final, out, k2, k3, fun before r after e1 i e2 x c e3 f e4 => ?_⟩
  obtain ⟨t, t1, -, t2⟩ := k4.2 before r after e1 i e2 x c e3
  obtain ⟨⟨b, hb⟩, t3⟩ := t2 f e4
  refine ⟨b, by rw [t1, t3 b hb], fun D M hM => C119_meaning _ _ _ _ hb D M hM, fun hpf hpv => ?_⟩
  have hb' := printable_means hpv (fun g nm ps body hg => program_printable hsrc.lines hlib q1 q2 hu hg) hb hpf
  exact ⟨Parser.C12_display_parses _ _ _ hb', Parser.C120_unambiguous_partial _ _ _ hb'⟩

/-- C119 and C120 on the example, with a library: however the operators are read, and whatever they mean, the text in the target for `=(y + rate)` has the
value of that formula by the definitions. -/
example (E : Env) (version : Nat) (e : Option Exit) (states : List (Files Text)) (w : List (MPath × Module Text))
    (h : Main E version [] (fun _ => []) [] (exampleArgs false []) Lib.files exampleFiles e states w) :
    ∃ final out sc pos b, states.getLast? = some final ∧ Wrote exampleFiles final (Path.ofText "out.csv".toList) out ∧ Lib.All sc ∧
      cellAt (csvRead out) 0 0 = '=' :: Parser.display b ∧
      (∀ (D : Type) (M : Values D), Agrees M sc pos → M.value [] b = M.value [] (.infix (.ref "y".toList) "+".toList (.ref "rate".toList))) ∧
      ∃ e pts, Parser.lex E.uni (cellAt (csvRead out) 0 0) = .ok (pts, e) ∧ ∀ b', Parser.Reads (pts.map (·.tok)) b' ↔ b' = b := by
  have h0 : NoMark (cellAt (rowsOf (exampleFiles (Path.ofText "out.csv".toList))) 0 0) := by unfold NoMark; decide
  obtain ⟨fetch, main, rows, d1, d2, d3, hmain⟩ := C119_modules_partial version [] (fun _ => []) [] (exampleSetup E false [] [] rfl) (by intro h; cases h)
    (Lib.main_file E) (fs := Lib.files) ⟨7, rfl, by intro o t h; cases h⟩ (Lib.main_cells E) (Lib.program E) (files := exampleFiles) h0
    (by
      intro r hr c hc
      obtain rfl := List.mem_singleton.mp hr
      obtain rfl := List.mem_singleton.mp hc
      unfold NoMark; decide)
  obtain ⟨r, c, s₁, order, isParam, rfl, hcells, a0', hcop, hs₁, hu, hT, hclear, hseen, hall⟩ := Lib.met d1 d2 d3
  obtain ⟨-, final, out, h3, h4, h5⟩ := hmain s₁ Lib.K _ _ hs₁ hu hT hclear hseen e states w h
  obtain ⟨b, b1, b2, b3⟩ := h5 [] r [] rfl 0 (by rw [hcop]; decide) 0 c (by rw [hcells]; rfl) _ a0'
  have hsafe : (exampleArgs false []).safe = false := rfl
  have htot : total [r] [] = 0 := rfl
  rw [htot, Nat.zero_add, shown, hsafe, if_neg (by simp)] at b1
  refine ⟨final, out, _, _, b, h3, h4, hall, b1, b2, ?_⟩
  rw [b1]
  refine (b3 (.infix (by decide) (Lib.printable E (by decide)) (Lib.printable E (by decide))) fun n d v hd hv => ?_).2
  rw [hall.vars] at hd
  split at hd
  · cases hd; cases hv
    exact .int (v := 2) (by decide)
  · split at hd
    · cases hd; cases hv
      refine .call (Lib.name E _ (by decide)).1 (Lib.name E _ (by decide)).2 fun a ha => ?_
      rw [List.mem_singleton.mp ha]
      exact .int (v := 7) (by decide)
    · cases hd

end
end Verif.Cli
