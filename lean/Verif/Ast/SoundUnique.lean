import Verif.Ast.Sound
/-!
# C119: the value of a formula is determined

If no definition depends on itself, what is made of literals, operators, cells and the functions that are not defined determines the value of every
formula by the definitions.
-/
namespace Verif.Ast

/-! ## Specification -/

/-- The two make the same of literals, operators and of the names and functions that are not defined. -/
structure SameBase {D : Type} (M M' : Values D) (sc : Scope) : Prop where
  lit : M'.lit = M.lit
  op : M'.op = M.op
  assign : M'.assign = M.assign
  define : M'.define = M.define
  name : ∀ x, sc.variables x = none → M'.name x = M.name x
  fn : ∀ f, sc.functions f = none → M'.fn f = M.fn f

/-! ## Proofs -/

/-- The function takes that many arguments. -/
def Fits (sc : Scope) (f : Text) (n : Nat) : Prop := ∀ nm ps body, sc.functions f = some (.fn nm ps body) → n = ps.length

/-- The value depends only on the names used, and on functions only for the right number of arguments. -/
theorem value_congr_fits {D : Type} {M M' : Values D} {sc : Scope} (h : SameBase M M' sc) {ρ : List (Text × D)} (a : Ast) (har : arityOk sc a)
    (hV : ∀ x ∈ refNames a, ρ.lookup x = none → M'.name x = M.name x)
    (hF : ∀ f ∈ callNames a, ∀ ds : List D, Fits sc f ds.length → M'.fn f ds = M.fn f ds) :
    M'.value ρ a = M.value ρ a := by
  induction a using Ast.ind with
  | hcall n args ih =>
    simp only [arityOk] at har
    have : args.map (M'.value ρ) = args.map (M.value ρ) := by
      refine List.map_congr_left fun b hb => ih b hb ((arityOkL_iff _ _).mp har.1 b hb) (fun x hx => hV x ?_) (fun x hx => hF x ?_)
      · simp only [refNames, refNamesL_eq, List.mem_flatMap]; exact ⟨b, hb, hx⟩
      · simp only [callNames, callNamesL_eq, List.mem_flatMap, List.mem_cons]; exact .inr ⟨b, hb, hx⟩
    simp only [Values.value, valueL_eq, this]
    refine hF n (by simp [callNames]) _ ?_
    rw [List.length_map]
    exact har.2
  | hinfix l op r h1 h2 =>
    simp only [refNames, callNames, List.mem_append] at hV hF
    simp only [arityOk] at har
    simp only [Values.value, h.op, h1 har.1 (fun x hx => hV x (.inl hx)) (fun x hx => hF x (.inl hx)),
      h2 har.2 (fun x hx => hV x (.inr hx)) (fun x hx => hF x (.inr hx))]
  | hfn _ _ _ ih =>
    simp only [arityOk] at har
    simp only [Values.value, h.define, ih har (by simpa [refNames] using hV) (by simpa [callNames] using hF)]
  | hvar _ _ ih =>
    simp only [arityOk] at har
    simp only [Values.value, h.assign, ih har (by simpa [refNames] using hV) (by simpa [callNames] using hF)]
  | href y =>
    simp only [Values.value]
    cases h : ρ.lookup y with
    | some e => rfl
    | none => exact hV y (by simp [refNames]) h
  | _ => simp [Values.value, h.lit]

/-- The values of a name agree, of a function for the right number of arguments. -/
def AgreeFit {D : Type} (M M' : Values D) (sc : Scope) : Name → Prop
  | .v x => M'.name x = M.name x
  | .f f => ∀ ds : List D, Fits sc f ds.length → M'.fn f ds = M.fn f ds

section
variable {D : Type} {M M' : Values D} {sc : Scope} {pos : Option Addr} {order : List Name} (hw : Wf sc pos) (hac : Acyclic sc pos order)
  (hv : ∀ x d a, sc.variables x = some d → resolve pos d = some a → arityOk sc a)
  (hf : ∀ g nm ps body, sc.functions g = some (.fn nm ps body) → arityOk sc body)
include hw hac hv hf

theorem agree_unique (h : SameBase M M' sc) (hM : Agrees M sc pos) (hM' : Agrees M' sc pos) (k : Nat) :
    ∀ n, (Defined sc n → order.idxOf n < k) → AgreeFit M M' sc n := by
  induction k with
  | zero =>
    intro n hn
    by_cases hd : Defined sc n
    · exact absurd (hn hd) (by omega)
    · cases n with
      | v x => exact h.name x (by simpa [Defined] using hd)
      | f x => intro ds _; rw [h.fn x (by simpa [Defined] using hd)]
  | succ k ih =>
    intro n hn
    by_cases hd : Defined sc n
    · have hlt := hn hd
      cases n with
      | v x =>
        obtain ⟨d, hd'⟩ := Option.isSome_iff_exists.mp hd
        obtain ⟨a, ha, _⟩ := hw.vars x d hd'
        show M'.name x = M.name x
        rw [hM.vars x d a hd' ha, hM'.vars x d a hd' ha]
        refine value_congr_fits h a (hv x d a hd' ha) (fun y hy _ => ih (.v y) fun hdy => ?_) (fun y hy => ih (.f y) fun hdy => ?_)
        · have := hac.2 (.v x) (.v y) hd hdy ⟨d, a, hd', ha, hy⟩; omega
        · have := hac.2 (.v x) (.f y) hd hdy ⟨d, a, hd', ha, hy⟩; omega
      | f g =>
        obtain ⟨d, hd'⟩ := Option.isSome_iff_exists.mp hd
        obtain ⟨nm, ps, body, rfl, _⟩ := hw.fns g d hd'
        intro ds hfit
        have hl := hfit _ _ _ hd'
        rw [hM.fns g nm ps body hd' ds hl, hM'.fns g nm ps body hd' ds hl]
        refine value_congr_fits h body (hf g nm ps body hd') (fun y hy hb => ih (.v y) fun hdy => ?_) (fun y hy => ih (.f y) fun hdy => ?_)
        · have := hac.2 (.f g) (.v y) hd hdy ⟨nm, ps, body, hd', hy, by rintro p hp ⟨⟩; exact lookup_zip_none hl hb hp⟩; omega
        · have := hac.2 (.f g) (.f y) hd hdy ⟨nm, ps, body, hd', hy, by simp⟩; omega
    · cases n with
      | v x => exact h.name x (by simpa [Defined] using hd)
      | f x => intro ds _; rw [h.fn x (by simpa [Defined] using hd)]

/-- C119: if no definition depends on itself and functions are called with as many arguments as they have parameters, there is exactly one value that a
formula can have by the definitions, once it is known what is made of literals, operators, and the names and functions that are not defined. -/
theorem C119_determined (N : Values D) (a : Ast) (ha : arityOk sc a) :
    ∃ d : D, (∃ N' : Values D, SameBase N N' sc ∧ Agrees N' sc pos) ∧ ∀ N' : Values D, SameBase N N' sc → Agrees N' sc pos → N'.value [] a = d := by
  obtain ⟨N₀, h0, h1, h2, h3, h4, h5, h6⟩ := C119_exists N sc pos order hw hac
  have hb : SameBase N N₀ sc := ⟨h1, h2, h3, h4, h5, h6⟩
  refine ⟨N₀.value [] a, ⟨N₀, hb, h0⟩, fun N' h hN' => ?_⟩
  have hbb : SameBase N₀ N' sc := ⟨by rw [h.lit, h1], by rw [h.op, h2], by rw [h.assign, h3], by rw [h.define, h4],
    fun x hx => by rw [h.name x hx, h5 x hx], fun f hf => by rw [h.fn f hf, h6 f hf]⟩
  refine value_congr_fits hbb a ha (fun x _ _ => ?_) (fun f _ => ?_)
  · exact agree_unique hw hac hv hf hbb h0 hN' order.length (.v x) fun hd => List.idxOf_lt_length_iff.mpr (hac.1 _ hd)
  · exact agree_unique hw hac hv hf hbb h0 hN' order.length (.f f) fun hd => List.idxOf_lt_length_iff.mpr (hac.1 _ hd)

/-- C119: so that value is the one that the compiled formula has by itself, without any definitions: if the names of parameters are used for nothing else
and arguments do not use what the called function needs, the compiled formula is the same in every run, there are values that agree with the definitions,
and in all of them the formula written has the value that the compiled formula has in `N`, which knows nothing of the definitions. -/
theorem C119_compiled_value_partial (isParam : Text → Prop) (hh : Hygienic sc pos isParam) (has : ApartScope sc pos) (N : Values D) (a : Ast) (hpl : plain a)
    (hp : ∀ r ∈ refNames a, ¬ isParam r) (hap : Apart sc pos [] a) (ha : arityOk sc a) :
    ∃ b, (∀ o, Eval sc pos a o ↔ o = .ok b) ∧ (∃ N' : Values D, SameBase N N' sc ∧ Agrees N' sc pos) ∧
      ∀ N' : Values D, SameBase N N' sc → Agrees N' sc pos → N'.value [] a = N.value [] b := by
  obtain ⟨-, b, -, -, h⟩ := C21_meaning_partial sc pos order isParam hw hac hh has hv hf a hpl hp hap ha
  have hb := (h _).mpr rfl
  obtain ⟨-, h1, -⟩ := C119_determined hw hac hv hf N a ha
  refine ⟨b, h, h1, fun N' h1 h2 => ?_⟩
  exact (C119_without_partial sc pos isParam hw hh a b hpl hp hb
    (C17_no_defined_names_apart_partial sc pos order isParam hw hac hh has a b hpl hp hap hb) D N N' h2 h1.lit h1.op h1.assign h1.define h1.name h1.fn).symm

end

/-! ## A concrete case -/

/-- Without the condition that no definition depends on itself, the value is not determined: with `x := x` it can be anything. -/
theorem C119_undetermined : ∃ (sc : Scope) (a : Ast) (N : Values Nat), Wf sc none ∧ arityOk sc a ∧
    ∀ d : Nat, ∃ N', SameBase N N' sc ∧ Agrees N' sc none ∧ N'.value [] a = d := by
  refine ⟨⟨fun _ => none, fun x => if x = ['x'] then some (.var ['x'] (.ref ['x'])) else none, []⟩, .ref ['x'],
    ⟨fun _ => 0, fun _ _ _ => 0, fun _ => 0, fun _ _ => 0, fun _ _ => 0, fun _ _ _ => 0⟩, ?_, trivial, fun d => ?_⟩
  · refine ⟨fun _ _ h => (by cases h), fun x d h => ?_⟩
    simp only at h
    split at h
    · cases h; exact ⟨_, rfl, rfl⟩
    · cases h
  · refine ⟨⟨fun _ => 0, fun _ _ _ => 0, fun x => if x = ['x'] then d else 0, fun _ _ => 0, fun _ _ => 0, fun _ _ _ => 0⟩, ?_, ?_, ?_⟩
    · refine ⟨rfl, rfl, rfl, rfl, fun x hx => ?_, fun _ _ => rfl⟩
      simp only at hx ⊢
      split at hx
      · cases hx
      · rename_i h; rw [if_neg h]
    · refine ⟨fun x d' a h1 h2 => ?_, fun _ _ _ _ h => (by cases h)⟩
      simp only at h1 ⊢
      split at h1
      · rename_i h; cases h1; cases h2
        rw [h, if_pos rfl]
        simp [Values.value]
      · cases h1
    · simp [Values.value]

/-- The names and functions of a spreadsheet in which `SUM` adds. -/
def sheetSums : Values Int where
  lit := fun | .int _ _ v => v | _ => 0
  op := fun o l r => if o = T "+" then l + r else if o = T "*" then l * r else l - r
  name := fun _ => 0
  fn := fun _ ds => ds.sum
  assign := fun _ d => d
  define := fun _ _ d => d

/-- `=add(double(rate), rate) - SUM(double(1))` has the value 13, whatever agrees with the definitions and with that spreadsheet; and there is something that
does. -/
example : (∃ N, SameBase sheetSums N demo2 ∧ Agrees N demo2 none) ∧
    ∀ N, SameBase sheetSums N demo2 → Agrees N demo2 none → N.value [] demo2Formula = 13 := by
  obtain ⟨b, h1, h2, h3⟩ := C119_compiled_value_partial (demo2_wf none) (demo2_acyclic none) (demo2_arity none).1 (demo2_arity none).2.1 _ (demo2_hygienic none)
    (demo2_apart none) sheetSums demo2Formula (by decide) (by intro r hr; simp [demo2Formula, refNames, refNamesL] at hr; subst hr; decide)
    (demo2Formula_apart _) (demo2_arity none).2.2
  refine ⟨h2, fun N hb hN => ?_⟩
  rw [h3 N hb hN]
  obtain ⟨-, b', k1, -, k3⟩ := C21_meaning_partial demo2 none _ _ (demo2_wf _) (demo2_acyclic _) (demo2_hygienic _) (demo2_apart _)
    (demo2_arity none).1 (demo2_arity none).2.1 demo2Formula (by decide) (by intro r hr; simp [demo2Formula, refNames, refNamesL] at hr; subst hr; decide)
    (demo2Formula_apart _) (demo2_arity none).2.2
  have : b = b' := by have := (k3 _).mp ((h1 _).mpr rfl); injection this
  rw [this, means_expand (demo2_wf _) (demo2_acyclic _) k1]
  decide +kernel

end Verif.Ast
