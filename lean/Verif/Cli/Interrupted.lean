import Verif.Target.Interrupted
import Verif.Cli.Run
import Verif.Cache.Props
import Verif.Sheet.Unused
import Verif.Cli.OneResult
/-
C118 for the program: running the same command again after a run that was interrupted while it wrote the target.
-/
namespace Verif.Cli
open Verif.Ast Verif.Parser Verif.Cache Verif.Loader Verif.Sheet
open Verif.Target hiding MPath
open Verif.Cell hiding Target

variable {E : Env} {version : Nat} {ts ts' : List Text} {partials partials' : Text → List Text} {cuts cuts' : List Nat} {a : Args} {fs : FS Text} {files s : Files Text}
  {mp : MPath} {p : Path} {kv : Text → Option Ast} {e e' : Option Exit} {states states' : List (Files Text)} {w w' : List (MPath × Module Text)} {t : Nat}

/-- The rows of a compiled sheet have as many cells as those of the source file. -/
theorem compiled_full {useCache : Bool} {src : Text} {tm : Nat} {m : Parsed} {sheet : Verif.Sheet.Sheet} (hsrc : fs.src mp = some (src, tm)) (hfirst : fs.obj mp = none)
    (hp : parseModule E src = .ok m) (hfull : ∀ r ∈ m.sheet.rows, ∀ r' ∈ m.sheet.rows, r.cells.length = r'.cells.length)
    (h : Compile (parseModule E) version useCache kv fs mp (.ok sheet) w) : ∀ r ∈ sheet.rows, ∀ r' ∈ sheet.rows, r.cells.length = r'.cells.length := by
  have hl := load_fresh (parse := parseModule E) (version := version) (fs := fs) (mp := mp) (src := src) ⟨tm, hsrc, by rw [hfirst]; intro o t h; cases h⟩
  rw [hp] at hl
  simp only at hl
  have key : ∀ {sc : Scope} {s' : Verif.Sheet.Sheet}, EvalSheet sc kv m.sheet (.ok s') → ∀ r ∈ s'.rows, ∃ r₀ ∈ m.sheet.rows, r.cells.length = r₀.cells.length := by
    intro sc s' hev r hr
    obtain ⟨s₁, hs₁⟩ : ∃ s₁, evalFills m.sheet = some s₁ := by
      obtain ⟨s₁, -, -, -, -, -, hf, -⟩ := hev
      exact ⟨s₁, hf⟩
    obtain ⟨-, hlen, hrows⟩ := C51_shape _ _ _ _ _ hev hs₁
    obtain ⟨y, hy, rfl⟩ := List.getElem_of_mem hr
    obtain ⟨r', h1, -, -, h2, -⟩ := hrows y (s₁.rows[y]'(hlen ▸ hy)) (List.getElem?_eq_getElem _)
    rw [List.getElem?_eq_getElem hy] at h1
    cases h1
    obtain ⟨r₀, h3, h4⟩ := evalFills_cells hs₁ (List.getElem_mem (hlen ▸ hy))
    exact ⟨r₀, h3, by rw [h2, h4]⟩
  have key' : ∀ {sc : Scope} {s' : Verif.Sheet.Sheet}, EvalSheet sc kv m.sheet (.ok s') → ∀ r ∈ s'.rows, ∀ r' ∈ s'.rows, r.cells.length = r'.cells.length := by
    intro sc s' hev r hr r' hr'
    obtain ⟨a, a1, a2⟩ := key hev r hr
    obtain ⟨b, b1, b2⟩ := key hev r' hr'
    rw [a2, b2]
    exact hfull a a1 b b1
  cases h with
  | @deps _ _ lo _ _ _ h => cases lo <;> simp [LOut.failure] at h
  | cached h1 _ h3 => rw [hl] at h1; cases h1; cases h3
  | eval h1 h2 h3 h4 h5 h6 h7 h8 h9 =>
    rw [hl] at h1; cases h1
    exact key' ⟨_, _, _, _, _, .ok _, h4, h5, h6, h7, h8, h9, rfl⟩

/-- C118, the program (with any modules, without `--safe` and with object files): the first run is interrupted at any point after it has written its object files; when the same
command is run again and succeeds, the target is what the first run would have left.  Missing: rows of different lengths
(`C118_violated_short`) and `--safe` (`C118_safe_iff`). -/
theorem C118_program_partial (hs : Setup E a mp p kv) (hsafe : a.safe = false) (hcache : a.noCache = false) (hfirst : fs.obj mp = none)
    {src : Text} {tm : Nat} {m : Parsed} (hsrc : fs.src mp = some (src, tm)) (hclock : tm ≤ t) (hp : parseModule E src = .ok m)
    (hfull : ∀ r ∈ m.sheet.rows, ∀ r' ∈ m.sheet.rows, r.cells.length = r'.cells.length)
    (h : Main E version ts partials cuts a fs files e states w) (he : e = some .success) (_ : s ∈ states)
    (h' : Main E version ts' partials' cuts' a (fs.writeAll t w) s e' states' w') (he' : e' = some .success) :
    ∃ final final' out, states.getLast? = some final ∧ states'.getLast? = some final' ∧ final p = some out ∧ final' p = some out := by
  obtain ⟨c, hc, h1, h2, h3, -⟩ := hs.config
  cases h with
  | badArgs => cases he
  | noName => cases he
  | failed _ _ _ h => rcases h with rfl | rfl <;> cases he
  | panics => cases he
  | hangs => cases he
  | compiled ha hm hcomp =>
    rw [hc] at ha; cases ha
    rw [hs.main] at hm; cases hm
    cases h' with
    | badArgs => cases he'
    | noName => cases he'
    | failed _ _ _ h => rcases h with rfl | rfl <;> cases he'
    | panics => cases he'
    | hangs => cases he'
    | compiled ha hm hcomp' =>
      rw [hc] at ha; cases ha
      rw [hs.main] at hm; cases hm
      rw [h3, hcache] at hcomp
      obtain rfl := C56_recompile hfirst (fun c t' h => by rw [hsrc] at h; cases h; exact hclock) hcomp hcomp'
      rw [h2, hsafe] at he he' ⊢
      obtain ⟨final, e1, e2⟩ := run_target (Option.some.inj he)
      obtain ⟨final', e3, e4⟩ := run_target (Option.some.inj he')
      exact ⟨final, final', _, e1, e3, e2, by rw [e4]; exact congrArg some (write_full (compiled_full hsrc hfirst hp hfull hcomp) _ _)⟩

/-- An example: a file with a function and a fill, compiled to out.csv; the run is interrupted and the command is run again. -/
example (E : Env) (version : Nat) (cuts : List Nat) {e e' : Option Exit} {states states' : List (Files Text)} {w w' : List (MPath × Module Text)} {s : Files Text}
    (h : Main E version [] (fun _ => []) cuts (exampleArgs false []) (exampleFs fillText) exampleFiles e states w) (he : e = some .success) (hs : s ∈ states)
    (h' : Main E version [] (fun _ => []) [] (exampleArgs false []) ((exampleFs fillText).writeAll 8 w) s e' states' w') (he' : e' = some .success) :
    ∃ final final' out, states.getLast? = some final ∧ states'.getLast? = some final' ∧ final (Path.ofText "out.csv".toList) = some out ∧
      final' (Path.ofText "out.csv".toList) = some out := by
  obtain ⟨sc, rows, hp, -, hr⟩ := Unsettled.parse_alone (fill_file E) (rs := [fillRow]) ⟨⟨_, fill_cells, .cons (fill_rowText E) .nil⟩, by
      intro r hr c hc he
      obtain rfl := List.mem_singleton.mp hr
      simp only [fillRow, List.mem_cons, List.not_mem_nil, or_false] at hc
      rcases hc with rfl | rfl
      · exact absurd he (by decide)
      · exact ⟨_, fill_formula E⟩⟩
  refine C118_program_partial (exampleSetup E false [] [] rfl) rfl rfl rfl (m := _) rfl (by decide) hp ?_ h he hs h' he'
  obtain ⟨row, rfl⟩ : ∃ row, rows = [row] := List.length_eq_one_iff.mp hr.1
  simp

end Verif.Cli
