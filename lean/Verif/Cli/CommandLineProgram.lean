import Verif.Cli.CommandLineMeaning
import Verif.Cli.KeyValues
import Verif.Cli.Order
/-
C114: the program does the same whatever the order and spelling of the command line.
-/
namespace Verif.Cli
open Verif.Target hiding MPath
open Verif.Cell hiding Target
open Verif.Ast Verif.Loader Verif.Cache

/-- All things that are asked for but the variables. -/
def withoutKeys (is : List Item) : List Item := is.filter fun i => match i with | .keys _ => false | _ => true

theorem count_withoutKeys {is f} : (withoutKeys is).count (.flag f) = is.count (.flag f) := by
  rw [withoutKeys, List.count_filter]; rfl

theorem values_withoutKeys {is o} : valuesOf o (withoutKeys is) = valuesOf o is := by
  rw [withoutKeys, valuesOf, valuesOf, List.filterMap_filter]
  congr 1; funext i; cases i <;> rfl

theorem inputs_withoutKeys {is} : inputsOf (withoutKeys is) = inputsOf is := by
  rw [withoutKeys, inputsOf, inputsOf, List.filterMap_filter]
  congr 1; funext i; cases i <;> rfl

theorem Means.without {is : List Item} {a : Args} {c : Option Text} : Means is { a with keyValues := keysOf is } c ↔
    Means (withoutKeys is) { a with keyValues := keysOf (withoutKeys is) } c := by
  have hg : ∀ o v, Given o (withoutKeys is) v ↔ Given o is v := by
    intro o v
    change valuesOf _ _ = _ ↔ valuesOf _ _ = _
    rw [values_withoutKeys]
  have hi : ∀ p, (withoutKeys is).filterMap (fun i => match i with | .input p => some p | _ => none) = [p] ↔
      is.filterMap (fun i => match i with | .input p => some p | _ => none) = [p] := by
    intro p
    change inputsOf _ = _ ↔ inputsOf _ = _
    rw [inputs_withoutKeys]
  constructor
  · intro h
    exact {
      help := by rw [← List.count_eq_zero, count_withoutKeys, List.count_eq_zero]; exact h.help
      version := by rw [← List.count_eq_zero, count_withoutKeys, List.count_eq_zero]; exact h.version
      backup := by rw [count_withoutKeys]; exact h.backup
      noCache := by rw [count_withoutKeys]; exact h.noCache
      safe := by rw [count_withoutKeys]; exact h.safe
      verbose := by rw [count_withoutKeys]; exact h.verbose
      sheetId := (hg _ _).mpr h.sheetId
      credentials := (hg _ _).mpr h.credentials
      output := by simp only [hg]; exact h.output
      oneOutput := h.oneOutput
      sheetName := (hg _ _).mpr h.sheetName
      xOffset := by simp only [hg]; exact h.xOffset
      yOffset := by simp only [hg]; exact h.yOffset
      input := by obtain ⟨p, h1, h2⟩ := h.input; exact ⟨p, (hi p).mpr h1, h2⟩
      keyValues := rfl }
  · intro h
    exact {
      help := by rw [← List.count_eq_zero, ← count_withoutKeys, List.count_eq_zero]; exact h.help
      version := by rw [← List.count_eq_zero, ← count_withoutKeys, List.count_eq_zero]; exact h.version
      backup := by rw [← count_withoutKeys]; exact h.backup
      noCache := by rw [← count_withoutKeys]; exact h.noCache
      safe := by rw [← count_withoutKeys]; exact h.safe
      verbose := by rw [← count_withoutKeys]; exact h.verbose
      sheetId := (hg _ _).mp h.sheetId
      credentials := (hg _ _).mp h.credentials
      output := by simp only [← hg]; exact h.output
      oneOutput := h.oneOutput
      sheetName := (hg _ _).mp h.sheetName
      xOffset := by simp only [← hg]; exact h.xOffset
      yOffset := by simp only [← hg]; exact h.yOffset
      input := by obtain ⟨p, h1, h2⟩ := h.input; exact ⟨p, (hi p).mp h1, h2⟩
      keyValues := rfl }

theorem parse_perm {is is' : List Item} {ws ws' : List Text} (h : Spelled is ws) (h' : Spelled is' ws') (hp : (withoutKeys is).Perm (withoutKeys is'))
    {a : Args} {c : Option Text} (hr : parseArgs ws = some (a, c)) : a.keyValues = keysOf is ∧ parseArgs ws' = some ({ a with keyValues := keysOf is' }, c) := by
  obtain ⟨is0, h0, hm⟩ := C114_means.mp hr
  obtain rfl := C114_unambiguous h h0
  have hk : a.keyValues = keysOf is := hm.keyValues
  refine ⟨hk, C114_means.mpr ⟨is', h', ?_⟩⟩
  have h1 : Means is { a with keyValues := keysOf is } c := by rw [← hk]; exact hm
  exact Means.without.mpr ((Means.without.mp h1).perm hp)

/-- No two arguments give a value to the same name. -/
def DifferentNames (E : Env) (args : List Text) : Prop := args.Pairwise fun s t => ∀ n a b, Gives E s n a → ¬ Gives E t n b

theorem exists_left {α β : Type} {R : α → β → Prop} {l : List α} {m : List β} (h : List.Forall₂ R l m) {b : β} (hb : b ∈ m) : ∃ a ∈ l, R a b := by
  induction h with
  | nil => cases hb
  | cons hr _ ih =>
    rcases List.mem_cons.mp hb with rfl | hb
    · exact ⟨_, by simp, hr⟩
    · obtain ⟨a, ha, hr⟩ := ih hb; exact ⟨a, by simp [ha], hr⟩

theorem forall₂_perm {α β : Type} {R : α → β → Prop} {l l' : List α} (hp : l.Perm l') : ∀ {m : List β}, List.Forall₂ R l m →
    ∃ m', m.Perm m' ∧ List.Forall₂ R l' m' := by
  induction hp with
  | nil => intro m h; exact ⟨m, .refl _, h⟩
  | cons x _ ih =>
    intro m h
    cases h with
    | cons hr h => obtain ⟨m', h1, h2⟩ := ih h; exact ⟨_ :: m', h1.cons _, .cons hr h2⟩
  | swap x y l =>
    intro m h
    cases h with
    | cons hr h => cases h with
      | cons hr' h => exact ⟨_, List.Perm.swap _ _ _, .cons hr' (.cons hr h)⟩
  | trans _ _ ih1 ih2 =>
    intro m h
    obtain ⟨m1, h1, h2⟩ := ih1 h
    obtain ⟨m2, h3, h4⟩ := ih2 h2
    exact ⟨m2, h1.trans h3, h4⟩

theorem names_nodup {E : Env} {args : List Text} {l : List (Text × Ast)} (h : List.Forall₂ (fun arg d => Gives E arg d.1 d.2) args l)
    (hd : DifferentNames E args) : (l.map (·.1)).Nodup := by
  induction h with
  | nil => simp
  | @cons arg d args l hg hf ih =>
    rw [DifferentNames, List.pairwise_cons] at hd
    rw [List.map_cons, List.nodup_cons]
    refine ⟨?_, ih hd.2⟩
    intro hm
    obtain ⟨d', hm, he⟩ := List.mem_map.mp hm
    obtain ⟨x, hx, hg'⟩ := exists_left hf hm
    rw [he] at hg'
    exact hd.1 x hx _ _ _ hg hg'

theorem configured_perm {E : Env} {a : Args} {ks : List Text} (hp : a.keyValues.Perm ks) (hd : DifferentNames E a.keyValues) :
    configured E { a with keyValues := ks } = configured E a := by
  have key : ∀ {k k' : List Text} {l}, k.Perm k' → Parser.parseKeyValues E.uni E.f64 k = some l → ∃ l', Parser.parseKeyValues E.uni E.f64 k' = some l' ∧ l.Perm l' := by
    intro k k' l hp h
    rw [C81_values] at h
    obtain ⟨l', h1, h2⟩ := forall₂_perm hp h
    exact ⟨l', (C81_values E k' l').mpr h2, h1⟩
  rw [configured, configured]
  cases h : Parser.parseKeyValues E.uni E.f64 a.keyValues with
  | none =>
    cases h' : Parser.parseKeyValues E.uni E.f64 ks with
    | none => rfl
    | some l => obtain ⟨l', h1, -⟩ := key hp.symm h'; rw [h] at h1; cases h1
  | some l =>
    obtain ⟨l', h1, h2⟩ := key hp h
    simp only [h1]
    rw [collect_perm h2 (names_nodup ((C81_values E _ l).mp h) hd)]

theorem MainFile.same {C : Type} {E : Cell.Env} {version : Nat} {timestamps : List Text} {partials : C → List C} {out : Path → Output}
    {write : Config → Verif.Sheet.Sheet → Option C → WriteOut C} {a a' : Args} {fs : FS Text} {files : Files C} {e s w} (hc : configured E a' = configured E a)
    (hi : a'.inputFilename = a.inputFilename) (h : MainFile E version timestamps partials out write a fs files e s w) :
    MainFile E version timestamps partials out write a' fs files e s w := by
  cases h with
  | badArgs h => exact .badArgs (by rw [hc]; exact h)
  | noName h h' => exact .noName (by rw [hc]; exact h) (by rw [hi]; exact h')
  | failed h h' h1 h2 => exact .failed (by rw [hc]; exact h) (by rw [hi]; exact h') h1 h2
  | panics h h' h1 => exact .panics (by rw [hc]; exact h) (by rw [hi]; exact h') h1
  | hangs h h' h1 => exact .hangs (by rw [hc]; exact h) (by rw [hi]; exact h') h1
  | compiled h h' h1 => exact .compiled (by rw [hc]; exact h) (by rw [hi]; exact h') h1

/-- C114, the program: two command lines that ask for the same, in whatever order and spelling, also of the `-k` variables if they have different
names, are accepted alike and lead to the same runs of the program. -/
theorem C114_program {E : Cell.Env} {is is' : List Item} {ws ws' : List Text} (h : Spelled is ws) (h' : Spelled is' ws')
    (hp : (is.filter fun i => match i with | .keys _ => false | _ => true).Perm (is'.filter fun i => match i with | .keys _ => false | _ => true))
    (hk : (is.filterMap fun i => match i with | .keys vs => some vs | _ => none).flatten.Perm
      (is'.filterMap fun i => match i with | .keys vs => some vs | _ => none).flatten)
    (hd : DifferentNames E (is.filterMap fun i => match i with | .keys vs => some vs | _ => none).flatten) :
    (parseArgs ws = none ↔ parseArgs ws' = none) ∧
    ∀ a c a' c', parseArgs ws = some (a, c) → parseArgs ws' = some (a', c') → c' = c ∧
      ∀ (C : Type) (version : Nat) (timestamps : List Text) (partials : C → List C) (out : Path → Output)
        (write : Config → Verif.Sheet.Sheet → Option C → WriteOut C) (fs : FS Text) (files : Files C) e s w,
        MainFile E version timestamps partials out write a fs files e s w ↔ MainFile E version timestamps partials out write a' fs files e s w := by
  constructor
  · constructor
    · intro hn
      cases hr : parseArgs ws' with
      | none => rfl
      | some r => rw [(parse_perm h' h hp.symm hr).2] at hn; cases hn
    · intro hn
      cases hr : parseArgs ws with
      | none => rfl
      | some r => rw [(parse_perm h h' hp hr).2] at hn; cases hn
  · intro a c a' c' hr hr'
    obtain ⟨hka, h1⟩ := parse_perm h h' hp hr
    rw [h1] at hr'
    cases hr'
    refine ⟨rfl, ?_⟩
    intro C version timestamps partials out write fs files e s w
    have hc : configured E { a with keyValues := keysOf is' } = configured E a := configured_perm (by rw [hka]; exact hk) (by rw [hka]; exact hd)
    exact ⟨.same hc rfl, .same hc.symm rfl⟩

/-- Arguments with different names in them are of the kind asked for by `C114_program`. -/
theorem differentNames {E : Env} {l : List (Text × Text)} (h : (l.map (·.1)).Nodup) (he : ∀ p ∈ l, '=' ∉ p.1) :
    DifferentNames E (l.map fun p => p.1 ++ '=' :: p.2) := by
  have name : ∀ {p : Text × Text} {n : Text} {a : Ast}, '=' ∉ p.1 → Gives E (p.1 ++ '=' :: p.2) n a → n = p.1 := by
    rintro p n a hp ⟨v, e, hn, -⟩
    have := congrArg (List.takeWhile (· != '=')) e
    rw [List.takeWhile_append_of_pos (by intro c hc; simp only [bne_iff_ne]; rintro rfl; exact hp hc),
      List.takeWhile_append_of_pos (by intro c hc; simp only [bne_iff_ne]; rintro rfl; exact hn hc)] at this
    simpa using this.symm
  rw [DifferentNames, List.pairwise_map]
  rw [List.Nodup, List.pairwise_map] at h
  refine h.imp_of_mem ?_
  intro p q hp hq hne n a b hg hg'
  exact hne ((name (he p hp) hg).symm.trans (name (he q hq) hg'))

/-- Two command lines that ask for the same. -/
example (E : Env) : ∃ is is' : List Item, Spelled is ["-k".toList, "a=1".toList, "b=2".toList, "--safe".toList, "in.csvpp".toList] ∧
    Spelled is' ["in.csvpp".toList, "-s".toList, "-kb=2".toList, "--key-values=a=1".toList] ∧ (withoutKeys is).Perm (withoutKeys is') ∧
    (keysOf is).Perm (keysOf is') ∧ DifferentNames E (keysOf is) := by
  refine ⟨[.keys ["a=1".toList, "b=2".toList], .flag .safe, .input "in.csvpp".toList],
    [.input "in.csvpp".toList, .flag .safe, .keys ["b=2".toList], .keys ["a=1".toList]], ?_, ?_, ?_, ?_, ?_⟩
  · exact items_iff.mp (by decide +kernel)
  · exact items_iff.mp (by decide +kernel)
  · rw [show withoutKeys [.keys ["a=1".toList, "b=2".toList], .flag .safe, .input "in.csvpp".toList] = [.flag .safe, .input "in.csvpp".toList] from rfl,
      show withoutKeys [.input "in.csvpp".toList, .flag .safe, .keys ["b=2".toList], .keys ["a=1".toList]] = [.input "in.csvpp".toList, .flag .safe] from rfl]
    exact List.Perm.swap _ _ _
  · exact List.Perm.swap _ _ _
  · exact differentNames (l := [("a".toList, "1".toList), ("b".toList, "2".toList)]) (by decide) (by decide)

end Verif.Cli
