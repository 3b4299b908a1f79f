import Verif.Cli.CommandLineProps
import Mathlib.Tactic.IntervalCases
import Mathlib.Data.List.Induction
/-
C114: what the things asked for on the command line mean.
-/
namespace Verif.Cli
open Verif.Target hiding MPath

/-! ### Numbers -/

/-- The number of digits. -/
abbrev digitsValue (w : Text) : Nat := w.foldl (fun n c => 10 * n + (c.toNat - '0'.toNat)) 0

/-- Only digits. -/
abbrev allDigits (w : Text) : Bool := w.all (fun c => '0' ≤ c ∧ c ≤ '9')

theorem digit_char {d : Nat} (h : d < 10) : ('0' ≤ Char.ofNat (48 + d) ∧ Char.ofNat (48 + d) ≤ '9') ∧ (Char.ofNat (48 + d)).toNat - '0'.toNat = d := by
  interval_cases d <;> decide

theorem char_digit {c : Char} (h : '0' ≤ c ∧ c ≤ '9') : ∃ d < 10, c = Char.ofNat (48 + d) := by
  have h1 : 48 ≤ c.toNat := h.1
  have h2 : c.toNat ≤ 57 := h.2
  refine ⟨c.toNat - 48, by omega, ?_⟩
  rw [show 48 + (c.toNat - 48) = c.toNat by omega, Char.ofNat_toNat]

theorem Decimal.value {ds n} (h : Decimal ds n) : ds ≠ [] ∧ allDigits ds = true ∧ digitsValue ds = n := by
  induction h with
  | digit h => obtain ⟨h1, h2⟩ := digit_char h; exact ⟨by simp, by simpa [allDigits] using h1, by simpa [digitsValue] using h2⟩
  | snoc _ h ih =>
    obtain ⟨h1, h2⟩ := digit_char h
    obtain ⟨i1, i2, i3⟩ := ih
    refine ⟨by simp, ?_, ?_⟩
    · simp only [allDigits, List.all_append, Bool.and_eq_true] at i2 ⊢; exact ⟨i2, by simpa using h1⟩
    · simp only [digitsValue, List.foldl_append] at i3 ⊢; rw [i3]; simp only [List.foldl_cons, List.foldl_nil, h2]

theorem decimal_of {ds : Text} (h : ds ≠ []) (ha : allDigits ds = true) : Decimal ds (digitsValue ds) := by
  induction ds using List.reverseRecOn with
  | nil => exact absurd rfl h
  | append_singleton ds c ih =>
    rw [allDigits, List.all_append, Bool.and_eq_true] at ha
    obtain ⟨d, hd, rfl⟩ := char_digit (c := c) (by simpa using ha.2)
    have hv := (digit_char hd).2
    by_cases he : ds = []
    · subst he
      have := Decimal.digit hd
      simp only [digitsValue, List.nil_append, List.foldl_cons, List.foldl_nil, hv, Nat.mul_zero, Nat.zero_add]
      exact this
    · have := Decimal.snoc (ih he ha.1) hd
      rw [digitsValue, List.foldl_append]
      simp only [List.foldl_cons, List.foldl_nil, hv]
      exact this

theorem Decimal.head {ds n} (h : Decimal ds n) : ∃ c r, ds = c :: r ∧ c ≠ '-' ∧ c ≠ '+' := by
  obtain ⟨h1, h2, -⟩ := h.value
  obtain ⟨c, r, rfl⟩ := List.exists_cons_of_ne_nil h1
  refine ⟨c, r, rfl, ?_, ?_⟩ <;> (rintro rfl; simp [allDigits] at h2)

theorem digitsOf_iff {w : Text} {n : Nat} : digitsOf w = some n ↔ Decimal w n := by
  rw [digitsOf]
  split
  · rename_i h
    simp only [Option.some.injEq]
    exact ⟨fun e => e ▸ decimal_of h.1 h.2, fun h => h.value.2.2⟩
  · rename_i h
    simp only [reduceCtorEq, false_iff]
    exact fun h' => h ⟨h'.value.1, h'.value.2.1⟩

theorem number_iff {t : Text} {n : Nat} : numberValue t = some n ↔ IsNumber t n := by
  constructor
  · intro h
    unfold numberValue at h
    split at h <;> simp only [Option.bind_eq_some_iff] at h <;> obtain ⟨m, hm, h⟩ := h <;> rw [digitsOf_iff] at hm <;> split at h <;>
      first | (cases h; done) | skip
    · cases h
      rename_i h0; subst h0
      exact ⟨by decide, _, hm, .inr (.inr ⟨rfl, rfl⟩)⟩
    · cases h
      rename_i h0
      exact ⟨by omega, _, hm, .inr (.inl rfl)⟩
    · cases h
      rename_i h0
      exact ⟨by omega, _, hm, .inl rfl⟩
  · rintro ⟨hn, ds, hd, rfl | rfl | ⟨rfl, rfl⟩⟩
    · obtain ⟨c, r, rfl, h1, h2⟩ := hd.head
      unfold numberValue
      split
      · rename_i h; cases h; exact absurd rfl h1
      · rename_i h; cases h; exact absurd rfl h2
      · rw [digitsOf_iff.mpr hd]; simp; omega
    · simp only [numberValue]
      rw [digitsOf_iff.mpr hd]; simp; omega
    · simp only [numberValue]
      rw [digitsOf_iff.mpr hd]; simp

/-! ### Options -/

theorem once_iff {vs : List Text} {v : Option Text} : once vs = some v ↔ vs = v.toList := by
  unfold once
  split
  · cases v <;> simp
  · cases v <;> simp
  · rename_i h1 h2
    simp only [reduceCtorEq, false_iff]
    rintro rfl
    cases v with
    | none => exact h1 rfl
    | some v => exact h2 v rfl

theorem onceFlag_iff {n : Nat} {b : Bool} : onceFlag n = some b ↔ n = if b then 1 else 0 := by
  unfold onceFlag
  split
  · subst n; cases b <;> simp
  · split
    · subst n; cases b <;> simp
    · cases b <;> simp <;> omega

theorem count_eq {f : Flag} {is : List Item} : countOf f is = is.count (.flag f) := by
  rw [countOf, List.count]
  congr 1

theorem count_zero {f : Flag} {is : List Item} : countOf f is = 0 ↔ .flag f ∉ is := by
  rw [count_eq, List.count_eq_zero]

theorem optional_path {v : Option Text} {p : Option Path} : optional pathValue v = some p ↔ v ≠ some [] ∧ p = v.map Path.ofText := by
  cases v with
  | none => simp [optional, eq_comm]
  | some v =>
    simp only [optional, pathValue, Option.map_eq_some_iff]
    by_cases h : v = [] <;> simp [h, eq_comm]

theorem optional_number {v : Option Text} {n : Option Nat} :
    optional numberValue v = some n ↔ (v = none ∧ n = none) ∨ ∃ t m, v = some t ∧ n = some m ∧ IsNumber t m := by
  cases v with
  | none => simp [optional, eq_comm]
  | some v =>
    simp only [optional, Option.map_eq_some_iff, number_iff]
    constructor
    · rintro ⟨m, h, rfl⟩; exact .inr ⟨v, m, rfl, rfl, h⟩
    · rintro (⟨h, -⟩ | ⟨t, m, h, rfl, h'⟩)
      · cases h
      · cases h; exact ⟨m, h', rfl⟩

theorem offset_iff {is : List Item} {o : Opt} {x : Option Nat} (h : (once (valuesOf o is)).bind (optional numberValue) = some x) :
    ∃ v, Given o is v ∧ (v = none → x.getD 0 = 0) ∧ ∀ t, v = some t → IsNumber t (x.getD 0) := by
  obtain ⟨v, h1, h2⟩ := Option.bind_eq_some_iff.mp h
  refine ⟨v, once_iff.mp h1, ?_⟩
  rcases optional_number.mp h2 with ⟨rfl, rfl⟩ | ⟨t, m, rfl, rfl, hm⟩
  · exact ⟨fun _ => rfl, by simp⟩
  · exact ⟨by simp, by rintro t' ⟨⟩; exact hm⟩

theorem offset_of {is : List Item} {o : Opt} {n : Nat} (h : ∃ v, Given o is v ∧ (v = none → n = 0) ∧ ∀ t, v = some t → IsNumber t n) :
    ∃ x, (once (valuesOf o is)).bind (optional numberValue) = some x ∧ x.getD 0 = n := by
  obtain ⟨v, hg, h0, h1⟩ := h
  rw [show once (valuesOf o is) = some v from once_iff.mpr hg]
  cases v with
  | none => exact ⟨none, rfl, (h0 rfl).symm⟩
  | some t => exact ⟨some n, by simp [optional, number_iff.mpr (h1 t rfl)], rfl⟩

theorem Given.once {o is v} (h : Given o is v) : Verif.Cli.once (valuesOf o is) = some v := once_iff.mpr h

theorem gather_iff {is : List Item} {a : Args} {c : Option Text} : gather is = some (a, c) ↔ Means is a c := by
  constructor
  · intro h
    unfold gather at h
    split at h
    · rename_i backup noCache safe sheetId credentials output sheetName x y p h1 h2 h3 h4 h5 h6 h7 h8 h9 h10
      split at h
      · rename_i hc
        obtain ⟨input, hp, h⟩ := Option.map_eq_some_iff.mp h
        cases h
        rw [pathValue] at hp
        split at hp
        · cases hp
        · rename_i hne
          cases hp
          obtain ⟨v, hv, ho⟩ := Option.bind_eq_some_iff.mp h6
          obtain ⟨ho, hp⟩ := optional_path.mp ho
          exact {
            help := count_zero.mp hc.1
            version := count_zero.mp hc.2.1
            backup := by rw [← count_eq]; exact onceFlag_iff.mp h1
            noCache := by rw [← count_eq]; exact onceFlag_iff.mp h2
            safe := by rw [← count_eq]; exact onceFlag_iff.mp h3
            verbose := by rw [← count_eq]
            sheetId := once_iff.mp h4
            credentials := once_iff.mp h5
            output := ⟨v, once_iff.mp hv, ho, hp⟩
            oneOutput := by
              have := hc.2.2
              cases sheetId
              · exact .inl rfl
              · cases output
                · exact .inr rfl
                · simp at this
            sheetName := once_iff.mp h7
            xOffset := offset_iff h8
            yOffset := offset_iff h9
            input := ⟨p, h10, hne, rfl⟩
            keyValues := rfl }
      · cases h
    · cases h
  · intro h
    obtain ⟨x, hx, hx'⟩ := offset_of h.xOffset
    obtain ⟨y, hy, hy'⟩ := offset_of h.yOffset
    obtain ⟨v, hv, ho, hp⟩ := h.output
    obtain ⟨p, hi, hne, hpi⟩ := h.input
    unfold gather
    rw [onceFlag_iff.mpr (by rw [count_eq]; exact h.backup), onceFlag_iff.mpr (by rw [count_eq]; exact h.noCache),
      onceFlag_iff.mpr (by rw [count_eq]; exact h.safe), h.sheetId.once, h.credentials.once, hv.once,
      h.sheetName.once, hx, hy, show inputsOf is = [p] from hi, Option.bind_some, optional_path.mpr ⟨ho, hp⟩]
    have hcond : countOf .help is = 0 ∧ countOf .version is = 0 ∧ ¬ (a.googleSheetId.isSome ∧ a.outputFilename.isSome) := by
      refine ⟨count_zero.mpr h.help, count_zero.mpr h.version, ?_⟩
      rcases h.oneOutput with e | e <;> simp [e]
    simp only
    rw [if_pos hcond, pathValue, if_neg hne]
    simp only [Option.map_some, Option.some.injEq, Prod.mk.injEq, and_true]
    rw [hx', hy', count_eq, ← h.verbose, ← hpi, show keysOf is = a.keyValues from h.keyValues.symm]

/-! ### C114 -/

/-- C114: a command line is accepted exactly if it is made of options and an input file, each in one of its spellings, that go together, and then
it means what they say. -/
theorem C114_means {ws : List Text} {a : Args} {c : Option Text} : parseArgs ws = some (a, c) ↔ ∃ is, Spelled is ws ∧ Means is a c := by
  simp only [parseArgs, Option.bind_eq_some_iff, items_iff, gather_iff]

/-- C114: a command line can be read in one way only. -/
theorem C114_unambiguous {ws : List Text} {is is' : List Item} (h : Spelled is ws) (h' : Spelled is' ws) : is = is' :=
  Option.some.inj ((items_iff.mpr h).symm.trans (items_iff.mpr h'))

theorem toList_perm {v : Option Text} {l : List Text} (h : l.Perm v.toList) : l = v.toList := by
  cases v with
  | none => exact h.eq_nil
  | some v => exact List.perm_singleton.mp h

theorem Given.perm {o is is' v} (h : Given o is v) (hp : is.Perm is') : Given o is' v := toList_perm ((hp.filterMap _).symm.trans (by rw [show _ = _ from h]))

theorem Means.perm {is is' : List Item} {a : Args} {c : Option Text} (h : Means is a c) (hp : is.Perm is') :
    Means is' { a with keyValues := keysOf is' } c where
  help := fun hm => h.help (hp.mem_iff.mpr hm)
  version := fun hm => h.version (hp.mem_iff.mpr hm)
  backup := by rw [← hp.count_eq]; exact h.backup
  noCache := by rw [← hp.count_eq]; exact h.noCache
  safe := by rw [← hp.count_eq]; exact h.safe
  verbose := by rw [← hp.count_eq]; exact h.verbose
  sheetId := h.sheetId.perm hp
  credentials := h.credentials.perm hp
  output := by obtain ⟨v, h1, h2⟩ := h.output; exact ⟨v, h1.perm hp, h2⟩
  oneOutput := h.oneOutput
  sheetName := h.sheetName.perm hp
  xOffset := by obtain ⟨v, h1, h2⟩ := h.xOffset; exact ⟨v, h1.perm hp, h2⟩
  yOffset := by obtain ⟨v, h1, h2⟩ := h.yOffset; exact ⟨v, h1.perm hp, h2⟩
  input := by
    obtain ⟨p, h1, h2⟩ := h.input
    exact ⟨p, List.perm_singleton.mp ((hp.filterMap _).symm.trans (by rw [h1])), h2⟩
  keyValues := rfl

/-- C114: the order in which things are asked for does not matter, nor how they are spelled, as long as the `-k` values keep their order. -/
theorem C114_order {is is' : List Item} {ws ws' : List Text} (h : Spelled is ws) (h' : Spelled is' ws') (hp : is.Perm is')
    (hk : (is.filterMap fun i => match i with | .keys vs => some vs | _ => none).flatten =
      (is'.filterMap fun i => match i with | .keys vs => some vs | _ => none).flatten) : parseArgs ws = parseArgs ws' := by
  have key : ∀ {is is' : List Item} {ws ws' : List Text}, Spelled is ws → Spelled is' ws' → is.Perm is' → keysOf is = keysOf is' →
      ∀ r, parseArgs ws = some r → parseArgs ws' = some r := by
    rintro is is' ws ws' h h' hp hk ⟨a, c⟩ hr
    obtain ⟨is0, h0, hm⟩ := C114_means.mp hr
    obtain rfl := C114_unambiguous h h0
    refine C114_means.mpr ⟨is', h', ?_⟩
    have := hm.perm hp
    rw [← hk, show keysOf is = a.keyValues from hm.keyValues.symm] at this
    exact this
  exact Option.ext fun r => ⟨key h h' hp hk r, key h' h hp.symm hk.symm r⟩

theorem not_plain_option {fs k w} (h : OptionWord fs k w) : ¬ PlainWord w := by
  cases h with
  | name h => simp [PlainWord]
  | letters h => obtain ⟨c, r, rfl, -⟩ := h.head; simp [PlainWord]

theorem Spelled.append {is js : List Item} {ws vs : List Text} (h : Spelled is ws) (hd : ['-', '-'] ∉ ws) (h' : Spelled js vs)
    (hn : ∀ t, vs.head? = some t → ¬ PlainWord t) : Spelled (is ++ js) (ws ++ vs) := by
  induction h with
  | nil => exact h'
  | flag hw _ ih => simpa using .flag hw (ih (by simp at hd; tauto))
  | value hw hv _ ih => simpa using .value hw hv (ih (by simp at hd; tauto))
  | valueWith hw _ ih => simpa using .valueWith hw (ih (by simp at hd; tauto))
  | @keys fs us w is ws hw hv hn' _ ih =>
    have := Spelled.keys hw hv (ws := ws ++ vs) (by
      cases ws with
      | nil => simpa using hn
      | cons t ts => simpa using hn') (ih (by simp at hd; tauto))
    simpa using this
  | keysWith hw _ ih => simpa using .keysWith hw (ih (by simp at hd; tauto))
  | input hp _ ih => simpa using .input hp (ih (by simp at hd; tauto))
  | rest => simp at hd

/-- C114, what `-k` takes: all words up to the next option.  So a command line whose input file comes after the last `-k`, with no option in
between, is not accepted. -/
theorem C114_keys_take_input {is : List Item} {ws vs : List Text} {fs : List Flag} {w : Text} (h : Spelled is ws) (hd : ['-', '-'] ∉ ws)
    (hi : ∀ p, .input p ∉ is) (hw : OptionWord fs .keys w) (hv : ∀ v ∈ vs, PlainWord v) : parseArgs (ws ++ w :: vs) = none := by
  cases hr : parseArgs (ws ++ w :: vs) with
  | none => rfl
  | some r =>
    exfalso
    obtain ⟨a, c⟩ := r
    obtain ⟨is', hs, hm⟩ := C114_means.mp hr
    have hk := Spelled.keys (is := []) (ws := []) hw hv (by simp) .nil
    simp only [List.append_nil] at hk
    have := h.append hd hk (by rintro t ⟨⟩; exact not_plain_option hw)
    obtain rfl := C114_unambiguous this hs
    obtain ⟨p, hp, -⟩ := hm.input
    have : p ∈ [p] := by simp
    rw [← hp] at this
    simp only [List.mem_filterMap, List.mem_append, List.mem_map, List.mem_singleton, List.mem_cons] at this
    obtain ⟨i, hi', he⟩ := this
    rcases hi' with hi' | ⟨f, -, rfl⟩ | rfl | hi'
    · cases i <;> simp at he
      subst he
      exact hi _ hi'
    · simp at he
    · simp at he
    · simp at hi'

/-! ### Everything can be asked for -/

theorem decimal_exists (n : Nat) : ∃ ds, Decimal ds n := by
  induction n using Nat.strongRecOn with
  | ind n ih =>
    by_cases h : n < 10
    · exact ⟨_, .digit h⟩
    · obtain ⟨ds, hd⟩ := ih (n / 10) (by omega)
      have := Decimal.snoc hd (d := n % 10) (by omega)
      rw [show 10 * (n / 10) + n % 10 = n by omega] at this
      exact ⟨_, this⟩

/-- A flag, if it is wanted. -/
def flagItems (b : Bool) (f : Flag) : List Item := if b then [.flag f] else []

/-- An option, if it is wanted. -/
def valueItems (o : Opt) (v : Option Text) : List Item := v.toList.map (.value o)

/-- All that is wanted. -/
def allItems (a : Args) (c out x y : Option Text) (p : Text) : List Item :=
  flagItems a.backup .backup ++ flagItems a.noCache .noCache ++ flagItems a.safe .safe ++ List.replicate a.verbose (.flag .verbose) ++
    valueItems .sheetId a.googleSheetId ++ valueItems .credentials c ++ valueItems .output out ++ valueItems .sheetName a.sheetName ++
    valueItems .xOffset x ++ valueItems .yOffset y ++ a.keyValues.map (fun v => .keys [v]) ++ [.input p]

theorem count_flagItems {b f f'} : (flagItems b f').count (.flag f) = if f' = f ∧ b then 1 else 0 := by
  cases b <;> simp [flagItems, List.count_singleton]

theorem count_valueItems {o v f} : (valueItems o v).count (.flag f) = 0 := by cases v <;> simp [valueItems, List.count_singleton]

theorem count_keys {vs : List Text} {f} : (vs.map (fun v => Item.keys [v])).count (.flag f) = 0 := by
  rw [List.count_eq_zero]; simp

theorem values_flagItems {b f o} : valuesOf o (flagItems b f) = [] := by cases b <;> simp [flagItems, valuesOf]
theorem values_valueItems {o o' v} : valuesOf o (valueItems o' v) = if o' = o then v.toList else [] := by
  by_cases h : o' = o <;> cases v <;> simp [valueItems, valuesOf, h]
theorem values_keys {vs : List Text} {o} : valuesOf o (vs.map (fun v => Item.keys [v])) = [] := by simp [valuesOf]
theorem values_replicate {n o} : valuesOf o (List.replicate n (.flag .verbose)) = [] := by simp [valuesOf]
theorem values_append {o is js} : valuesOf o (is ++ js) = valuesOf o is ++ valuesOf o js := by simp [valuesOf]

theorem inputs_flagItems {b f} : inputsOf (flagItems b f) = [] := by cases b <;> simp [flagItems, inputsOf]
theorem inputs_valueItems {o v} : inputsOf (valueItems o v) = [] := by cases v <;> simp [valueItems, inputsOf]
theorem keys_flagItems {b f} : keysOf (flagItems b f) = [] := by cases b <;> simp [flagItems, keysOf]
theorem keys_valueItems {o v} : keysOf (valueItems o v) = [] := by cases v <;> simp [valueItems, keysOf]
theorem inputs_append {is js} : inputsOf (is ++ js) = inputsOf is ++ inputsOf js := by simp [inputsOf]
theorem keys_append {is js} : keysOf (is ++ js) = keysOf is ++ keysOf js := by simp [keysOf]

theorem allItems_count {a c out x y p f} : (allItems a c out x y p).count (.flag f) =
    (if f = .backup ∧ a.backup then 1 else 0) + (if f = .noCache ∧ a.noCache then 1 else 0) + (if f = .safe ∧ a.safe then 1 else 0) +
      (if f = .verbose then a.verbose else 0) := by
  simp only [allItems, List.count_append, count_flagItems, count_valueItems, count_keys, List.count_replicate]
  cases f <;> simp [List.count_singleton]

theorem allItems_values {a c out x y p o} : valuesOf o (allItems a c out x y p) =
    (match o with | .sheetId => a.googleSheetId | .credentials => c | .output => out | .sheetName => a.sheetName | .xOffset => x | .yOffset => y).toList := by
  simp only [allItems, values_append, values_flagItems, values_valueItems, values_keys, values_replicate]
  cases o <;> simp [valuesOf]

/-- Things that can be asked for by words which end in options. -/
theorem Spelled.flagItems {b f l n is ws} (h : (.flag f, l, n) ∈ options) (hs : Spelled is ws) : ∃ ws', Spelled (Verif.Cli.flagItems b f ++ is) ws' := by
  cases b with
  | false => exact ⟨ws, hs⟩
  | true => exact ⟨_, .flag (.name h) hs⟩

theorem Spelled.valueItems {o v l n is ws} (h : (.value o, l, n) ∈ options) (hs : Spelled is ws) : ∃ ws', Spelled (Verif.Cli.valueItems o v ++ is) ws' := by
  cases v with
  | none => exact ⟨ws, hs⟩
  | some v => exact ⟨_, .valueWith (.equals (.name h)) hs⟩

theorem Spelled.keysItems {is ws} (vs : List Text) (hs : Spelled is ws) : ∃ ws', Spelled (vs.map (fun v => Item.keys [v]) ++ is) ws' := by
  induction vs with
  | nil => exact ⟨ws, hs⟩
  | cons v vs ih =>
    obtain ⟨ws', ih⟩ := ih
    exact ⟨_, .keysWith (.equals (.name (l := some 'k') (n := "key-values".toList) (by simp [options]))) ih⟩

theorem Spelled.replicate {is ws} (n : Nat) (hs : Spelled is ws) : ∃ ws', Spelled (List.replicate n (Item.flag .verbose) ++ is) ws' := by
  induction n with
  | zero => exact ⟨ws, hs⟩
  | succ n ih =>
    obtain ⟨ws', ih⟩ := ih
    exact ⟨_, .flag (.name (l := some 'v') (n := "verbose".toList) (by simp [options])) ih⟩

theorem number_exists {n : Nat} (h : n < 2 ^ 32) : ∃ t, IsNumber t n := by
  obtain ⟨ds, hd⟩ := decimal_exists n
  exact ⟨ds, h, ds, hd, .inl rfl⟩

/-- C114: all that the program can do can be asked for: there is a command line for all values of the options (with at most 255 `-v`, offsets
below 2³², and not both a Google sheet and a file), whatever characters are in them. -/
theorem C114_expressible (a : Args) (c : Option Text) (hv : a.verbose ≤ 255) (hx : a.xOffset < 2 ^ 32) (hy : a.yOffset < 2 ^ 32)
    (hi : ∃ p, p ≠ [] ∧ a.inputFilename = Path.ofText p) (ho : ∀ q, a.outputFilename = some q → a.googleSheetId = none ∧ ∃ p, p ≠ [] ∧ q = Path.ofText p) :
    ∃ ws, parseArgs ws = some (a, c) := by
  obtain ⟨p, hp, hpi⟩ := hi
  obtain ⟨x, hx⟩ := number_exists hx
  obtain ⟨y, hy⟩ := number_exists hy
  have hout : ∃ out : Option Text, out ≠ some [] ∧ a.outputFilename = out.map Path.ofText := by
    cases ho' : a.outputFilename with
    | none => exact ⟨none, by simp, rfl⟩
    | some q => obtain ⟨-, p, hp, rfl⟩ := ho q ho'; exact ⟨some p, by simpa using hp, rfl⟩
  obtain ⟨out, hout, hout'⟩ := hout
  have hm : Means (allItems a c out (some x) (some y) p) a c := {
    help := by rw [← List.count_eq_zero, allItems_count]; simp
    version := by rw [← List.count_eq_zero, allItems_count]; simp
    backup := by rw [allItems_count]; simp
    noCache := by rw [allItems_count]; simp
    safe := by rw [allItems_count]; simp
    verbose := by rw [allItems_count]; simp; omega
    sheetId := allItems_values
    credentials := allItems_values
    output := ⟨out, allItems_values, hout, hout'⟩
    oneOutput := by
      cases ho' : a.outputFilename with
      | none => exact .inr rfl
      | some q => exact .inl (ho q ho').1
    sheetName := allItems_values
    xOffset := ⟨some x, allItems_values, by simp, by rintro t ⟨⟩; exact hx⟩
    yOffset := ⟨some y, allItems_values, by simp, by rintro t ⟨⟩; exact hy⟩
    input := by
      refine ⟨p, ?_, hp, hpi⟩
      change inputsOf _ = _
      simp only [allItems, inputs_append, inputs_flagItems, inputs_valueItems]
      simp [inputsOf]
    keyValues := by
      change _ = keysOf _
      simp only [allItems, keys_append, keys_flagItems, keys_valueItems]
      simp [keysOf, Function.comp_def, ← List.flatMap_def] }
  have h0 : Spelled [.input p] [['-', '-'], p] := .rest (ps := [p])
  obtain ⟨_, h0⟩ := h0.keysItems a.keyValues
  obtain ⟨_, h0⟩ := h0.valueItems (o := .yOffset) (v := some y) (l := some 'y') (n := "y-offset".toList) (by simp [options])
  obtain ⟨_, h0⟩ := h0.valueItems (o := .xOffset) (v := some x) (l := some 'x') (n := "x-offset".toList) (by simp [options])
  obtain ⟨_, h0⟩ := h0.valueItems (o := .sheetName) (v := a.sheetName) (l := some 'n') (n := "sheet-name".toList) (by simp [options])
  obtain ⟨_, h0⟩ := h0.valueItems (o := .output) (v := out) (l := some 'o') (n := "output-filename".toList) (by simp [options])
  obtain ⟨_, h0⟩ := h0.valueItems (o := .credentials) (v := c) (l := none) (n := "google-account-credentials".toList) (by simp [options])
  obtain ⟨_, h0⟩ := h0.valueItems (o := .sheetId) (v := a.googleSheetId) (l := some 'g') (n := "google-sheet-id".toList) (by simp [options])
  obtain ⟨_, h0⟩ := h0.replicate a.verbose
  obtain ⟨_, h0⟩ := h0.flagItems (b := a.safe) (f := .safe) (l := some 's') (n := "safe".toList) (by simp [options])
  obtain ⟨_, h0⟩ := h0.flagItems (b := a.noCache) (f := .noCache) (l := none) (n := "no-cache".toList) (by simp [options])
  obtain ⟨ws, h0⟩ := h0.flagItems (b := a.backup) (f := .backup) (l := some 'b') (n := "backup".toList) (by simp [options])
  refine ⟨ws, C114_means.mpr ⟨_, ?_, hm⟩⟩
  simpa only [allItems, List.append_assoc] using h0

/-! ### Examples -/

deriving instance DecidableEq for CliArgs, Args

/-- The words of a command line. -/
def wordsOf (s : String) : List Text := (s.toList.splitOn ' ')

/-- `csvpp -o my_sheet.csv my_sheet.csvpp` of the book, and the same with all in another order and spelling. -/
example : parseArgs (wordsOf "-bvv --output-filename=my_sheet.csv -x2 -k a=1 b=2 -- my_sheet.csvpp") =
    some (⟨⟨true, none, false, some (Path.ofText "my_sheet.csv".toList), false, none, 2, 2, 0, Path.ofText "my_sheet.csvpp".toList⟩,
      ["a=1".toList, "b=2".toList]⟩, none) ∧
    parseArgs (wordsOf "my_sheet.csvpp --verbose -k=a=1 --x-offset +2 -kb=2 -vo my_sheet.csv --backup") =
      parseArgs (wordsOf "-bvv --output-filename=my_sheet.csv -x2 -k a=1 b=2 -- my_sheet.csvpp") := by
  constructor <;> decide +kernel

/-- What is not accepted: the input file after `-k`, two outputs, an option twice, a negative offset, a sheet name that looks like an option. -/
example : parseArgs (wordsOf "-o out.csv -k a=1 my_sheet.csvpp") = none ∧ parseArgs (wordsOf "-o out.csv -g abc my_sheet.csvpp") = none ∧
    parseArgs (wordsOf "-bb -o out.csv my_sheet.csvpp") = none ∧ parseArgs (wordsOf "-x -1 -o out.csv my_sheet.csvpp") = none ∧
    parseArgs (wordsOf "-n -2023- -o out.csv my_sheet.csvpp") = none ∧ (parseArgs (wordsOf "-n=-2023- -o out.csv my_sheet.csvpp")).isSome := by
  refine ⟨?_, ?_, ?_, ?_, ?_, ?_⟩ <;> decide +kernel

/-- The hypotheses of `C114_keys_take_input`. -/
example : ∃ is, Spelled is (wordsOf "-o out.csv") ∧ (∀ p, .input p ∉ is) ∧ ['-', '-'] ∉ wordsOf "-o out.csv" ∧ OptionWord [] .keys "-k".toList ∧
    (∀ v ∈ wordsOf "a=1 my_sheet.csvpp", PlainWord v) :=
  ⟨[.value .output "out.csv".toList], by
      rw [show wordsOf "-o out.csv" = ['-' :: ['o'], "out.csv".toList] by decide +kernel]
      exact .value (fs := []) (.letters (.last (n := "output-filename".toList) (by simp [options]))) (.inr (by decide)) .nil,
    by simp, by decide +kernel, .letters (cs := ['k']) (.last (n := "key-values".toList) (by simp [options])), by
      rw [show wordsOf "a=1 my_sheet.csvpp" = ["a=1".toList, "my_sheet.csvpp".toList] by decide +kernel]
      simp [PlainWord]⟩

end Verif.Cli
