import Verif.Cli.CommandLine
import Mathlib.Data.List.Forall2
import Mathlib.Data.List.TakeWhile
/-
C114: what is asked for on the command line, in whatever order and spelling.
-/
namespace Verif.Cli
open Verif.Target hiding MPath

/-! ### Specification -/

/-- The options: what they take, their letter and their name. -/
def options : List (Kind × Option Char × Text) :=
  [(.flag .backup, some 'b', "backup".toList),
   (.value .sheetId, some 'g', "google-sheet-id".toList),
   (.value .credentials, none, "google-account-credentials".toList),
   (.keys, some 'k', "key-values".toList),
   (.flag .noCache, none, "no-cache".toList),
   (.value .output, some 'o', "output-filename".toList),
   (.flag .safe, some 's', "safe".toList),
   (.value .sheetName, some 'n', "sheet-name".toList),
   (.flag .verbose, some 'v', "verbose".toList),
   (.value .xOffset, some 'x', "x-offset".toList),
   (.value .yOffset, some 'y', "y-offset".toList),
   (.flag .help, some 'h', "help".toList),
   (.flag .version, some 'V', "version".toList)]

/-- A word that is not an option. -/
def PlainWord (t : Text) : Prop := t = ['-'] ∨ t.head? ≠ some '-'

/-- A word made of letters: those of some flags and then that of an option. -/
inductive Letters : List Flag → Kind → Text → Prop
  | last {k c n} : (k, some c, n) ∈ options → Letters [] k [c]
  | cons {f c n fs k cs} : (.flag f, some c, n) ∈ options → Letters fs k cs → Letters (f :: fs) k (c :: cs)

/-- A word that gives flags and then an option: `--name`, or `-` and letters. -/
inductive OptionWord : List Flag → Kind → Text → Prop
  | name {k l n} : (k, l, n) ∈ options → OptionWord [] k ('-' :: '-' :: n)
  | letters {fs k cs} : Letters fs k cs → OptionWord fs k ('-' :: cs)

/-- The same with a value in the same word: `--name=value`, `-x=value` or `-xvalue`. -/
inductive WithValue (fs : List Flag) (k : Kind) (v : Text) : Text → Prop
  | equals {w} : OptionWord fs k w → WithValue fs k v (w ++ '=' :: v)
  | directly {cs} : Letters fs k cs → v ≠ [] → v.head? ≠ some '=' → WithValue fs k v ('-' :: cs ++ v)

/-- How things are asked for, one after the other.  The values after `-k` go on up to the next option. -/
inductive Spelled : List Item → List Text → Prop
  | nil : Spelled [] []
  | flag {fs f w is ws} : OptionWord fs (.flag f) w → Spelled is ws → Spelled (fs.map .flag ++ .flag f :: is) (w :: ws)
  | value {fs o v w is ws} : OptionWord fs (.value o) w → PlainWord v → Spelled is ws → Spelled (fs.map .flag ++ .value o v :: is) (w :: v :: ws)
  | valueWith {fs o v w is ws} : WithValue fs (.value o) v w → Spelled is ws → Spelled (fs.map .flag ++ .value o v :: is) (w :: ws)
  | keys {fs vs w is ws} : OptionWord fs .keys w → (∀ v ∈ vs, PlainWord v) → (∀ t, ws.head? = some t → ¬ PlainWord t) → Spelled is ws →
      Spelled (fs.map .flag ++ .keys vs :: is) (w :: vs ++ ws)
  | keysWith {fs v w is ws} : WithValue fs .keys v w → Spelled is ws → Spelled (fs.map .flag ++ .keys [v] :: is) (w :: ws)
  | input {p is ws} : PlainWord p → Spelled is ws → Spelled (.input p :: is) (p :: ws)
  | rest {ps} : Spelled (ps.map .input) (['-', '-'] :: ps)

/-- Decimal digits and their number. -/
inductive Decimal : Text → Nat → Prop
  | digit {d : Nat} : d < 10 → Decimal [Char.ofNat (48 + d)] d
  | snoc {ds n} {d : Nat} : Decimal ds n → d < 10 → Decimal (ds ++ [Char.ofNat (48 + d)]) (10 * n + d)

/-- A number of an option, below 2³². -/
def IsNumber (t : Text) (n : Nat) : Prop :=
  n < 2 ^ 32 ∧ ∃ ds, Decimal ds n ∧ (t = ds ∨ t = '+' :: ds ∨ t = '-' :: ds ∧ n = 0)

/-- The option is given with this value, or not at all. -/
def Given (o : Opt) (is : List Item) (v : Option Text) : Prop :=
  (is.filterMap fun i => match i with | .value o' v => if o' = o then some v else none | _ => none) = v.toList

/-- What things that are asked for mean. -/
structure Means (is : List Item) (a : Args) (credentials : Option Text) : Prop where
  help : .flag .help ∉ is
  version : .flag .version ∉ is
  backup : is.count (.flag .backup) = if a.backup then 1 else 0
  noCache : is.count (.flag .noCache) = if a.noCache then 1 else 0
  safe : is.count (.flag .safe) = if a.safe then 1 else 0
  verbose : a.verbose = min (is.count (.flag .verbose)) 255
  sheetId : Given .sheetId is a.googleSheetId
  credentials : Given .credentials is credentials
  output : ∃ v, Given .output is v ∧ v ≠ some [] ∧ a.outputFilename = v.map Path.ofText
  oneOutput : a.googleSheetId = none ∨ a.outputFilename = none
  sheetName : Given .sheetName is a.sheetName
  xOffset : ∃ v, Given .xOffset is v ∧ (v = none → a.xOffset = 0) ∧ ∀ t, v = some t → IsNumber t a.xOffset
  yOffset : ∃ v, Given .yOffset is v ∧ (v = none → a.yOffset = 0) ∧ ∀ t, v = some t → IsNumber t a.yOffset
  input : ∃ p, (is.filterMap fun i => match i with | .input p => some p | _ => none) = [p] ∧ p ≠ [] ∧ a.inputFilename = Path.ofText p
  keyValues : a.keyValues = (is.filterMap fun i => match i with | .keys vs => some vs | _ => none).flatten

/-! ### Words -/

theorem short_iff {c : Char} {k : Kind} : short c = some k ↔ ∃ n, (k, some c, n) ∈ options := by
  constructor
  · intro h
    unfold short at h
    split at h <;> first | (cases h; done) | (cases h; exact ⟨_, by simp [options]; rfl⟩)
  · rintro ⟨n, h⟩
    simp only [options, List.mem_cons, Prod.mk.injEq, List.not_mem_nil, or_false, Option.some.injEq, reduceCtorEq, false_and, and_false,
      false_or] at h
    rcases h with h | h | h | h | h | h | h | h | h | h | h <;> (obtain ⟨rfl, rfl, -⟩ := h; rfl)

theorem long_iff {n : Text} {k : Kind} : long n = some k ↔ ∃ l, (k, l, n) ∈ options := by
  constructor
  · intro h
    simp only [long, Option.map_eq_some_iff] at h
    obtain ⟨⟨n', k'⟩, h, rfl⟩ := h
    have hm := List.mem_of_find?_eq_some h
    have hn := List.find?_some h
    simp only [decide_eq_true_eq] at hn
    subst hn
    simp only [longNames, List.mem_cons, List.not_mem_nil, or_false, Prod.mk.injEq] at hm
    rcases hm with h | h | h | h | h | h | h | h | h | h | h | h | h <;> (obtain ⟨rfl, rfl⟩ := h; exact ⟨_, by simp only [options, List.mem_cons, Prod.mk.injEq, true_and, and_true]; tauto⟩)
  · rintro ⟨l, h⟩
    simp only [options, List.mem_cons, Prod.mk.injEq, List.not_mem_nil, or_false] at h
    rcases h with h | h | h | h | h | h | h | h | h | h | h | h | h <;> (obtain ⟨rfl, -, rfl⟩ := h; decide +kernel)

theorem options_name {k l n} (h : (k, l, n) ∈ options) : '=' ∉ n ∧ n ≠ [] := by
  revert h
  simp only [options, List.mem_cons, Prod.mk.injEq, List.not_mem_nil, or_false]
  rintro (h | h | h | h | h | h | h | h | h | h | h | h | h) <;> (obtain ⟨-, -, rfl⟩ := h; decide)

theorem options_letter {k c n} (h : (k, some c, n) ∈ options) : c ≠ '-' ∧ c ≠ '=' := by
  have := short_iff.mpr ⟨n, h⟩
  constructor
  · rintro rfl; revert this; simp [short]
  · rintro rfl; revert this; simp [short]

theorem Letters.head {fs k cs} (h : Letters fs k cs) : ∃ c r, cs = c :: r ∧ c ≠ '-' := by
  cases h with
  | last h => exact ⟨_, _, rfl, (options_letter h).1⟩
  | cons h _ => exact ⟨_, _, rfl, (options_letter h).1⟩

theorem cluster_letters {fs k cs} (h : Letters fs k cs) : cluster cs = some (fs.map .flag ++ (alone k).1, (alone k).2) := by
  induction h with
  | @last k c n h =>
    rw [cluster, short_iff.mpr ⟨n, h⟩]
    cases k <;> rfl
  | @cons f c n fs k cs h _ ih =>
    rw [cluster, short_iff.mpr ⟨n, h⟩]
    simp [ih]

/-- The item of an option and its value. -/
def joined : Kind → Text → Item
  | .keys, v => .keys [v]
  | .value o, v => .value o v
  | .flag f, _ => .flag f

theorem attached_eq {k : Kind} (hk : ∀ f, k ≠ .flag f) (v : Text) : attached k v = some ([joined k v], .free) := by
  cases k with
  | flag f => exact absurd rfl (hk f)
  | _ => rfl

theorem cluster_equals {fs k cs} (h : Letters fs k cs) (hk : ∀ f, k ≠ .flag f) (v : Text) :
    cluster (cs ++ '=' :: v) = some (fs.map .flag ++ [joined k v], .free) := by
  induction h with
  | @last k c n h =>
    rw [List.cons_append, cluster, short_iff.mpr ⟨n, h⟩]
    cases k with
    | flag f => exact absurd rfl (hk f)
    | _ => simp [attached, joined]
  | @cons f c n fs k cs h _ ih =>
    rw [List.cons_append, cluster, short_iff.mpr ⟨n, h⟩]
    simp [ih hk]

theorem cluster_directly {fs k cs} (h : Letters fs k cs) (hk : ∀ f, k ≠ .flag f) {v : Text} (hv : v ≠ []) (he : v.head? ≠ some '=') :
    cluster (cs ++ v) = some (fs.map .flag ++ [joined k v], .free) := by
  induction h with
  | @last k c n h =>
    obtain ⟨a, v, rfl⟩ := List.exists_cons_of_ne_nil hv
    have ha : a ≠ '=' := by simpa using he
    rw [List.cons_append, cluster, short_iff.mpr ⟨n, h⟩]
    cases k with
    | flag f => exact absurd rfl (hk f)
    | _ =>
      simp only [List.nil_append, List.map_nil]
      split
      · rename_i h; cases h
      · rename_i h; cases h; exact absurd rfl ha
      · rename_i h; rfl
  | @cons f c n fs k cs h _ ih =>
    rw [List.cons_append, cluster, short_iff.mpr ⟨n, h⟩]
    simp [ih hk]

theorem span_name {n : Text} (h : '=' ∉ n) : n.span (· != '=') = (n, []) := by
  rw [List.span_eq_takeWhile_dropWhile, List.takeWhile_eq_self_iff.mpr, List.dropWhile_eq_nil_iff.mpr]
  · intro c hc; simp only [bne_iff_ne]; rintro rfl; exact h hc
  · intro c hc; simp only [bne_iff_ne]; rintro rfl; exact h hc

theorem span_value {n : Text} (h : '=' ∉ n) (v : Text) : (n ++ '=' :: v).span (· != '=') = (n, '=' :: v) := by
  have hn : ∀ c ∈ n, (c != '=') = true := by intro c hc; simp only [bne_iff_ne]; rintro rfl; exact h hc
  rw [List.span_eq_takeWhile_dropWhile, List.takeWhile_append_of_pos hn, List.dropWhile_append_of_pos hn]
  simp

theorem longWord_name {k l n} (h : (k, l, n) ∈ options) : longWord n = some (alone k) := by
  rw [longWord, span_name (options_name h).1]
  simp [long_iff.mpr ⟨l, h⟩]

theorem longWord_value {k l n} (h : (k, l, n) ∈ options) (v : Text) : longWord (n ++ '=' :: v) = attached k v := by
  rw [longWord, span_value (options_name h).1]
  simp [long_iff.mpr ⟨l, h⟩]

theorem word_long {m : Mode} {w : Text} (hm : m ≠ .trailing) (hw : w ≠ []) :
    word m ('-' :: '-' :: w) = (close m).bind fun is => (longWord w).map fun r => (is ++ r.1, r.2) := by
  obtain ⟨c, w, rfl⟩ := List.exists_cons_of_ne_nil hw
  unfold word
  rw [if_neg hm]
  simp

theorem word_short {m : Mode} {c : Char} {w : Text} (hm : m ≠ .trailing) (hc : c ≠ '-') :
    word m ('-' :: c :: w) = (close m).bind fun is => (cluster (c :: w)).map fun r => (is ++ r.1, r.2) := by
  unfold word
  rw [if_neg hm]
  split
  · rename_i h; cases h; exact absurd rfl hc
  · rename_i h; cases h; exact absurd rfl hc
  · rename_i h; cases h; rfl
  · rename_i h; exact absurd rfl (h _ _)

theorem word_dashes {m : Mode} (hm : m ≠ .trailing) : word m ['-', '-'] = (close m).map fun is => (is, .trailing) := by
  rw [word, if_neg hm]

theorem word_plain {m : Mode} {t : Text} (ht : PlainWord t) : word m t = some (plainWord m t) := by
  unfold word
  split
  · rfl
  · rcases ht with rfl | ht
    · rfl
    · split
      · exact absurd rfl ht
      · exact absurd rfl ht
      · exact absurd rfl ht
      · rfl

theorem word_option {m : Mode} {is fs k w} (hm : m ≠ .trailing) (hc : close m = some is) (h : OptionWord fs k w) :
    word m w = some (is ++ (fs.map .flag ++ (alone k).1), (alone k).2) := by
  cases h with
  | name h => rw [word_long hm (options_name h).2, hc, longWord_name h]; rfl
  | letters h =>
    obtain ⟨c, r, rfl, h'⟩ := h.head
    rw [word_short hm h', hc, cluster_letters h]; rfl

theorem word_with {m : Mode} {is fs k v w} (hk : ∀ f, k ≠ .flag f) (hm : m ≠ .trailing) (hc : close m = some is) (h : WithValue fs k v w) :
    word m w = some (is ++ (fs.map .flag ++ [joined k v]), .free) := by
  cases h with
  | equals h =>
    cases h with
    | name h =>
      rw [List.cons_append, List.cons_append, word_long hm (by simp), hc, longWord_value h, attached_eq hk]; rfl
    | letters h =>
      obtain ⟨c, r, rfl, h'⟩ := h.head
      have := cluster_equals h hk v
      rw [List.cons_append] at this
      rw [List.cons_append, List.cons_append, word_short hm h', hc, this]; rfl
  | directly h hv he =>
    obtain ⟨c, r, rfl, h'⟩ := h.head
    have := cluster_directly h hk hv he
    rw [List.cons_append] at this
    rw [List.cons_append, List.cons_append, word_short hm h', hc, this]; rfl

theorem not_plain {t : Text} (h : ¬ PlainWord t) : t = ['-', '-'] ∨ (∃ c w, t = '-' :: '-' :: c :: w) ∨ ∃ c w, t = '-' :: c :: w ∧ c ≠ '-' := by
  simp only [PlainWord, not_or, not_not] at h
  obtain ⟨h1, h2⟩ := h
  match t, h1, h2 with
  | [a], h1, h2 => simp at h1 h2; exact absurd h2 h1
  | a :: b :: w, h1, h2 =>
    simp at h2
    subst h2
    by_cases hb : b = '-'
    · subst hb
      cases w with
      | nil => exact .inl rfl
      | cons c w => exact .inr (.inl ⟨c, w, rfl⟩)
    · exact .inr (.inr ⟨b, w, rfl, hb⟩)

theorem word_close {m : Mode} {is t} (hm : m ≠ .trailing) (hc : close m = some is) (h : ¬ PlainWord t) :
    word m t = (word .free t).map fun r => (is ++ r.1, r.2) := by
  have hf : Mode.free ≠ .trailing := by decide
  rcases not_plain h with rfl | ⟨c, w, rfl⟩ | ⟨c, w, rfl, hc'⟩
  · rw [word_dashes hm, word_dashes hf, hc]; simp [close]
  · rw [word_long hm (by simp), word_long hf (by simp), hc]
    cases longWord (c :: w) <;> simp [close]
  · rw [word_short hm hc', word_short hf hc', hc]
    cases cluster (c :: w) <;> simp [close]

theorem items_close {vs : List Text} {ws : List Text} (h : ∀ t, ws.head? = some t → ¬ PlainWord t) :
    items (.keys vs) ws = (items .free ws).map (.keys vs :: ·) := by
  cases ws with
  | nil => rfl
  | cons t ts =>
    rw [items, items, word_close (by simp) (rfl : close (.keys vs) = _) (h t rfl)]
    cases word .free t with
    | none => rfl
    | some r => cases h' : items r.2 ts <;> simp [h']

theorem items_keys {ws : List Text} (h : ∀ t, ws.head? = some t → ¬ PlainWord t) : ∀ {vs acc : List Text}, (∀ v ∈ vs, PlainWord v) →
    items (.keys acc) (vs ++ ws) = (items .free ws).map (.keys (acc ++ vs) :: ·)
  | [], acc, _ => by simpa using items_close (vs := acc) h
  | v :: vs, acc, hv => by
    rw [List.cons_append, items, word_plain (hv v (by simp))]
    simp only [plainWord, Option.bind_some]
    rw [items_keys h (fun v hv' => hv v (by simp [hv']))]
    cases items .free ws <;> simp

theorem items_trailing (ps : List Text) : items .trailing ps = some (ps.map .input) := by
  induction ps with
  | nil => rfl
  | cons p ps ih => rw [items]; unfold word; rw [if_pos rfl]; simp [plainWord, ih]

theorem items_spelled {is : List Item} {ws : List Text} (h : Spelled is ws) : items .free ws = some is := by
  have hf : Mode.free ≠ .trailing := by decide
  induction h with
  | nil => rfl
  | flag hw _ ih => rw [items, word_option hf rfl hw]; simp [alone, ih]
  | value hw hv _ ih =>
    rw [items, word_option hf rfl hw]
    simp only [alone, Option.bind_some]
    rw [items, word_plain hv]
    simp [plainWord, ih]
  | valueWith hw _ ih => rw [items, word_with (by simp) hf rfl hw]; simp [joined, ih]
  | keys hw hv hn _ ih =>
    rw [List.cons_append, items, word_option hf rfl hw]
    simp only [alone, Option.bind_some]
    rw [items_keys hn hv, ih]
    simp
  | keysWith hw _ ih => rw [items, word_with (by simp) hf rfl hw]; simp [joined, ih]
  | input hp _ ih => rw [items, word_plain hp]; simp [plainWord, ih]
  | rest => rw [items, word_dashes hf]; simp [close, items_trailing]

/-! ### Every accepted word is one of these -/

/-- What a word that is not plain can be. -/
def Opening (t : Text) (is : List Item) (m : Mode) : Prop :=
  (∃ fs k, OptionWord fs k t ∧ is = fs.map .flag ++ (alone k).1 ∧ m = (alone k).2) ∨
  ∃ fs k v, (∀ f, k ≠ .flag f) ∧ WithValue fs k v t ∧ is = fs.map .flag ++ [joined k v] ∧ m = .free

theorem attached_inv {k v r} (h : attached k v = some r) : (∀ f, k ≠ .flag f) ∧ r = ([joined k v], .free) := by
  cases k with
  | flag f => cases h
  | _ => cases h; exact ⟨by simp, rfl⟩

theorem cluster_inv : ∀ {cs : Text} {r}, cs ≠ [] → cluster cs = some r →
    (∃ fs k, Letters fs k cs ∧ r = (fs.map .flag ++ (alone k).1, (alone k).2)) ∨
    ∃ fs k v l, (∀ f, k ≠ .flag f) ∧ Letters fs k l ∧ r = (fs.map .flag ++ [joined k v], .free) ∧
      (cs = l ++ '=' :: v ∨ cs = l ++ v ∧ v ≠ [] ∧ v.head? ≠ some '=')
  | [], _, h, _ => absurd rfl h
  | c :: cs, r, _, h => by
    have ih : ∀ {r}, cs ≠ [] → cluster cs = some r → _ := fun {r} => cluster_inv (cs := cs) (r := r)
    rw [cluster] at h
    cases hs : short c with
    | none => rw [hs] at h; cases h
    | some k =>
      obtain ⟨n, hn⟩ := short_iff.mp hs
      rw [hs] at h
      by_cases hk : ∃ f, k = .flag f
      · obtain ⟨f, rfl⟩ := hk
        simp only [Option.map_eq_some_iff] at h
        obtain ⟨r', h, rfl⟩ := h
        by_cases he : cs = []
        · subst he
          rw [cluster] at h; cases h
          exact .inl ⟨[], .flag f, .last hn, rfl⟩
        · rcases ih he h with ⟨fs, k, hl, rfl⟩ | ⟨fs, k, v, l, hk, hl, rfl, hv⟩
          · exact .inl ⟨f :: fs, k, .cons hn hl, rfl⟩
          · refine .inr ⟨f :: fs, k, v, c :: l, hk, .cons hn hl, rfl, ?_⟩
            rcases hv with rfl | ⟨rfl, hv⟩
            · exact .inl rfl
            · exact .inr ⟨rfl, hv⟩
      · have hk' : ∀ f, k ≠ .flag f := fun f e => hk ⟨f, e⟩
        clear ih
        cases cs with
        | nil =>
          have h' : some (alone k) = some r := by
            cases k with
            | flag f => exact absurd rfl (hk' f)
            | _ => exact h
          cases h'
          exact .inl ⟨[], k, .last hn, rfl⟩
        | cons a cs =>
          by_cases ha : a = '='
          · subst ha
            have h' : attached k cs = some r := by
              cases k with
              | flag f => exact absurd rfl (hk' f)
              | _ => exact h
            obtain ⟨-, rfl⟩ := attached_inv h'
            exact .inr ⟨[], k, cs, [c], hk', .last hn, rfl, .inl rfl⟩
          · have h' : attached k (a :: cs) = some r := by
              cases k with
              | flag f => exact absurd rfl (hk' f)
              | _ =>
                simp only at h
                split at h
                · rename_i h0; cases h0
                · rename_i h0; cases h0; exact absurd rfl ha
                · exact h
            obtain ⟨-, rfl⟩ := attached_inv h'
            exact .inr ⟨[], k, a :: cs, [c], hk', .last hn, rfl, .inr ⟨rfl, by simp, by simpa using ha⟩⟩

theorem span_inv {p : Char → Bool} {w : Text} : w = (w.span p).1 ++ (w.span p).2 := by
  rw [List.span_eq_takeWhile_dropWhile]; simp

theorem longWord_inv {w r} (h : longWord w = some r) :
    (∃ k l, (k, l, w) ∈ options ∧ r = alone k) ∨ ∃ k l n v, (∀ f, k ≠ .flag f) ∧ (k, l, n) ∈ options ∧ w = n ++ '=' :: v ∧ r = ([joined k v], .free) := by
  have hw := span_inv (p := (· != '=')) (w := w)
  rw [longWord] at h
  split at h
  · rename_i n hs
    rw [hs] at hw
    simp only [List.append_nil] at hw
    subst hw
    simp only [Option.map_eq_some_iff] at h
    obtain ⟨k, h, rfl⟩ := h
    obtain ⟨l, h⟩ := long_iff.mp h
    exact .inl ⟨k, l, h, rfl⟩
  · rename_i n e v hs
    have he : e = '=' := by
      have : (w.span (· != '=')).2 = e :: v := by rw [hs]
      rw [List.span_eq_takeWhile_dropWhile] at this
      have h0 := List.head?_dropWhile_not (· != '=') w
      rw [show w.dropWhile (· != '=') = e :: v from this] at h0
      simpa using h0
    subst he
    rw [hs] at hw
    simp only [Option.bind_eq_some_iff] at h
    obtain ⟨k, h, h'⟩ := h
    obtain ⟨l, h⟩ := long_iff.mp h
    obtain ⟨hk, rfl⟩ := attached_inv h'
    exact .inr ⟨k, l, n, v, hk, h, hw, rfl⟩

theorem word_inv {t r} (ht : ¬ PlainWord t) (h : word .free t = some r) : (t = ['-', '-'] ∧ r = ([], .trailing)) ∨ Opening t r.1 r.2 := by
  have hf : Mode.free ≠ .trailing := by decide
  rcases not_plain ht with rfl | ⟨c, w, rfl⟩ | ⟨c, w, rfl, hc⟩
  · rw [word_dashes hf] at h; cases h; exact .inl ⟨rfl, rfl⟩
  · rw [word_long hf (by simp)] at h
    simp only [close, Option.bind_some, Option.map_eq_some_iff] at h
    obtain ⟨r', hr, rfl⟩ := h
    rcases longWord_inv hr with ⟨k, l, h, rfl⟩ | ⟨k, l, n, v, hk, h, hw, rfl⟩
    · exact .inr (.inl ⟨[], k, .name h, rfl, rfl⟩)
    · exact .inr (.inr ⟨[], k, v, hk, by rw [hw]; exact .equals (w := '-' :: '-' :: n) (.name h), rfl, rfl⟩)
  · rw [word_short hf hc] at h
    simp only [close, Option.bind_some, Option.map_eq_some_iff] at h
    obtain ⟨r', hr, rfl⟩ := h
    rcases cluster_inv (by simp) hr with ⟨fs, k, hl, rfl⟩ | ⟨fs, k, v, l, hk, hl, rfl, h⟩
    · exact .inr (.inl ⟨fs, k, .letters hl, rfl, rfl⟩)
    · refine .inr (.inr ⟨fs, k, v, hk, ?_, rfl, rfl⟩)
      rcases h with h | ⟨h, h1, h2⟩
      · rw [h]; exact .equals (w := '-' :: l) (.letters hl)
      · rw [h]; exact .directly hl h1 h2

theorem items_need {o ts is} (h : items (.need o) ts = some is) : ∃ v ts' is', ts = v :: ts' ∧ PlainWord v ∧ items .free ts' = some is' ∧ is = .value o v :: is' := by
  cases ts with
  | nil => cases h
  | cons t ts =>
    by_cases ht : PlainWord t
    · rw [items, word_plain ht] at h
      simp only [plainWord, Option.bind_some, Option.map_eq_some_iff] at h
      obtain ⟨is', h, rfl⟩ := h
      exact ⟨t, ts, is', rfl, ht, h, rfl⟩
    · rw [items] at h
      have : word (.need o) t = none := by
        rcases not_plain ht with rfl | ⟨c, w, rfl⟩ | ⟨c, w, rfl, hc⟩
        · rw [word_dashes (by simp)]; rfl
        · rw [word_long (by simp) (by simp)]; rfl
        · rw [word_short (by simp) hc]; rfl
      rw [this] at h; cases h

theorem items_keys_inv : ∀ {ts acc is}, items (.keys acc) ts = some is → ∃ vs ws is', ts = vs ++ ws ∧ (∀ v ∈ vs, PlainWord v) ∧
    (∀ t, ws.head? = some t → ¬ PlainWord t) ∧ items .free ws = some is' ∧ is = .keys (acc ++ vs) :: is'
  | [], acc, is, h => by cases h; exact ⟨[], [], [], rfl, by simp, by simp, rfl, by simp⟩
  | t :: ts, acc, is, h => by
    by_cases ht : PlainWord t
    · rw [items, word_plain ht] at h
      simp only [plainWord, Option.bind_some, Option.map_eq_some_iff] at h
      obtain ⟨is', h, rfl⟩ := h
      obtain ⟨vs, ws, is'', rfl, h1, h2, h3, rfl⟩ := items_keys_inv h
      exact ⟨t :: vs, ws, is'', rfl, by simp only [List.mem_cons]; rintro v (rfl | hv); exacts [ht, h1 v hv], h2, h3, by simp⟩
    · have hn : ∀ t', (t :: ts).head? = some t' → ¬ PlainWord t' := by rintro t' ⟨⟩; exact ht
      rw [items_close hn] at h
      simp only [Option.map_eq_some_iff] at h
      obtain ⟨is', h, rfl⟩ := h
      exact ⟨[], t :: ts, is', rfl, by simp, hn, h, by simp⟩

theorem spelled_items : ∀ (n : Nat) {ws : List Text} {is}, ws.length = n → items .free ws = some is → Spelled is ws := by
  intro n
  induction n using Nat.strongRecOn with
  | ind n ih =>
    intro ws is hl h
    cases ws with
    | nil => cases h; exact .nil
    | cons t ts =>
      by_cases ht : PlainWord t
      · rw [items, word_plain ht] at h
        simp only [plainWord, Option.bind_some, Option.map_eq_some_iff] at h
        obtain ⟨is', h, rfl⟩ := h
        exact .input ht (ih ts.length (by simp [← hl]) rfl h)
      · rw [items] at h
        simp only [Option.bind_eq_some_iff, Option.map_eq_some_iff] at h
        obtain ⟨r, hr, is', h, rfl⟩ := h
        rcases word_inv ht hr with ⟨rfl, rfl⟩ | ⟨fs, k, hw, h1, h2⟩ | ⟨fs, k, v, hk, hw, h1, h2⟩
        · rw [items_trailing] at h
          cases h
          exact .rest
        · rw [h2] at h
          rw [h1]
          cases k with
          | flag f =>
            simp only [alone, List.append_assoc, List.singleton_append] at h ⊢
            exact .flag hw (ih ts.length (by simp [← hl]) rfl h)
          | value o =>
            obtain ⟨v, ts', is'', rfl, hv, h', rfl⟩ := items_need h
            simp only [alone, List.append_nil]
            exact .value hw hv (ih ts'.length (by simp [← hl]; omega) rfl h')
          | keys =>
            obtain ⟨vs, ws, is'', rfl, hv, hn, h', rfl⟩ := items_keys_inv h
            simp only [alone, List.append_nil, List.nil_append]
            exact .keys hw hv hn (ih ws.length (by simp [← hl]; omega) rfl h')
        · rw [h2] at h
          rw [h1]
          simp only [List.append_assoc, List.singleton_append]
          cases k with
          | flag f => exact absurd rfl (hk f)
          | value o => exact .valueWith hw (ih ts.length (by simp [← hl]) rfl h)
          | keys => exact .keysWith hw (ih ts.length (by simp [← hl]) rfl h)

theorem items_iff {ws is} : items .free ws = some is ↔ Spelled is ws := ⟨spelled_items _ rfl, items_spelled⟩

end Verif.Cli
