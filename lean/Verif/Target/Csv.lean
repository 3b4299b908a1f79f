import Verif.Text
import Mathlib.Tactic.Common
/-
CSV files as the `csv` crate (an external dependency) reads and writes them with the settings of
src/target/csv/mod.rs:16-20 and src/target/csv/compilation_target.rs:15-17, as documented: separator `,`,
quote `"`, quotes are doubled inside quotes, records end with `\r`, `\n` or `\r\n` when read and with `\n` when
written, empty lines are skipped, a byte order mark at the beginning of a file is skipped, records may have
different lengths.
-/
namespace Verif.Target

/-- The states of the reader. -/
inductive RS where | startRecord | startField | inField | quoted | quoteEnd
deriving DecidableEq, Repr

def isTerm (c : Char) : Bool := c == '\n' || c == '\r'

/-- The reader: its state, the current field, the fields of the current record, and the rest of the file. -/
def readGo : RS → Text → List Text → Text → List (List Text)
  | .startRecord, _, _, [] => []
  | _, f, r, [] => [r ++ [f]]
  | .startRecord, f, r, c :: cs =>
    if isTerm c then readGo .startRecord f r cs
    else if c = '"' then readGo .quoted [] [] cs
    else if c = ',' then readGo .startField [] [[]] cs
    else readGo .inField [c] [] cs
  | .startField, f, r, c :: cs =>
    if c = '"' then readGo .quoted f r cs
    else if c = ',' then readGo .startField [] (r ++ [f]) cs
    else if isTerm c then (r ++ [f]) :: readGo .startRecord [] [] cs
    else readGo .inField (f ++ [c]) r cs
  | .inField, f, r, c :: cs =>
    if c = ',' then readGo .startField [] (r ++ [f]) cs
    else if isTerm c then (r ++ [f]) :: readGo .startRecord [] [] cs
    else readGo .inField (f ++ [c]) r cs
  | .quoted, f, r, c :: cs =>
    if c = '"' then readGo .quoteEnd f r cs
    else readGo .quoted (f ++ [c]) r cs
  | .quoteEnd, f, r, c :: cs =>
    if c = '"' then readGo .quoted (f ++ [c]) r cs
    else if c = ',' then readGo .startField [] (r ++ [f]) cs
    else if isTerm c then (r ++ [f]) :: readGo .startRecord [] [] cs
    else readGo .inField (f ++ [c]) r cs

/-- The byte order mark. -/
def bom : Char := Char.ofNat 0xFEFF

/-- The records of a CSV file. -/
def csvRead (s : Text) : List (List Text) := readGo .startRecord [] [] (if s.head? = some bom then s.tail else s)

/-- Whether a field is quoted. -/
def needsQuotes (f : Text) : Bool := f.any fun c => c == ',' || c == '"' || c == '\r' || c == '\n'

/-- The text between the quotes. -/
def quoteText (f : Text) : Text := f.flatMap fun c => if c = '"' then ['"', '"'] else [c]

/-- A field. -/
def writeField (f : Text) : Text := if needsQuotes f then '"' :: quoteText f ++ ['"'] else f

/-- The fields of a record with separators. -/
def joinFields : List Text → Text
  | [] => []
  | [f] => writeField f
  | f :: g :: fs => writeField f ++ ',' :: joinFields (g :: fs)

/-- A record; one that would be an empty line is written as `""`. -/
def writeRecord (r : List Text) : Text := (if joinFields r = [] then ['"', '"'] else joinFields r) ++ ['\n']

/-- A CSV file. -/
def csvWrite (rows : List (List Text)) : Text := rows.flatMap writeRecord

/-! ### Reading what was written -/

theorem read_quoted (f r : List Char) (rec : List Text) (rest : Text) :
    readGo .quoted r rec (quoteText f ++ '"' :: rest) = readGo .quoteEnd (r ++ f) rec rest := by
  induction f generalizing r with
  | nil => simp [quoteText, readGo]
  | cons c f ih =>
    by_cases h : c = '"'
    · subst h
      have : quoteText ('"' :: f) = '"' :: '"' :: quoteText f := by simp [quoteText]
      rw [this, List.cons_append, List.cons_append, readGo, if_pos rfl, readGo, if_pos rfl, ih]
      simp
    · have : quoteText (c :: f) = c :: quoteText f := by simp [quoteText, h]
      rw [this, List.cons_append, readGo, if_neg h, ih]
      simp

theorem read_plain (f cur : Text) (rec : List Text) (rest : Text) (h : needsQuotes f = false) :
    readGo .inField cur rec (f ++ rest) = readGo .inField (cur ++ f) rec rest := by
  induction f generalizing cur with
  | nil => simp
  | cons c f ih =>
    simp only [needsQuotes, List.any_cons, Bool.or_eq_false_iff, beq_eq_false_iff_ne] at h
    obtain ⟨⟨⟨⟨h1, _⟩, h2⟩, h3⟩, h4⟩ := h
    rw [List.cons_append, readGo, if_neg h1, if_neg (by simp [isTerm, h2, h3]), ih _ h4]
    simp

/-- A field that is followed by a separator or the end of the record. -/
theorem read_field (f : Text) (rec : List Text) (c : Char) (rest : Text) (hc : c = ',' ∨ c = '\n') :
    readGo .startField [] rec (writeField f ++ c :: rest) =
      if c = ',' then readGo .startField [] (rec ++ [f]) rest else (rec ++ [f]) :: readGo .startRecord [] [] rest := by
  have hq : c ≠ '"' := by rcases hc with rfl | rfl <;> decide
  have hterm : c ≠ ',' → isTerm c = true := by rcases hc with rfl | rfl <;> decide
  rw [writeField]
  split
  · rw [List.cons_append, List.cons_append, List.append_assoc, readGo, if_pos rfl, List.cons_append, List.nil_append, read_quoted, List.nil_append,
      readGo, if_neg hq]
    split
    · rfl
    · rename_i h; rw [if_pos (hterm h)]
  · rename_i hn
    have hn' : needsQuotes f = false := by simpa using hn
    cases f with
    | nil =>
      rw [List.nil_append, readGo, if_neg hq]
      split
      · rfl
      · rename_i h; rw [if_pos (hterm h)]
    | cons d f =>
      have hn'' := hn'
      simp only [needsQuotes, List.any_cons, Bool.or_eq_false_iff, beq_eq_false_iff_ne] at hn'
      obtain ⟨⟨⟨⟨h1, h1'⟩, h2⟩, h3⟩, h4⟩ := hn'
      rw [List.cons_append, readGo, if_neg h1', if_neg h1, if_neg (by simp [isTerm, h2, h3]), List.nil_append,
        read_plain _ _ _ _ h4, List.singleton_append, readGo]
      split
      · rfl
      · rename_i h; rw [if_pos (hterm h)]

theorem read_fields (fs : List Text) (hne : fs ≠ []) (rec : List Text) (rest : Text) :
    readGo .startField [] rec (joinFields fs ++ '\n' :: rest) = (rec ++ fs) :: readGo .startRecord [] [] rest := by
  induction fs generalizing rec with
  | nil => exact absurd rfl hne
  | cons f fs ih =>
    cases fs with
    | nil => rw [joinFields, read_field _ _ _ _ (.inr rfl), if_neg (by decide)]
    | cons g fs =>
      rw [joinFields, List.append_assoc, List.cons_append, read_field _ _ _ _ (.inl rfl), if_pos rfl, ih (by simp)]
      simp

theorem writeField_head {f : Text} : f = [] ∧ writeField f = [] ∨ ∃ c t, writeField f = c :: t ∧ isTerm c = false ∧ (c = ',' → False) := by
  cases f with
  | nil => exact .inl ⟨rfl, rfl⟩
  | cons c f =>
    right
    rw [writeField]
    split
    · exact ⟨_, _, rfl, by decide, by decide⟩
    · rename_i hn
      simp only [needsQuotes, List.any_cons, Bool.not_eq_true, Bool.or_eq_false_iff, beq_eq_false_iff_ne] at hn
      exact ⟨_, _, rfl, by simp [isTerm, hn.1.1.2, hn.1.2], hn.1.1.1.1⟩

/-- A nonempty line begins a record. -/
theorem read_start (c : Char) (t : Text) (h : isTerm c = false) :
    readGo .startRecord [] [] (c :: t) = readGo .startField [] [] (c :: t) := by
  rw [readGo, readGo]
  simp [h]

theorem joinFields_start {fs : List Text} (h : joinFields fs ≠ []) : ∃ c t, joinFields fs = c :: t ∧ isTerm c = false := by
  cases fs with
  | nil => exact absurd rfl h
  | cons f fs =>
    cases fs with
    | nil =>
      rw [joinFields] at h ⊢
      rcases writeField_head (f := f) with ⟨_, h'⟩ | ⟨c, t, h', hc, _⟩
      · exact absurd h' h
      · exact ⟨c, t, h', hc⟩
    | cons g fs =>
      rw [joinFields]
      rcases writeField_head (f := f) with ⟨_, h'⟩ | ⟨c, t, h', hc, _⟩
      · rw [h']; exact ⟨',', _, rfl, by decide⟩
      · rw [h']; exact ⟨c, _, rfl, hc⟩

theorem joinFields_nil {fs : List Text} (h : joinFields fs = []) : fs = [] ∨ fs = [[]] := by
  cases fs with
  | nil => exact .inl rfl
  | cons f fs =>
    cases fs with
    | nil =>
      rw [joinFields] at h
      rcases writeField_head (f := f) with ⟨h', _⟩ | ⟨c, t, h', _⟩
      · subst h'; exact .inr rfl
      · rw [h'] at h; cases h
    | cons g fs =>
      rw [joinFields] at h
      simp at h

/-- A record. -/
theorem read_record (r : List Text) (rest : Text) :
    readGo .startRecord [] [] (writeRecord r ++ rest) = (if r = [] then [[]] else r) :: readGo .startRecord [] [] rest := by
  rw [writeRecord, List.append_assoc]
  split
  · rename_i h
    have : (if r = [] then [[]] else r) = [([] : Text)] := by
      rcases joinFields_nil h with rfl | rfl <;> rfl
    rw [this]
    simp [readGo, isTerm]
  · rename_i h
    have hr : r ≠ [] := by rintro rfl; exact h rfl
    obtain ⟨c, t, h', hc⟩ := joinFields_start h
    have hs : readGo .startRecord [] [] (joinFields r ++ (['\n'] ++ rest)) = readGo .startField [] [] (joinFields r ++ (['\n'] ++ rest)) := by
      rw [h']; exact read_start _ _ hc
    rw [hs, if_neg hr]
    exact read_fields r hr [] rest

/-- What was written is read back (an empty record is read as one empty field). -/
theorem read_write (rows : List (List Text)) (h : (csvWrite rows).head? ≠ some bom) :
    csvRead (csvWrite rows) = rows.map fun r => if r = [] then [[]] else r := by
  rw [csvRead, if_neg h]
  clear h
  induction rows with
  | nil => rfl
  | cons r rows ih =>
    have : csvWrite (r :: rows) = writeRecord r ++ csvWrite rows := rfl
    rw [this, read_record, ih]; rfl

end Verif.Target
