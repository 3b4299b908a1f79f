import Verif.Target.GoogleRun
import Verif.Target.FileProps
/-
Runs against Google Sheets, with faults of the network and of the services, with crashes and with other users (C93, C94, C95), and before
that finding the credentials and the spreadsheet (C96, C97).
-/
namespace Verif.Target
open Verif.Cell Verif.Sheet

/-! ### Specification: the services -/

/-- A tab of a spreadsheet. -/
structure Tab where
  id : Nat
  title : Text
  grid : GSheet

/-- A spreadsheet: its tabs, in the order in which they are shown. -/
abbrev Doc := List Tab

/-- The spreadsheets that exist, by id. -/
abbrev World := Text → Option Doc

/-- The world with spreadsheet `id` being `d`. -/
def World.set (w : World) (id : Text) (d : Doc) : World := fun i => if i = id then some d else w i

/-- The grid after the requests, one after the other. -/
def applyAll (rs : List Request) (g : GSheet) : GSheet := rs.foldl (fun g r => r.apply g) g

/-- A spreadsheet after a batch update with requests that name no tab, which stands for the tab with the id 0. -/
def Doc.update (rs : List Request) (d : Doc) : Doc := d.map fun t => if t.id = 0 then { t with grid := applyAll rs t.grid } else t

/-- The names in the data of a cell are ones that the service knows (see C66). -/
def GData.Known (d : GData) : Prop :=
  (∀ f, d.format = some f → isOne apiHAlign f.halign ∧ isOne apiWrap f.wrap) ∧ ∀ v, d.validation = some v → isOne apiCond v.type

/-- All data in the rows have names that the service knows. -/
def RowsKnown (rows : List (List GData)) : Prop := ∀ row ∈ rows, ∀ d ∈ row, d.Known

/-- `Serve w c w' r`: a call `c` when the world is `w` can lead to the world `w'` and the reply `r`.  A batch update is done as a whole or not
at all, and rejected if there is a name in it that the service does not know.  Any call can fail, and a reply can be lost after the service has done what was asked. -/
inductive Serve : World → Call → World → Reply → Prop where
  | token {w : World} : Serve w .token w .ok
  | failed {w : World} {c : Call} : Serve w c w .error
  | copied {w : World} {id new : Text} {d : Doc} : w id = some d → w new = none → Serve w (.copy id) (w.set new d) .ok
  | copiedLost {w : World} {id new : Text} {d : Doc} : w id = some d → w new = none → Serve w (.copy id) (w.set new d) .error
  | got {w : World} {id : Text} {t : Tab} {ts : List Tab} {rows : List (List GData)} :
    w id = some (t :: ts) → gridOf rows = t.grid → RowsKnown rows → Serve w (.get id) w (.found (some rows))
  | gotEmpty {w : World} {id : Text} {t : Tab} {ts : List Tab} : w id = some (t :: ts) → gridOf [] = t.grid → Serve w (.get id) w (.found none)
  | missing {w : World} {id : Text} : w id = none → Serve w (.get id) w .notFound
  | updated {w : World} {id : Text} {rs : List Request} {d : Doc} :
    w id = some d → (∃ t ∈ d, t.id = 0) → rs ≠ [] → (∀ r ∈ rs, RowsKnown r.rows) → Serve w (.batchUpdate id rs) (w.set id (d.update rs)) .ok
  | updatedLost {w : World} {id : Text} {rs : List Request} {d : Doc} :
    w id = some d → (∃ t ∈ d, t.id = 0) → rs ≠ [] → (∀ r ∈ rs, RowsKnown r.rows) → Serve w (.batchUpdate id rs) (w.set id (d.update rs)) .error

/-- `Run w p w' p'`: from the world `w`, the program `p` can come to the world `w'` with `p'` still to do, if nobody else changes anything.
The computer can be switched off at any of these. -/
inductive Run : World → Prog → World → Prog → Prop where
  | refl {w : World} {p : Prog} : Run w p w p
  | step {w w₁ w' : World} {c : Call} {k : Reply → Prog} {r : Reply} {p' : Prog} : Serve w c w₁ r → Run w₁ (k r) w' p' → Run w (.call c k) w' p'

/-- `Hist p h p'`: the program `p` can come to `p'`, where `h` has the world before each call, the call, and the world after it.  Between the calls
others can have changed anything. -/
inductive Hist : Prog → List (World × Call × World) → Prog → Prop where
  | refl {p : Prog} : Hist p [] p
  | step {w w' : World} {c : Call} {k : Reply → Prog} {r : Reply} {h : List (World × Call × World)} {p' : Prog} :
    Serve w c w' r → Hist (k r) h p' → Hist (.call c k) ((w, c, w') :: h) p'

/-- The first tab of spreadsheet `id` has the cells `g`. -/
def World.FirstTab (w : World) (id : Text) (g : GSheet) : Prop := ∃ t ts, w id = some (t :: ts) ∧ t.grid = g

/-- The first tab has the id 0, and no other one has. -/
def Doc.Usual (d : Doc) : Prop := ∃ t ts, d = t :: ts ∧ t.id = 0 ∧ ∀ u ∈ ts, u.id ≠ 0

/-! ### Lemmas -/

theorem alnum_small {c : Char} (h : c.isAlphanum = true) : c.toNat < 128 := by
  simp only [Char.isAlphanum, Char.isAlpha, Char.isUpper, Char.isLower, Char.isDigit, Bool.or_eq_true, Bool.and_eq_true, decide_eq_true_eq,
    UInt32.le_iff_toNat_le] at h
  show c.val.toNat < 128
  have e1 : 'Z'.val.toNat = 90 := rfl
  have e2 : 'z'.val.toNat = 122 := rfl
  have e3 : '9'.val.toNat = 57 := rfl
  omega

theorem World.set_self (w : World) (id : Text) (d : Doc) : w.set id d id = some d := if_pos rfl
theorem World.set_ne (w : World) {id o : Text} (d : Doc) (h : o ≠ id) : w.set id d o = w o := if_neg h

section
variable {ov : Bool} {x y : Nat} {s : Sheet} {rows : List (List GData)} {rs : List Request}

theorem requests_eq (h : requests ov (x, y) s rows = some rs) : rs = (chunks 1000 (rowData ov (readGoogle rows) 0 s.rows)).map fun r => (⟨x, y, r⟩ : Request) := by
  simp only [requests] at h
  split at h
  · rename_i he
    cases h
    rw [he]
    rfl
  · split at h
    · cases h; rfl
    · cases h

theorem write_applyAll (h : requests ov (x, y) s rows = some rs) : writeGoogle ov (x, y) s rows = some (applyAll rs (gridOf rows)) := by
  rw [writeGoogle, h]; rfl

theorem all_outside (h : requests ov (x, y) s rows = some rs) (g : GSheet) {i j : Nat} (ho : i < x ∨ j < y ∨ x + s.rows.length ≤ i) : applyAll rs g i j = g i j := by
  rw [requests_eq h]
  by_cases h' : i < x ∨ j < y
  · exact fold_outside _ _ _ _ _ _ h'
  · obtain ⟨m, rfl⟩ := Nat.le.dest (show x ≤ i by omega)
    obtain ⟨n, rfl⟩ := Nat.le.dest (show y ≤ j by omega)
    refine fold_at _ _ _ _ _ _ fun r hr => ?_
    obtain ⟨k, _, rfl⟩ := List.mem_map.mp hr
    rw [chunk_at]
    split
    · rw [List.getElem?_eq_none (by rw [rowData_length]; omega)]; rfl
    · rfl

theorem all_small (h : requests ov (x, y) s rows = some rs) (hs : s.rows.length ≤ 1000) (g : GSheet) (i j : Nat) :
    applyAll rs g (x + i) (y + j) = (sent ov s rows i j).getD (g (x + i) (y + j)) := by
  rw [requests_eq h, chunks, rowData_length]
  by_cases h0 : s.rows.length = 0
  · have : (s.rows.length + (1000 - 1)) / 1000 = 0 := by omega
    rw [this, sent_length (by omega)]
    rfl
  · have : (s.rows.length + (1000 - 1)) / 1000 = 1 := by omega
    rw [this]
    show (Request.mk x y _).apply _ _ _ = _
    rw [apply_at ⟨x, y, _⟩]
    simp only
    rw [chunk_at, Nat.zero_mul, Nat.zero_add]
    split
    · rw [rowData_sent]
    · rw [sent_length (by omega)]
      rfl

theorem requests_ne (h : requests ov (x, y) s rows = some rs) (hs : s.rows ≠ []) : rs ≠ [] := by
  rw [requests_eq h, Ne, List.map_eq_nil_iff, chunks, List.map_eq_nil_iff, List.range_eq_nil, rowData_length]
  have := List.length_pos_iff.mpr hs
  omega

theorem requests_nil (h : requests ov (x, y) s rows = some rs) (hs : s.rows = []) : rs = [] := by
  rw [requests_eq h, hs]
  simp [chunks, rowData]

theorem requests_some (hx : x < 2 ^ 31) (hy : y < 2 ^ 31) : ∃ rs, requests ov (x, y) s rows = some rs := by
  simp only [requests]
  split
  · exact ⟨_, rfl⟩
  · exact ⟨_, if_pos ⟨hx, hy⟩⟩

end

/-- Everything that is sent comes from the compiled sheet, or was read. -/
theorem rowData_mem {ov : Bool} {s : Sheet} {rows : List (List GData)} {row : List GData} {d : GData} (hr : row ∈ rowData ov (readGoogle rows) 0 s.rows) (hd : d ∈ row) :
    (∃ i j c, sheetCell s i j = some c ∧ d = gNew c) ∨ ∃ row ∈ rows, d ∈ row := by
  obtain ⟨i, hi⟩ := List.mem_iff_getElem?.mp hr
  obtain ⟨j, hj⟩ := List.mem_iff_getElem?.mp hd
  have h := rowData_sent ov s rows i j
  rw [hi, Option.bind_some, hj, sent] at h
  have mem : ∀ {x}, given rows i j = some x → ∃ row ∈ rows, x ∈ row := by
    intro x hx
    obtain ⟨row, h1, h2⟩ := Option.bind_eq_some_iff.mp hx
    exact ⟨row, List.mem_of_getElem? h1, List.mem_of_getElem? h2⟩
  split at h
  · rename_i c x hc hx
    cases ov with
    | true => cases h; exact .inl ⟨i, j, c, hc, rfl⟩
    | false => cases h; exact .inr (mem hx)
  · rename_i c hc _
    cases h; exact .inl ⟨i, j, c, hc, rfl⟩
  · rename_i x _ hx
    split at h
    · cases h; exact .inr (mem hx)
    · cases h
  · cases h

theorem all_known {ov : Bool} {o : Nat × Nat} {s : Sheet} {rows : List (List GData)} {rs : List Request} (h : requests ov o s rows = some rs) (hkr : RowsKnown rows)
    (hk : ∀ i j c, sheetCell s i j = some c → (gNew c).Known) : ∀ r ∈ rs, RowsKnown r.rows := by
  intro r hr row hrow d hd
  rw [requests_eq (x := o.1) (y := o.2) h] at hr
  obtain ⟨ch, hch, rfl⟩ := List.mem_map.mp hr
  obtain ⟨m, _, rfl⟩ := List.mem_map.mp hch
  rcases rowData_mem (List.mem_of_mem_drop (List.mem_of_mem_take hrow)) hd with ⟨i, j, c, hc, rfl⟩ | ⟨row, h1, h2⟩
  · exact hk i j c hc
  · exact hkr row h1 d h2

/-- With overwriting, everything in the compiled sheet is sent. -/
theorem all_sent {o : Nat × Nat} {s : Sheet} {rows : List (List GData)} {rs : List Request} (h : requests true o s rows = some rs)
    {i j : Nat} {c : Cell} (hc : sheetCell s i j = some c) : ∃ r ∈ rs, ∃ row ∈ r.rows, gNew c ∈ row := by
  have hse := rowData_sent true s rows i j
  have : sent true s rows i j = some (gNew c) := by rw [sent, hc]; cases given rows i j <;> rfl
  rw [this] at hse
  obtain ⟨row, h1, h2⟩ := Option.bind_eq_some_iff.mp hse
  have hlt : i < s.rows.length := by
    have := (List.getElem?_eq_some_iff.mp h1).1
    rwa [rowData_length] at this
  rw [requests_eq (x := o.1) (y := o.2) h]
  refine ⟨_, List.mem_map.mpr ⟨_, List.mem_map.mpr ⟨i / 1000, List.mem_range.mpr ?_, rfl⟩, rfl⟩, row, ?_, List.mem_of_getElem? h2⟩
  · rw [rowData_length]; omega
  · refine List.mem_iff_getElem?.mpr ⟨i % 1000, ?_⟩
    show ((List.drop _ _).take _)[i % 1000]? = _
    rw [chunk_at, if_pos (by omega)]
    have : i / 1000 * 1000 + i % 1000 = i := by omega
    rw [this, h1]

/-! ### The run without others -/

/-- A new spreadsheet is a copy of spreadsheet `id`, and nothing else is changed. -/
def Copied (id : Text) (w w' : World) : Prop := ∃ new d, w id = some d ∧ w new = none ∧ w' = w.set new d

/-- The world after the update of spreadsheet `id`, computed from the first tab. -/
def Updated (cfg : Config) (id : Text) (s : Sheet) (w w' : World) : Prop :=
  ∃ t ts rows rs, w id = some (t :: ts) ∧ gridOf rows = t.grid ∧ requests cfg.overwrite cfg.offset s rows = some rs ∧ rs ≠ [] ∧
    RowsKnown rows ∧ (∀ r ∈ rs, RowsKnown r.rows) ∧ (∃ u ∈ t :: ts, u.id = 0) ∧ w' = w.set id (Doc.update rs (t :: ts))

theorem run_exit {w w' : World} {e : Exit} {p : Prog} (h : Run w (.exit e) w' p) : w' = w ∧ p = .exit e := by
  cases h; exact ⟨rfl, rfl⟩

/-- What `writeSheet` does. -/
theorem run_write {cfg : Config} {id : Text} {s : Sheet} {w w' : World} {p : Prog} (h : Run w (writeSheet cfg.overwrite cfg.offset id s) w' p) :
    (w' = w ∧ p ≠ .exit .success) ∨ (Updated cfg id s w w' ∧ (p = .exit .success ∨ p = .exit .failure)) := by
  rw [writeSheet, hub] at h
  cases h with
  | refl => exact .inl ⟨rfl, nofun⟩
  | step hs h =>
    cases hs with
    | failed => obtain ⟨rfl, rfl⟩ := run_exit h; exact .inl ⟨rfl, nofun⟩
    | token =>
      rw [readCells] at h
      cases h with
      | refl => exact .inl ⟨rfl, nofun⟩
      | step hs h =>
        have main : ∀ rows : List (List GData), (∀ d, w id = some d → ∃ t ts, d = t :: ts ∧ gridOf rows = t.grid) → RowsKnown rows →
            Run w (match requests cfg.overwrite cfg.offset s rows with
              | none => .exit .panic
              | some rs => .call (.batchUpdate id rs) fun
                | .ok => .exit .success
                | _ => .exit .failure) w' p →
            (w' = w ∧ p ≠ .exit .success) ∨ (Updated cfg id s w w' ∧ (p = .exit .success ∨ p = .exit .failure)) := by
          intro rows hw hkr h
          split at h
          · obtain ⟨rfl, rfl⟩ := run_exit h; exact .inl ⟨rfl, nofun⟩
          · rename_i rs hr
            cases h with
            | refl => exact .inl ⟨rfl, nofun⟩
            | step hs h =>
              cases hs with
              | failed => obtain ⟨rfl, rfl⟩ := run_exit h; exact .inl ⟨rfl, nofun⟩
              | updated hd h0 hrs hk =>
                obtain ⟨rfl, rfl⟩ := run_exit h
                obtain ⟨t, ts, rfl, hg⟩ := hw _ hd
                exact .inr ⟨⟨t, ts, rows, rs, hd, hg, hr, hrs, hkr, hk, h0, rfl⟩, .inl rfl⟩
              | updatedLost hd h0 hrs hk =>
                obtain ⟨rfl, rfl⟩ := run_exit h
                obtain ⟨t, ts, rfl, hg⟩ := hw _ hd
                exact .inr ⟨⟨t, ts, rows, rs, hd, hg, hr, hrs, hkr, hk, h0, rfl⟩, .inr rfl⟩
        cases hs with
        | failed => obtain ⟨rfl, rfl⟩ := run_exit h; exact .inl ⟨rfl, nofun⟩
        | @got _ t ts rows hd hg hkr =>
          refine main rows (fun d hd' => ?_) hkr h
          rw [hd] at hd'; cases hd'; exact ⟨t, ts, rfl, hg⟩
        | @gotEmpty _ t ts hd hg =>
          refine main [] (fun d hd' => ?_) (fun _ h => nomatch h) h
          rw [hd] at hd'; cases hd'; exact ⟨t, ts, rfl, hg⟩
        | missing hd =>
          refine main [] (fun d hd' => ?_) (fun _ h => nomatch h) h
          rw [hd] at hd'; cases hd'

/-- What the run does. -/
theorem run_all {e : CredEnv} {cfg : Config} {id : Text} {compiled : Option Sheet} {w w' : World} {p : Prog} (h : Run w (googleRun e cfg id compiled) w' p) :
    (w' = w ∧ p ≠ .exit .success) ∨ (∃ s, cfg.backup = true ∧ compiled = some s ∧ Copied id w w' ∧ p ≠ .exit .success) ∨
    (∃ s w₁, (∃ f, credentials e = .ok f) ∧ compiled = some s ∧ ((cfg.backup = true ∧ Copied id w w₁) ∨ (cfg.backup = false ∧ w₁ = w)) ∧ Updated cfg id s w₁ w' ∧
      (p = .exit .success ∨ p = .exit .failure)) := by
  cases compiled with
  | none => obtain ⟨rfl, rfl⟩ := run_exit h; exact .inl ⟨rfl, nofun⟩
  | some s =>
    simp only [googleRun] at h
    split at h
    · obtain ⟨rfl, rfl⟩ := run_exit h; exact .inl ⟨rfl, nofun⟩
    · rename_i f hf
      split at h
      · rename_i hb
        rw [backupSheet, hub] at h
        cases h with
        | refl => exact .inl ⟨rfl, nofun⟩
        | step hs h =>
          cases hs with
          | failed => obtain ⟨rfl, rfl⟩ := run_exit h; exact .inl ⟨rfl, nofun⟩
          | token =>
            cases h with
            | refl => exact .inl ⟨rfl, nofun⟩
            | step hs h =>
              cases hs with
              | failed => obtain ⟨rfl, rfl⟩ := run_exit h; exact .inl ⟨rfl, nofun⟩
              | @copiedLost _ new d hd hn =>
                obtain ⟨rfl, rfl⟩ := run_exit h
                exact .inr (.inl ⟨s, hb, rfl, ⟨new, d, hd, hn, rfl⟩, nofun⟩)
              | @copied _ new d hd hn =>
                rcases run_write h with ⟨rfl, hp⟩ | ⟨hu, hp⟩
                · exact .inr (.inl ⟨s, hb, rfl, ⟨new, d, hd, hn, rfl⟩, hp⟩)
                · exact .inr (.inr ⟨s, _, ⟨f, hf⟩, rfl, .inl ⟨hb, new, d, hd, hn, rfl⟩, hu, hp⟩)
      · rename_i hb
        rcases run_write h with ⟨rfl, hp⟩ | ⟨hu, hp⟩
        · exact .inl ⟨rfl, hp⟩
        · exact .inr (.inr ⟨s, w, ⟨f, hf⟩, rfl, .inr ⟨by simpa using hb, rfl⟩, hu, hp⟩)

/-- The run in which nothing fails. -/
theorem run_succeeds {e : CredEnv} {cfg : Config} {id : Text} {s : Sheet} {w w₁ w' : World} {f : Path} (hf : credentials e = .ok f)
    (hc : (cfg.backup = true ∧ Copied id w w₁) ∨ (cfg.backup = false ∧ w₁ = w)) (hu : Updated cfg id s w₁ w') :
    Run w (googleRun e cfg id (some s)) w' (.exit .success) := by
  have hw : Run w₁ (writeSheet cfg.overwrite cfg.offset id s) w' (.exit .success) := by
    obtain ⟨t, ts, rows, rs, hd, hg, hr, hrs, hkr, hk, h0, rfl⟩ := hu
    refine .step .token (.step (.got hd hg hkr) ?_)
    simp only [hr]
    exact .step (.updated hd h0 hrs hk) .refl
  simp only [googleRun, hf]
  rcases hc with ⟨hb, new, d, hd, hn, rfl⟩ | ⟨hb, rfl⟩
  · rw [if_pos hb]
    exact .step .token (.step (.copied hd hn) hw)
  · rw [if_neg (by simp [hb])]
    exact hw

/-- The update of a spreadsheet whose only tab with the id 0 is the first one. -/
theorem updated_usual {cfg : Config} {id : Text} {s : Sheet} {w w' : World} {t : Tab} {ts : List Tab} (hd : w id = some (t :: ts)) (h0 : t.id = 0)
    (hts : ∀ u ∈ ts, u.id ≠ 0) (h : Updated cfg id s w w') :
    ∃ rows g, gridOf rows = t.grid ∧ writeGoogle cfg.overwrite cfg.offset s rows = some g ∧ w' id = some ({ t with grid := g } :: ts) := by
  obtain ⟨t', ts', rows, rs, hd', hg, hr, _, _, _, _, rfl⟩ := h
  rw [hd] at hd'
  cases hd'
  refine ⟨rows, _, hg, write_applyAll hr, ?_⟩
  rw [World.set_self, Doc.update, List.map_cons, if_pos h0, hg]
  have : ts.map (fun t => if t.id = 0 then { t with grid := applyAll rs t.grid } else t) = ts := by
    conv => rhs; rw [← List.map_id ts]
    exact List.map_congr_left fun u hu => if_neg (hts u hu)
  rw [this]

section
variable {e : CredEnv} {cfg : Config} {id : Text} {compiled : Option Sheet} {w w' : World} {p : Prog}

theorem copied_id (h : Copied id w w') : w' id = w id := by
  obtain ⟨new, d, hd, hn, rfl⟩ := h
  exact World.set_ne _ _ (by rintro rfl; rw [hd] at hn; cases hn)

theorem copied_other {o : Text} {d : Doc} (h : Copied id w w') (ho : w o = some d) : w' o = some d := by
  obtain ⟨new, _, _, hn, rfl⟩ := h
  rw [World.set_ne _ _ (by rintro rfl; rw [ho] at hn; cases hn), ho]

theorem updated_other {o : Text} {s : Sheet} (h : Updated cfg id s w w') (ho : o ≠ id) : w' o = w o := by
  obtain ⟨t, ts, rows, rs, _, _, _, _, _, _, _, rfl⟩ := h
  exact World.set_ne _ _ ho

/-! ### Theorems about the run without others -/

/-- C93: whatever fails and whenever the run is stopped, no other spreadsheet is changed. -/
theorem C93_others (h : Run w (googleRun e cfg id compiled) w' p) {o : Text} {d : Doc} (ho : o ≠ id) (hd : w o = some d) : w' o = some d := by
  rcases run_all h with ⟨rfl, _⟩ | ⟨_, _, _, hc, _⟩ | ⟨s, w₁, _, _, hc, hu, _⟩
  · exact hd
  · exact copied_other hc hd
  · rw [updated_other hu ho]
    rcases hc with ⟨_, hc⟩ | ⟨_, rfl⟩
    · exact copied_other hc hd
    · exact hd

/-- C93: whatever fails and whenever the run is stopped, the spreadsheet is as before, or as it is after a run that succeeds. -/
theorem C93_atomic (h : Run w (googleRun e cfg id compiled) w' p) :
    w' id = w id ∨ ∃ w'', w'' id = w' id ∧ Run w (googleRun e cfg id compiled) w'' (.exit .success) := by
  rcases run_all h with ⟨rfl, _⟩ | ⟨_, _, _, hc, _⟩ | ⟨s, w₁, ⟨f, hf⟩, rfl, hc, hu, _⟩
  · exact .inl rfl
  · exact .inl (copied_id hc)
  · exact .inr ⟨w', rfl, run_succeeds hf hc hu⟩

/-- C93: with `--backup`, as soon as anything is changed in the spreadsheet, and when the run succeeds, there is a new spreadsheet with what was in it. -/
theorem C93_backup (h : Run w (googleRun e cfg id compiled) w' p) (hb : cfg.backup = true) (hc : w' id ≠ w id ∨ p = .exit .success) :
    ∃ new, new ≠ id ∧ w new = none ∧ w id ≠ none ∧ w' new = w id := by
  rcases run_all h with ⟨rfl, hp⟩ | ⟨_, _, _, hcp, hp⟩ | ⟨s, w₁, _, rfl, hcp, hu, _⟩
  · rcases hc with hc | hc
    · exact absurd rfl hc
    · exact absurd hc hp
  · rcases hc with hc | hc
    · exact absurd (copied_id hcp) hc
    · exact absurd hc hp
  · rcases hcp with ⟨_, new, d, hd, hn, rfl⟩ | ⟨hb', _⟩
    · have hne : new ≠ id := by rintro rfl; rw [hd] at hn; cases hn
      exact ⟨new, hne, hn, by simp [hd], by rw [updated_other hu hne, World.set_self, hd]⟩
    · rw [hb] at hb'; cases hb'

/-- C93: without `--backup` no spreadsheet is made, and with it at most one. -/
theorem C93_new (h : Run w (googleRun e cfg id compiled) w' p) {o : Text} (ho : w o = none) (ho' : w' o ≠ none) :
    cfg.backup = true ∧ w' o = w id ∧ ∀ o', w o' = none → w' o' ≠ none → o' = o := by
  have copied : ∀ {w w₁ : World} {o : Text}, Copied id w w₁ → w o = none → w₁ o ≠ none → w₁ o = w id ∧ ∀ o', w o' = none → w₁ o' ≠ none → o' = o := by
    rintro w w₁ o ⟨new, d, hd, hn, rfl⟩ ho ho'
    have : ∀ o', w o' = none → w.set new d o' ≠ none → o' = new := by
      intro o' h1 h2
      by_contra hne
      rw [World.set_ne _ _ hne] at h2
      exact h2 h1
    have he := this o ho ho'
    subst he
    exact ⟨by rw [World.set_self, hd], this⟩
  rcases run_all h with ⟨rfl, hp⟩ | ⟨_, hb, _, hcp, hp⟩ | ⟨s, w₁, _, rfl, hcp, hu, _⟩
  · exact absurd ho ho'
  · exact ⟨hb, copied hcp ho ho'⟩
  · have hid : w₁ id ≠ none := by obtain ⟨_, _, _, _, hd, _⟩ := hu; simp [hd]
    rcases hcp with ⟨hb, hcp⟩ | ⟨hb, rfl⟩
    · have hid' : w id ≠ none := by rw [← copied_id hcp]; exact hid
      have hne : ∀ o', w o' = none → o' ≠ id := by rintro o' h1 rfl; exact hid' h1
      rw [updated_other hu (hne o ho)] at ho' ⊢
      refine ⟨hb, (copied hcp ho ho').1, fun o' h1 h2 => ?_⟩
      rw [updated_other hu (hne o' h1)] at h2
      exact (copied hcp ho ho').2 o' h1 h2
    · rw [updated_other hu (by rintro rfl; exact hid ho)] at ho'
      exact absurd ho ho'

/-- C93: a run succeeds only if it has written the compiled sheet: then the cells of the first tab are what C40, C41 and C44 are about, and the other
tabs are unchanged (if the first tab is the one with the id 0, see C95). -/
theorem C93_success (h : Run w (googleRun e cfg id compiled) w' (.exit .success)) :
    ∃ s t ts, compiled = some s ∧ w id = some (t :: ts) ∧ s.rows ≠ [] ∧
      (t.id = 0 → (∀ u ∈ ts, u.id ≠ 0) → ∃ rows g, gridOf rows = t.grid ∧ writeGoogle cfg.overwrite cfg.offset s rows = some g ∧
        w' id = some ({ t with grid := g } :: ts)) := by
  rcases run_all h with ⟨rfl, hp⟩ | ⟨_, _, _, hcp, hp⟩ | ⟨s, w₁, _, rfl, hcp, hu, _⟩
  · exact absurd rfl hp
  · exact absurd rfl hp
  · have he : w₁ id = w id := by
      rcases hcp with ⟨_, hcp⟩ | ⟨_, rfl⟩
      · exact copied_id hcp
      · rfl
    have hu' := hu
    obtain ⟨t, ts, rows, rs, hd, _, hr, hrs, _, _, _, _⟩ := hu'
    refine ⟨s, t, ts, rfl, he ▸ hd, fun h' => hrs (requests_nil (x := cfg.offset.1) (y := cfg.offset.2) hr h'), fun h0 hts => ?_⟩
    exact updated_usual hd h0 hts hu

/-- C93: if the spreadsheet does not exist, the run changes nothing and does not succeed. -/
theorem C93_missing (h : Run w (googleRun e cfg id compiled) w' p) (hm : w id = none) : w' = w ∧ p ≠ .exit .success := by
  rcases run_all h with ⟨rfl, hp⟩ | ⟨_, _, _, ⟨new, d, hd, _⟩, hp⟩ | ⟨s, w₁, _, rfl, hcp, hu, _⟩
  · exact ⟨rfl, hp⟩
  · rw [hm] at hd; cases hd
  · have he : w₁ id = w id := by
      rcases hcp with ⟨_, hcp⟩ | ⟨_, rfl⟩
      · exact copied_id hcp
      · rfl
    obtain ⟨t, ts, rows, rs, hd, _⟩ := hu
    rw [he, hm] at hd; cases hd

/-- C93: if compiling fails, or there are no credentials, nothing is called. -/
theorem C93_nothing (hc : compiled = none ∨ ∃ x, credentials e = .error x) : googleRun e cfg id compiled = .exit .failure := by
  rcases hc with rfl | ⟨x, hx⟩
  · rfl
  · cases compiled <;> simp only [googleRun, hx]

/-- C93: it is possible that a run fails although everything has been written, since the reply can be lost. -/
theorem C93_lost_reply (h : Run w (googleRun e cfg id compiled) w' (.exit .success)) : Run w (googleRun e cfg id compiled) w' (.exit .failure) := by
  rcases run_all h with ⟨rfl, hp⟩ | ⟨_, _, _, hcp, hp⟩ | ⟨s, w₁, ⟨f, hf⟩, rfl, hcp, hu, _⟩
  · exact absurd rfl hp
  · exact absurd rfl hp
  · have hw : Run w₁ (writeSheet cfg.overwrite cfg.offset id s) w' (.exit .failure) := by
      obtain ⟨t, ts, rows, rs, hd, hg, hr, hrs, hkr, hk, h0, rfl⟩ := hu
      refine .step .token (.step (.got hd hg hkr) ?_)
      simp only [hr]
      exact .step (.updatedLost hd h0 hrs hk) .refl
    simp only [googleRun, hf]
    rcases hcp with ⟨hb, new, d, hd, hn, rfl⟩ | ⟨hb, rfl⟩
    · rw [if_pos hb]
      exact .step .token (.step (.copied hd hn) hw)
    · rw [if_neg (by simp [hb])]
      exact hw

/-- C66 is false, for the run: if a cell of the compiled sheet is centred, which is the default, or has the option `overflow`, or a validation whose condition
the service does not know, then (without `--safe`) no run changes the spreadsheet or succeeds. -/
theorem C66_violated_run {s : Sheet} (h : Run w (googleRun e cfg id (some s)) w' p) (ho : cfg.overwrite = true) {i j : Nat} {c : Cell}
    (hc : sheetCell s i j = some c) (hk : c.opts.halign = .center ∨ c.opts.wrap = .overflow ∨ ∃ v, c.opts.validation = some v ∧ ¬ isOne apiCond (gCond v).type) :
    w' id = w id ∧ p ≠ .exit .success := by
  rcases run_all h with ⟨rfl, hp⟩ | ⟨_, _, _, hcp, hp⟩ | ⟨s', w₁, _, hs, hcp, hu, _⟩
  · exact ⟨rfl, hp⟩
  · exact ⟨copied_id hcp, hp⟩
  · cases hs
    obtain ⟨t', ts', rows, rs, hd', hg, hr, hrs, _, hkn, _, rfl⟩ := hu
    rw [ho] at hr
    obtain ⟨r, hr, row, hrow, hm⟩ := all_sent hr hc
    have hkc := hkn r hr row hrow _ hm
    rcases hk with hk | hk | ⟨v, hv, hk⟩
    · exact absurd hk ((C66_violated_alignment c).mp fun f hf => (hkc.1 f hf).1)
    · exact absurd hk ((C66_violated_wrap c).mp fun f hf => (hkc.1 f hf).2)
    · exact absurd (hkc.2 (gCond v) (by rw [gNew, hv]; rfl)) hk

/-! ### The tab -/

/-- C95: whatever the name of the tab that was asked for, the same calls are made. -/
theorem C95_violated_name (n : Text) : googleRun e { cfg with sheetName := n } id compiled = googleRun e cfg id compiled := rfl

/-- C95: if the first tab does not have the id 0, it is not changed; if another one has that, that one is written, with what is to be kept taken from the
first one. -/
theorem C95_violated_tab (h : Run w (googleRun e cfg id compiled) w' (.exit .success)) {t : Tab} {ts : List Tab} (hd : w id = some (t :: ts))
    (h0 : t.id ≠ 0) : ∃ rows rs s, compiled = some s ∧ gridOf rows = t.grid ∧ requests cfg.overwrite cfg.offset s rows = some rs ∧
      (∃ u ∈ ts, u.id = 0) ∧ w' id = some (t :: ts.map fun u => if u.id = 0 then { u with grid := applyAll rs u.grid } else u) := by
  rcases run_all h with ⟨rfl, hp⟩ | ⟨_, _, _, hcp, hp⟩ | ⟨s, w₁, _, rfl, hcp, hu, _⟩
  · exact absurd rfl hp
  · exact absurd rfl hp
  · have he : w₁ id = w id := by
      rcases hcp with ⟨_, hcp⟩ | ⟨_, rfl⟩
      · exact copied_id hcp
      · rfl
    obtain ⟨t', ts', rows, rs, hd', hg, hr, hrs, _, _, ⟨u, hu, hu0⟩, rfl⟩ := hu
    rw [he, hd] at hd'
    cases hd'
    refine ⟨rows, rs, s, rfl, hg, hr, ⟨u, ?_, hu0⟩, ?_⟩
    · rcases List.mem_cons.mp hu with rfl | hu
      · exact absurd hu0 h0
      · exact hu
    · rw [World.set_self, Doc.update, List.map_cons, if_neg h0]

/-- C95: if no tab has the id 0, as when the first one was deleted, no run succeeds, and none changes the spreadsheet. -/
theorem C95_violated_no_tab (h : Run w (googleRun e cfg id compiled) w' p) {d : Doc} (hd : w id = some d) (h0 : ∀ t ∈ d, t.id ≠ 0) :
    w' id = w id ∧ p ≠ .exit .success := by
  rcases run_all h with ⟨rfl, hp⟩ | ⟨_, _, _, hcp, hp⟩ | ⟨s, w₁, _, rfl, hcp, hu, _⟩
  · exact ⟨rfl, hp⟩
  · exact ⟨copied_id hcp, hp⟩
  · have he : w₁ id = w id := by
      rcases hcp with ⟨_, hcp⟩ | ⟨_, rfl⟩
      · exact copied_id hcp
      · rfl
    obtain ⟨t', ts', rows, rs, hd', hg, hr, hrs, _, _, ⟨u, hu, hu0⟩, rfl⟩ := hu
    rw [he, hd] at hd'
    cases hd'
    exact absurd hu0 (h0 u hu)

/-- C95, the part that holds: if the tab that was asked for is the first one, has the id 0 and no other has it, it is written and the other tabs are
kept; no run changes the number of tabs, their order, ids or titles, nor a tab with another id. -/
theorem C95_partial (h : Run w (googleRun e cfg id compiled) w' p) {d : Doc} (hd : w id = some d) :
    ∃ d' : Doc, w' id = some d' ∧ d'.length = d.length ∧ ∀ (k : Nat) (t : Tab), d[k]? = some t → ∃ t' : Tab, d'[k]? = some t' ∧ t'.id = t.id ∧ t'.title = t.title ∧
      (t.id ≠ 0 → t' = t) := by
  have same : w' id = w id → ∃ d' : Doc, w' id = some d' ∧ d'.length = d.length ∧ ∀ (k : Nat) (t : Tab), d[k]? = some t → ∃ t' : Tab, d'[k]? = some t' ∧ t'.id = t.id ∧
      t'.title = t.title ∧ (t.id ≠ 0 → t' = t) := fun he => ⟨d, he ▸ hd, rfl, fun k t ht => ⟨t, ht, rfl, rfl, fun _ => rfl⟩⟩
  rcases run_all h with ⟨rfl, hp⟩ | ⟨_, _, _, hcp, hp⟩ | ⟨s, w₁, _, rfl, hcp, hu, _⟩
  · exact same rfl
  · exact same (copied_id hcp)
  · have he : w₁ id = w id := by
      rcases hcp with ⟨_, hcp⟩ | ⟨_, rfl⟩
      · exact copied_id hcp
      · rfl
    obtain ⟨t', ts', rows, rs, hd', hg, hr, hrs, _, _, _, rfl⟩ := hu
    rw [he, hd] at hd'
    cases hd'
    refine ⟨_, World.set_self _ _ _, by rw [Doc.update, List.length_map], fun k t ht => ?_⟩
    refine ⟨if t.id = 0 then { t with grid := applyAll rs t.grid } else t, by rw [Doc.update, List.getElem?_map, ht]; rfl, ?_⟩
    split
    · rename_i h0
      exact ⟨rfl, rfl, fun h => absurd h0 h⟩
    · exact ⟨rfl, rfl, fun _ => rfl⟩

end

/-! ### Runs with others -/

theorem hist_exit {e : Exit} {h : List (World × Call × World)} {p : Prog} (hh : Hist (.exit e) h p) : h = [] := by
  cases hh; rfl

/-- The rows were read from the first tab by a call in the history (or there was no spreadsheet then). -/
def ReadBy (id : Text) (h : List (World × Call × World)) (rows : List (List GData)) : Prop :=
  ∃ w₀, (w₀, Call.get id, w₀) ∈ h ∧ ((∃ t ts, w₀ id = some (t :: ts) ∧ gridOf rows = t.grid) ∨ (w₀ id = none ∧ rows = []))

/-- What a call does to the world. -/
inductive Effect (cfg : Config) (id : Text) (s : Sheet) (h : List (World × Call × World)) (w : World) (c : Call) : World → Prop where
  | none : Effect cfg id s h w c w
  | copy {new : Text} {d : Doc} : cfg.backup = true → w id = some d → w new = none → Effect cfg id s h w c (w.set new d)
  | update {d : Doc} {rows : List (List GData)} {rs : List Request} : c = .batchUpdate id rs → w id = some d → ReadBy id h rows →
    requests cfg.overwrite cfg.offset s rows = some rs → Effect cfg id s h w c (w.set id (d.update rs))

theorem ReadBy.mono {id : Text} {h h' : List (World × Call × World)} {rows : List (List GData)} (hs : ∀ x ∈ h, x ∈ h') (hr : ReadBy id h rows) : ReadBy id h' rows := by
  obtain ⟨w₀, hm, hr⟩ := hr
  exact ⟨w₀, hs _ hm, hr⟩

theorem Effect.mono {cfg : Config} {id : Text} {s : Sheet} {h h' : List (World × Call × World)} {w w' : World} {c : Call} (hs : ∀ x ∈ h, x ∈ h')
    (he : Effect cfg id s h w c w') : Effect cfg id s h' w c w' := by
  cases he with
  | none => exact .none
  | copy hb hd hn => exact .copy hb hd hn
  | update hc hd hr hq => exact .update hc hd (hr.mono hs) hq

theorem hist_write {cfg : Config} {id : Text} {s : Sheet} {h : List (World × Call × World)} {p : Prog}
    (hh : Hist (writeSheet cfg.overwrite cfg.offset id s) h p) : ∀ w c w', (w, c, w') ∈ h → Effect cfg id s h w c w' := by
  rw [writeSheet, hub] at hh
  cases hh with
  | refl => intro _ _ _ hm; cases hm
  | @step w₁ w₁' _ _ r₁ h₁ _ hs hh =>
    have first : w₁' = w₁ := by cases hs <;> rfl
    have second : ∀ w c w', (w, c, w') ∈ h₁ → Effect cfg id s h₁ w c w' := by
      cases hs with
      | failed => rw [hist_exit hh]; intro _ _ _ hm; cases hm
      | token =>
        rw [readCells] at hh
        cases hh with
        | refl => intro _ _ _ hm; cases hm
        | @step w₂ w₂' _ _ r₂ h₂ _ hs hh =>
          have first : w₂' = w₂ := by cases hs <;> rfl
          subst first
          have main : ∀ rows : List (List GData), ((∃ t ts, w₂' id = some (t :: ts) ∧ gridOf rows = t.grid) ∨ (w₂' id = none ∧ rows = [])) →
              Hist (match requests cfg.overwrite cfg.offset s rows with
                | none => .exit .panic
                | some rs => .call (.batchUpdate id rs) fun
                  | .ok => .exit .success
                  | _ => .exit .failure) h₂ p →
              ∀ w c w', (w, c, w') ∈ h₂ → Effect cfg id s ((w₂', Call.get id, w₂') :: h₂) w c w' := by
            intro rows hw hh
            split at hh
            · rw [hist_exit hh]; intro _ _ _ hm; cases hm
            · rename_i rs hr
              cases hh with
              | refl => intro _ _ _ hm; cases hm
              | @step w₃ w₃' _ _ r₃ h₃ _ hs hh =>
                have h3 : h₃ = [] := by
                  cases r₃ <;> exact hist_exit hh
                subst h3
                intro w c w' hm
                rw [List.mem_singleton, Prod.mk.injEq, Prod.mk.injEq] at hm
                obtain ⟨rfl, rfl, rfl⟩ := hm
                cases hs with
                | failed => exact .none
                | updated hd _ _ _ => exact .update rfl hd ⟨w₂', by simp, hw⟩ hr
                | updatedLost hd _ _ _ => exact .update rfl hd ⟨w₂', by simp, hw⟩ hr
          have rest : ∀ w c w', (w, c, w') ∈ h₂ → Effect cfg id s ((w₂', Call.get id, w₂') :: h₂) w c w' := by
            cases hs with
            | failed => rw [hist_exit hh]; intro _ _ _ hm; cases hm
            | @got _ t ts rows hd hg _ => exact main rows (.inl ⟨t, ts, hd, hg⟩) hh
            | @gotEmpty _ t ts hd hg => exact main [] (.inl ⟨t, ts, hd, hg⟩) hh
            | missing hd => exact main [] (.inr ⟨hd, rfl⟩) hh
          intro w c w' hm
          rcases List.mem_cons.mp hm with hm | hm
          · rw [Prod.mk.injEq, Prod.mk.injEq] at hm
            obtain ⟨rfl, rfl, rfl⟩ := hm
            exact .none
          · exact rest w c w' hm
    intro w c w' hm
    rcases List.mem_cons.mp hm with hm | hm
    · rw [Prod.mk.injEq, Prod.mk.injEq] at hm
      obtain ⟨rfl, rfl, rfl⟩ := hm
      rw [first]
      exact .none
    · exact (second w c w' hm).mono fun x hx => List.mem_cons_of_mem _ hx

theorem hist_all {e : CredEnv} {cfg : Config} {id : Text} {s : Sheet} {h : List (World × Call × World)} {p : Prog}
    (hh : Hist (googleRun e cfg id (some s)) h p) : ∀ w c w', (w, c, w') ∈ h → Effect cfg id s h w c w' := by
  simp only [googleRun] at hh
  split at hh
  · rw [hist_exit hh]; intro _ _ _ hm; cases hm
  · split at hh
    · rename_i hb
      rw [backupSheet, hub] at hh
      cases hh with
      | refl => intro _ _ _ hm; cases hm
      | @step w₁ w₁' _ _ r₁ h₁ _ hs hh =>
        have first : w₁' = w₁ := by cases hs <;> rfl
        have second : ∀ w c w', (w, c, w') ∈ h₁ → Effect cfg id s h₁ w c w' := by
          cases hs with
          | failed => rw [hist_exit hh]; intro _ _ _ hm; cases hm
          | token =>
            cases hh with
            | refl => intro _ _ _ hm; cases hm
            | @step w₂ w₂' _ _ r₂ h₂ _ hs hh =>
              have he : Effect cfg id s ((w₂, Call.copy id, w₂') :: h₂) w₂ (.copy id) w₂' := by
                cases hs with
                | failed => exact .none
                | copied hd hn => exact .copy hb hd hn
                | copiedLost hd hn => exact .copy hb hd hn
              have hr : ∀ w c w', (w, c, w') ∈ h₂ → Effect cfg id s h₂ w c w' := by
                cases hs with
                | failed => rw [hist_exit hh]; intro _ _ _ hm; cases hm
                | copied hd hn => exact hist_write hh
                | copiedLost hd hn => rw [hist_exit hh]; intro _ _ _ hm; cases hm
              intro w c w' hm
              rcases List.mem_cons.mp hm with hm | hm
              · rw [Prod.mk.injEq, Prod.mk.injEq] at hm
                obtain ⟨rfl, rfl, rfl⟩ := hm
                exact he
              · exact (hr w c w' hm).mono fun x hx => List.mem_cons_of_mem _ hx
        intro w c w' hm
        rcases List.mem_cons.mp hm with hm | hm
        · rw [Prod.mk.injEq, Prod.mk.injEq] at hm
          obtain ⟨rfl, rfl, rfl⟩ := hm
          rw [first]
          exact .none
        · exact (second w c w' hm).mono fun x hx => List.mem_cons_of_mem _ hx
    · exact hist_write hh

section
variable {e : CredEnv} {cfg : Config} {id : Text} {s : Sheet} {h : List (World × Call × World)} {p : Prog} {w w' : World} {c : Call}

/-- C94: whatever others do meanwhile, no call of the run changes another spreadsheet, a tab with another id, a title, the number or order of tabs, or a
cell above, to the left of, or below the rows that are written. -/
theorem C94_kept (hh : Hist (googleRun e cfg id (some s)) h p) (hm : (w, c, w') ∈ h) :
    (∀ o d, o ≠ id → w o = some d → w' o = some d) ∧
    ∀ d, w id = some d → ∃ d' : Doc, w' id = some d' ∧ d'.length = d.length ∧ ∀ (k : Nat) (t : Tab), d[k]? = some t → ∃ t' : Tab, d'[k]? = some t' ∧ t'.id = t.id ∧
      t'.title = t.title ∧ (t.id ≠ 0 → t' = t) ∧
      ∀ i j, i < cfg.offset.1 ∨ j < cfg.offset.2 ∨ cfg.offset.1 + s.rows.length ≤ i → t'.grid i j = t.grid i j := by
  cases hist_all hh _ _ _ hm with
  | none => exact ⟨fun _ _ _ ho => ho, fun d hd => ⟨d, hd, rfl, fun k t ht => ⟨t, ht, rfl, rfl, fun _ => rfl, fun _ _ _ => rfl⟩⟩⟩
  | @copy new dn hb hd hn =>
    have : ∀ o d, w o = some d → w.set new dn o = some d := fun o d ho => by
      rw [World.set_ne _ _ (by rintro rfl; rw [hn] at ho; cases ho), ho]
    exact ⟨fun o d _ ho => this o d ho, fun d hd => ⟨d, this _ _ hd, rfl, fun k t ht => ⟨t, ht, rfl, rfl, fun _ => rfl, fun _ _ _ => rfl⟩⟩⟩
  | @update d rows rs hc hd hr hq =>
    refine ⟨fun o d ho hd => by rw [World.set_ne _ _ ho, hd], fun d' hd' => ?_⟩
    rw [hd] at hd'
    cases hd'
    refine ⟨_, World.set_self _ _ _, by rw [Doc.update, List.length_map], fun k t ht => ?_⟩
    refine ⟨if t.id = 0 then { t with grid := applyAll rs t.grid } else t, by rw [Doc.update, List.getElem?_map, ht]; rfl, ?_⟩
    split
    · rename_i h0
      exact ⟨rfl, rfl, fun h => absurd h0 h, fun i j ho => all_outside (x := cfg.offset.1) (y := cfg.offset.2) hq _ ho⟩
    · exact ⟨rfl, rfl, fun _ => rfl, fun _ _ _ => rfl⟩

/-- C94, what happens to the cells that the compiled sheet does not have: without offsets and with at most 1000 rows, they are kept, or they get what an
earlier call of the run has read. -/
theorem C94_partial (hh : Hist (googleRun e cfg id (some s)) h p) (hm : (w, c, w') ∈ h) (ho : cfg.offset = (0, 0)) (hs : s.rows.length ≤ 1000)
    {d : Doc} (hd : w id = some d) {k : Nat} {t : Tab} (ht : d[k]? = some t) {i j : Nat} (hc : sheetCell s i j = none) :
    ∃ (d' : Doc) (t' : Tab), w' id = some d' ∧ d'[k]? = some t' ∧
      (t'.grid i j = t.grid i j ∨ i < s.rows.length ∧ ∃ w₀ g, (w₀, Call.get id, w₀) ∈ h ∧ w₀.FirstTab id g ∧ t'.grid i j = g i j) := by
  cases hist_all hh _ _ _ hm with
  | none => exact ⟨d, t, hd, ht, .inl rfl⟩
  | copy hb hd' hn => exact ⟨d, t, by rw [World.set_ne _ _ (by rintro rfl; rw [hn] at hd; cases hd), hd], ht, .inl rfl⟩
  | @update d' rows rs hc' hd' hr hq =>
    rw [hd] at hd'
    cases hd'
    refine ⟨_, _, World.set_self _ _ _, by rw [Doc.update, List.getElem?_map, ht]; rfl, ?_⟩
    dsimp only
    split
    · rw [ho] at hq
      have := all_small hq hs t.grid i j
      rw [Nat.zero_add, Nat.zero_add] at this
      show applyAll rs t.grid i j = _ ∨ _ ∧ ∃ w₀ g, _ ∧ _ ∧ applyAll rs t.grid i j = _
      rw [this, sent, hc]
      cases hg : given rows i j with
      | none => exact .inl rfl
      | some x =>
        simp only
        split
        · rename_i hi
          obtain ⟨w₀, hm₀, hr⟩ := hr
          rcases hr with ⟨t₀, ts₀, hd₀, hg₀⟩ | ⟨_, rfl⟩
          · refine .inr ⟨hi, w₀, _, hm₀, ⟨t₀, ts₀, hd₀, rfl⟩, ?_⟩
            rw [← hg₀]
            show x = (given rows i j).getD _
            rw [hg]
            rfl
          · cases hg
        · exact .inl rfl
    · exact .inl rfl

/-- A successful history without backup: the cells are read when the world is `w₀` and written when it is `w`. -/
theorem hist_succeeds {w₀ : World} {f : Path} {rows : List (List GData)} {t₀ : Tab} {ts₀ : List Tab} {d : Doc} {rs : List Request} (hf : credentials e = .ok f)
    (hb : cfg.backup = false) (h₀ : w₀ id = some (t₀ :: ts₀)) (hg : gridOf rows = t₀.grid) (hd : w id = some d) (h0 : ∃ t ∈ d, t.id = 0)
    (hr : requests cfg.overwrite cfg.offset s rows = some rs) (hs : s.rows ≠ [])
    (hkr : RowsKnown rows) (hk : ∀ i j c, sheetCell s i j = some c → (gNew c).Known) :
    Hist (googleRun e cfg id (some s)) [(w₀, .token, w₀), (w₀, .get id, w₀), (w, .batchUpdate id rs, w.set id (d.update rs))] (.exit .success) := by
  simp only [googleRun, hf]
  rw [if_neg (by simp [hb])]
  refine .step .token (.step (.got h₀ hg hkr) ?_)
  simp only [hr]
  exact .step (.updated hd h0 (requests_ne (x := cfg.offset.1) (y := cfg.offset.2) hr hs) (all_known hr hkr hk)) .refl

/-- C94 is false: what others write, between the two calls of a run, to a cell that the compiled sheet does not have, but in one of its rows, is lost if
there was something in that cell before. -/
theorem C94_violated_lost_update {w₀ : World} {f : Path} {rows : List (List GData)} {t₀ t : Tab} {ts₀ ts : List Tab} (hf : credentials e = .ok f)
    (hb : cfg.backup = false) (hx : cfg.offset = (0, 0)) (hs : s.rows.length ≤ 1000) {i j : Nat} (hi : i < s.rows.length) (hc : sheetCell s i j = none)
    (h₀ : w₀ id = some (t₀ :: ts₀)) (hg : gridOf rows = t₀.grid) (hn : t₀.grid i j ≠ {}) (hd : w id = some (t :: ts)) (h0 : t.id = 0)
    (hkr : RowsKnown rows) (hk : ∀ i j c, sheetCell s i j = some c → (gNew c).Known) :
    ∃ rs w', Hist (googleRun e cfg id (some s)) [(w₀, .token, w₀), (w₀, .get id, w₀), (w, .batchUpdate id rs, w')] (.exit .success) ∧
      ∃ g, w'.FirstTab id g ∧ g i j = t₀.grid i j := by
  obtain ⟨rs, hr⟩ := requests_some (ov := cfg.overwrite) (x := 0) (y := 0) (s := s) (rows := rows) (by decide) (by decide)
  refine ⟨rs, _, hist_succeeds hf hb h₀ hg hd ⟨t, by simp, h0⟩ (by rw [hx]; exact hr) (by rintro h; simp [h] at hi) hkr hk, _,
    ⟨_, _, by rw [World.set_self, Doc.update, List.map_cons, if_pos h0], rfl⟩, ?_⟩
  have := all_small hr hs t.grid i j
  rw [Nat.zero_add, Nat.zero_add] at this
  show applyAll rs t.grid i j = _
  have hgiven : given rows i j = some (t₀.grid i j) := by
    rw [← hg] at hn ⊢
    cases hx : given rows i j with
    | none => exact absurd (show (given rows i j).getD {} = {} by rw [hx]; rfl) hn
    | some x => exact congrArg some (show x = (given rows i j).getD {} by rw [hx]; rfl)
  rw [this, sent, hc, hgiven]
  simp only
  rw [if_pos hi]
  rfl

/-- C94 is false: even with `--safe`, what others write to a cell between the two calls of a run is overwritten if the compiled sheet has that cell and it was
empty before. -/
theorem C94_violated_safe {w₀ : World} {f : Path} {rows : List (List GData)} {t₀ t : Tab} {ts₀ ts : List Tab} (hf : credentials e = .ok f)
    (hb : cfg.backup = false) (hx : cfg.offset = (0, 0)) (hs : s.rows.length ≤ 1000) {i j : Nat} {x : Cell} (hc : sheetCell s i j = some x)
    (h₀ : w₀ id = some (t₀ :: ts₀)) (hg : gridOf rows = t₀.grid) (hn : given rows i j = none) (hd : w id = some (t :: ts)) (h0 : t.id = 0)
    (hkr : RowsKnown rows) (hk : ∀ i j c, sheetCell s i j = some c → (gNew c).Known) :
    ∃ rs w', Hist (googleRun e cfg id (some s)) [(w₀, .token, w₀), (w₀, .get id, w₀), (w, .batchUpdate id rs, w')] (.exit .success) ∧
      ∃ g, w'.FirstTab id g ∧ g i j = gNew x := by
  obtain ⟨rs, hr⟩ := requests_some (ov := cfg.overwrite) (x := 0) (y := 0) (s := s) (rows := rows) (by decide) (by decide)
  refine ⟨rs, _, hist_succeeds hf hb h₀ hg hd ⟨t, by simp, h0⟩ (by rw [hx]; exact hr) (by rintro h; simp [sheetCell, h] at hc) hkr hk, _,
    ⟨_, _, by rw [World.set_self, Doc.update, List.map_cons, if_pos h0], rfl⟩, ?_⟩
  have := all_small hr hs t.grid i j
  rw [Nat.zero_add, Nat.zero_add] at this
  show applyAll rs t.grid i j = _
  rw [this, sent, hc, hn]
  rfl

end

/-! ### Writing again -/

/-- C58 (Google Sheets), the part that holds: without offsets and with at most 1000 rows, writing the same sheet again changes nothing (if the service returns
again the cells that it returned before). -/
theorem C58_google_partial {ov : Bool} {s : Sheet} {rows rows' : List (List GData)} {g g' : GSheet} (h : writeGoogle ov (0, 0) s rows = some g)
    (hs : s.rows.length ≤ 1000) (hr : gridOf rows' = g)
    (hn : ∀ i j, given rows i j ≠ none → given rows' i j ≠ none) (h' : writeGoogle ov (0, 0) s rows' = some g') : g' = g := by
  funext i j
  have e1 := at_small h hs i j
  have e2 := at_small h' hs i j
  rw [Nat.zero_add, Nat.zero_add] at e1 e2
  have hgr : gridOf rows' i j = g i j := by rw [hr]
  rw [hgr] at e2
  have hgiven : ∀ d, given rows' i j = some d → d = g i j := fun d hd => by
    rw [← hgr]; show d = (given rows' i j).getD _; rw [hd]; rfl
  rw [e2, sent]
  cases hc : sheetCell s i j with
  | none =>
    cases hd : given rows' i j with
    | none => rfl
    | some d =>
      simp only
      split
      · exact hgiven d hd
      · rfl
  | some c =>
    rw [sent, hc] at e1
    cases hd : given rows' i j with
    | none =>
      cases hd₀ : given rows i j with
      | none => rw [hd₀] at e1; exact e1.symm
      | some d₀ =>
        exact absurd hd (hn i j (by simp [hd₀]))
    | some d =>
      simp only
      cases ov with
      | false => exact hgiven d hd
      | true =>
        simp only [if_true] at e1 ⊢
        cases hd₀ : given rows i j <;> rw [hd₀] at e1 <;> exact e1.symm

/-- C58 (Google Sheets) is false with offsets: with each run, what the compiled sheet does not have in its rows moves on. -/
theorem C58_google_violated {ov : Bool} {x y : Nat} {s : Sheet} {rows rows' : List (List GData)} {g g' : GSheet} (h : writeGoogle ov (x, y) s rows = some g)
    (hs : s.rows.length ≤ 1000) (hr : gridOf rows' = g) (h' : writeGoogle ov (x, y) s rows' = some g') {i j : Nat} (hi : x + i < s.rows.length)
    (hc : sheetCell s i j = none) (hc' : sheetCell s (x + i) (y + j) = none) {d d' : GData} (hd : given rows i j = some d)
    (hd' : given rows (x + i) (y + j) = some d') (hne : d ≠ {}) : g (x + (x + i)) (y + (y + j)) = d' ∧ g' (x + (x + i)) (y + (y + j)) = d := by
  refine ⟨C41_google_violated h hs hi hd' hc', C41_google_violated h' hs hi ?_ hc'⟩
  have e : gridOf rows' (x + i) (y + j) = d := by rw [hr]; exact C41_google_violated h hs (by omega) hd hc
  have e' : (given rows' (x + i) (y + j)).getD {} = d := e
  cases hg : given rows' (x + i) (y + j) with
  | none => rw [hg] at e'; exact absurd e'.symm hne
  | some z => rw [hg] at e'; exact congrArg some e'

/-! ### Credentials -/

/-- Where `gcloud` puts the credentials of the user with that home directory. -/
def gcloudFile (home : Path) : Path := ⟨home.root, home.comps ++ [".config", "gcloud", "application_default_credentials.json"].map String.toList⟩

/-- C96, the part that holds: if there is a home directory, the credentials are those of the flag, else those of the variable, else those that `gcloud` has
made, and the file must exist. -/
theorem C96_partial {e : CredEnv} {home : Path} (hh : e.home = some home) (p : Path) :
    credentials e = .ok p ↔ e.has p = true ∧
      (e.flag = some p ∨ (e.flag = none ∧ e.var = some p) ∨ (e.flag = none ∧ e.var = none ∧ p = gcloudFile home)) := by
  have ha : adcPath e = .ok (gcloudFile home) := by
    rw [adcPath, hh]
    simp only
    rw [join_file _ (by decide), join_file _ (by decide), join_file _ (by decide)]
    simp [gcloudFile]
  simp only [credentials, ha, credFile]
  cases hf : e.flag with
  | some q =>
    simp only
    by_cases hq : e.has q = true
    · rw [if_pos hq]
      constructor
      · intro h; cases h; exact ⟨hq, .inl rfl⟩
      · rintro ⟨_, h | ⟨h, _⟩ | ⟨h, _⟩⟩ <;> cases h; rfl
    · rw [if_neg hq]
      constructor
      · nofun
      · rintro ⟨hp, h | ⟨h, _⟩ | ⟨h, _⟩⟩ <;> cases h; exact absurd hp hq
  | none =>
    cases hv : e.var with
    | some q =>
      simp only
      by_cases hq : e.has q = true
      · rw [if_pos hq]
        constructor
        · intro h; cases h; exact ⟨hq, .inr (.inl ⟨trivial, rfl⟩)⟩
        · rintro ⟨_, h | ⟨_, h⟩ | ⟨_, h, _⟩⟩ <;> cases h; rfl
      · rw [if_neg hq]
        constructor
        · nofun
        · rintro ⟨hp, h | ⟨_, h⟩ | ⟨_, h, _⟩⟩ <;> cases h; exact absurd hp hq
    | none =>
      simp only
      by_cases hq : e.has (gcloudFile home) = true
      · rw [if_pos hq]
        simp only
        rw [if_pos hq]
        constructor
        · intro h; cases h; exact ⟨hq, .inr (.inr ⟨trivial, trivial, rfl⟩)⟩
        · rintro ⟨_, h | ⟨_, h⟩ | ⟨_, _, h⟩⟩
          · cases h
          · cases h
          · rw [h]
      · rw [if_neg hq]
        constructor
        · nofun
        · rintro ⟨hp, h | ⟨_, h⟩ | ⟨_, _, h⟩⟩
          · cases h
          · cases h
          · rw [h] at hp; exact absurd hp hq

/-- C96 is false: without a home directory there are no credentials, even if they are given by the flag. -/
theorem C96_violated {e : CredEnv} (hh : e.home = none) (p : Path) : credentials e ≠ .ok p := by
  simp only [credentials, adcPath, hh]
  nofun

/-! ### Ids -/

/-- The characters of the ids that Google gives to spreadsheets: `base64url`. -/
def isIdChar (c : Char) : Prop := c.isAlphanum = true ∨ c = '-' ∨ c = '_'

/-- C97, exactly: of the ids that Google gives, those are accepted that have neither `-` nor `_`. -/
theorem C97_partial {alnum : Char → Bool} (ha : ∀ c : Char, c.toNat < 128 → alnum c = c.isAlphanum) {id : Text} (hi : ∀ c ∈ id, isIdChar c) (p : Option Path) :
    (outputOf alnum (some id) p = some (.googleSheets id) ↔ '-' ∉ id ∧ '_' ∉ id) ∧ (outputOf alnum (some id) p = none ↔ '-' ∈ id ∨ '_' ∈ id) := by
  have key : (∀ c ∈ id, alnum c = true) ↔ '-' ∉ id ∧ '_' ∉ id := by
    constructor
    · intro h
      refine ⟨fun hm => ?_, fun hm => ?_⟩
      · have := h _ hm; rw [ha _ (by decide)] at this; revert this; decide
      · have := h _ hm; rw [ha _ (by decide)] at this; revert this; decide
    · rintro ⟨h1, h2⟩ c hc
      rcases hi c hc with h | rfl | rfl
      · rw [ha c (alnum_small h), h]
      · exact absurd hc h1
      · exact absurd hc h2
  rw [C45_google]
  by_cases h : ∀ c ∈ id, alnum c = true
  · rw [if_pos h]
    exact ⟨iff_of_true rfl (key.mp h), iff_of_false nofun (by have := key.mp h; tauto)⟩
  · rw [if_neg h]
    exact ⟨iff_of_false nofun (mt key.mpr h), iff_of_true rfl (by have := mt key.mpr h; tauto)⟩

/-- C97 is false: the id in the manual is refused. -/
theorem C97_violated {alnum : Char → Bool} (ha : ∀ c : Char, c.toNat < 128 → alnum c = c.isAlphanum) (p : Option Path) :
    outputOf alnum (some "the-google-sheet-id".toList) p = none :=
  (C97_partial ha (by unfold isIdChar; decide) p).2.mpr (.inl (by decide))

/-! ### Cases that meet the hypotheses -/

/-- A user with credentials made by `gcloud`. -/
def exCred : CredEnv := ⟨some ⟨true, ["home".toList, "a".toList]⟩, none, none, fun p => decide (p = gcloudFile ⟨true, ["home".toList, "a".toList]⟩)⟩

/-- The tab with one row of two cells. -/
def exRows : List (List GData) := [[{ value := some (.int 1) }, { value := some (.int 2) }]]

/-- Two spreadsheets: `s1` with two tabs, and `s2`. -/
def exWorld : World := fun id =>
  if id = "s1".toList then some [⟨0, "a".toList, gridOf exRows⟩, ⟨7, "b".toList, fun _ _ => {}⟩] else if id = "s2".toList then some [] else none

/-- A sheet of one row of one cell. -/
def exOne : Sheet := ⟨[⟨{}, none, [⟨none, ⟨⟨0, 0⟩, [], []⟩, "x".toList, { halign := .left }⟩]⟩], true⟩

theorem exOne_known : ∀ i j c, sheetCell exOne i j = some c → (gNew c).Known := by
  intro i j c h
  have : c = ⟨none, ⟨⟨0, 0⟩, [], []⟩, "x".toList, { halign := .left }⟩ := by
    match i, j with
    | 0, 0 => cases h; rfl
    | 0, j + 1 => cases h
    | i + 1, j => cases h
  subst this
  refine ⟨?_, nofun⟩
  rintro f hf
  cases hf
  exact ⟨by decide, by decide⟩

theorem exRows_known : RowsKnown exRows := by
  intro row hr d hd
  rw [exRows, List.mem_singleton] at hr
  subst hr
  rcases List.mem_cons.mp hd with rfl | hd
  · exact ⟨(fun _ h => by cases h), (fun _ h => by cases h)⟩
  · rw [List.mem_singleton.mp hd]
    exact ⟨(fun _ h => by cases h), (fun _ h => by cases h)⟩

/-- With `--backup`. -/
def exBackup : Config := ⟨true, (0, 0), true, "a".toList, true, .error⟩

theorem exCred_ok : credentials exCred = .ok (gcloudFile ⟨true, ["home".toList, "a".toList]⟩) :=
  (C96_partial (e := exCred) rfl _).mpr ⟨by simp [exCred], .inr (.inr ⟨rfl, rfl, rfl⟩)⟩

/-- A run with backup that succeeds, and so one that fails after everything was written; the new spreadsheet has what was in the old one. -/
example : ∃ w', Run exWorld (googleRun exCred exBackup "s1".toList (some exOne)) w' (.exit .success) ∧
    Run exWorld (googleRun exCred exBackup "s1".toList (some exOne)) w' (.exit .failure) ∧ w' "s3".toList = exWorld "s1".toList ∧
    w' "s2".toList = some [] := by
  obtain ⟨rs, hr⟩ := requests_some (ov := true) (x := 0) (y := 0) (s := exOne) (rows := exRows) (by decide) (by decide)
  have h := run_succeeds (e := exCred) (cfg := exBackup) (id := "s1".toList) (s := exOne) (w := exWorld) (w' := _) exCred_ok
    (.inl ⟨rfl, "s3".toList, _, rfl, rfl, rfl⟩) ⟨⟨0, "a".toList, gridOf exRows⟩, [⟨7, "b".toList, fun _ _ => {}⟩], exRows, rs, rfl, rfl, hr,
      requests_ne hr (by simp [exOne]), exRows_known, all_known hr exRows_known exOne_known, ⟨_, List.mem_cons_self, rfl⟩, rfl⟩
  exact ⟨_, h, C93_lost_reply h, rfl, rfl⟩

/-- A run that loses what another user has written: the second cell is 2 when it is read, somebody changes it to 3, and it is 2 again. -/
example : ∃ rs w', Hist (googleRun exCred { exBackup with backup := false } "s1".toList (some exOne))
      [(exWorld, .token, exWorld), (exWorld, .get "s1".toList, exWorld),
        (exWorld.set "s1".toList [⟨0, "a".toList, gridOf [[{ value := some (.int 1) }, { value := some (.int 3) }]]⟩], .batchUpdate "s1".toList rs, w')]
      (.exit .success) ∧ ∃ g, w'.FirstTab "s1".toList g ∧ g 0 1 = { value := some (.int 2) } :=
  C94_violated_lost_update (s := exOne) (t₀ := ⟨0, "a".toList, gridOf exRows⟩) (rows := exRows) (i := 0) (j := 1) exCred_ok rfl rfl (by decide) (by decide) rfl rfl rfl (by decide) (World.set_self _ _ _) rfl
    exRows_known exOne_known

/-- With `--safe`, a cell that was empty when it was read. -/
example : ∃ rs w', Hist (googleRun exCred { exBackup with backup := false, overwrite := false } "s1".toList (some exOne))
      [(exWorld.set "s1".toList [⟨0, "a".toList, gridOf []⟩], .token, exWorld.set "s1".toList [⟨0, "a".toList, gridOf []⟩]),
        (exWorld.set "s1".toList [⟨0, "a".toList, gridOf []⟩], .get "s1".toList, exWorld.set "s1".toList [⟨0, "a".toList, gridOf []⟩]),
        (exWorld, .batchUpdate "s1".toList rs, w')]
      (.exit .success) ∧ ∃ g, w'.FirstTab "s1".toList g ∧ g 0 0 = gNew ⟨none, ⟨⟨0, 0⟩, [], []⟩, "x".toList, { halign := .left }⟩ :=
  C94_violated_safe (s := exOne) (rows := []) (i := 0) (j := 0) exCred_ok rfl rfl (by decide) rfl (World.set_self _ _ _) rfl rfl rfl rfl
    (fun _ h => nomatch h) exOne_known

/-- With offsets 1 and 1, and a sheet of two rows without cells: the upper left cell moves on with every run. -/
example : ∃ g rows' g', writeGoogle true (1, 1) ⟨[⟨{}, none, []⟩, ⟨{}, none, []⟩], true⟩ [[{ value := some (.int 1) }], [{}, { value := some (.int 2) }]] = some g ∧
    gridOf rows' = g ∧ writeGoogle true (1, 1) ⟨[⟨{}, none, []⟩, ⟨{}, none, []⟩], true⟩ rows' = some g' ∧ g 2 2 = { value := some (.int 2) } ∧
    g' 2 2 = { value := some (.int 1) } := by
  refine ⟨_, [[{ value := some (.int 1) }], [{}, { value := some (.int 1) }], [{}, {}, { value := some (.int 2) }]], _, rfl, ?_, rfl, rfl, rfl⟩
  funext i j
  match i, j with
  | 0, 0 | 0, _ + 1 | 1, 0 | 1, 1 | 1, _ + 2 | 2, 0 | 2, 1 | 2, 2 | 2, _ + 3 | _ + 3, 0 | _ + 3, _ + 1 => rfl

/-- A spreadsheet whose first tab has the id 7 and whose second has the id 0: the second one is written. -/
example : ∃ w', Run (exWorld.set "s1".toList [⟨7, "b".toList, gridOf []⟩, ⟨0, "a".toList, gridOf exRows⟩])
    (googleRun exCred { exBackup with backup := false } "s1".toList (some exOne)) w' (.exit .success) := by
  obtain ⟨rs, hr⟩ := requests_some (ov := true) (x := 0) (y := 0) (s := exOne) (rows := []) (by decide) (by decide)
  exact ⟨_, run_succeeds (e := exCred) (s := exOne) exCred_ok (.inr ⟨rfl, rfl⟩) ⟨⟨7, "b".toList, gridOf []⟩, [⟨0, "a".toList, gridOf exRows⟩], [], rs,
    World.set_self _ _ _, rfl, hr, requests_ne hr (by simp [exOne]), (fun _ h => nomatch h), all_known hr (fun _ h => nomatch h) exOne_known,
    ⟨_, List.mem_cons_of_mem _ List.mem_cons_self, rfl⟩, rfl⟩⟩

end Verif.Target
