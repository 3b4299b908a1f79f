import Verif.Target.GoogleProps
import Verif.Target.Model
/-
Model of a run against Google Sheets: src/main.rs, src/target/google_sheets/{mod,compilation_target,credentials}.rs.

The program is a tree of the calls it makes to the services of Google and of what it does with the replies; the services, with
their faults and with the edits of other users, are in GoogleRunProps.lean.
-/
namespace Verif.Target
open Verif.Cell Verif.Sheet

/-! ### Credentials: src/target/google_sheets/credentials.rs -/

/-- What src/target/google_sheets/credentials.rs takes from outside: the home directory (`home::home_dir`), the flag
`--google-account-credentials`, the variable `GOOGLE_APPLICATION_CREDENTIALS`, and which files exist. -/
structure CredEnv where
  home : Option Path
  flag : Option Path
  var : Option Path
  has : Path → Bool

/-- Why there are no credentials. -/
inductive CredError where | noHome | notFound | doesNotExist
deriving DecidableEq, Repr

/-- src/target/google_sheets/credentials.rs:13-35 `adc_path`, on Unix. -/
def adcPath (e : CredEnv) : Except CredError Path :=
  match e.home with
  | none => .error .noHome
  | some h => .ok (((h.join ⟨false, [".config".toList]⟩).join ⟨false, ["gcloud".toList]⟩).join ⟨false, ["application_default_credentials.json".toList]⟩)

/-- src/target/google_sheets/credentials.rs:44-60: which file. -/
def credFile (e : CredEnv) (adc : Path) : Except CredError Path :=
  match e.flag with
  | some p => .ok p
  | none =>
    match e.var with
    | some p => .ok p
    | none => if e.has adc then .ok adc else .error .notFound

/-- src/target/google_sheets/credentials.rs:38-72 `Credentials::try_from`. -/
def credentials (e : CredEnv) : Except CredError Path :=
  match adcPath e with
  | .error x => .error x
  | .ok adc =>
    match credFile e adc with
    | .error x => .error x
    | .ok p => if e.has p then .ok p else .error .doesNotExist

/-! ### The calls -/

/-- A call to a service. -/
inductive Call where
  /-- getting an access token -/
  | token
  /-- `files.copy` of Google Drive -/
  | copy (id : Text)
  /-- `spreadsheets.get` with the data of the grid -/
  | get (id : Text)
  /-- `spreadsheets.batchUpdate` with `updateCells` requests; none of them names a tab -/
  | batchUpdate (id : Text) (rs : List Request)

/-- A reply.  `found none` is a spreadsheet without data (src/target/google_sheets/mod.rs:96-100). -/
inductive Reply where
  | ok
  | found (rows : Option (List (List GData)))
  /-- an error with code 404 -/
  | notFound
  | error

/-- A program that makes calls. -/
inductive Prog where
  | exit (e : Exit)
  | call (c : Call) (k : Reply → Prog)

/-- src/target/google_sheets/credentials.rs:85-120 `auth`, as it is used in src/target/google_sheets/mod.rs:119-150 `drive_hub` and `sheets_hub`: reading the credentials
file and building the authenticator.  (Tokens are renewed when calls are made; that is part of the calls.) -/
def hub (k : Prog) : Prog := .call .token fun
  | .ok => k
  | _ => .exit .failure

/-- src/target/google_sheets/mod.rs:170-184 `backup_sheet` (with src/target/google_sheets/compilation_target.rs:7-11), then `k`. -/
def backupSheet (id : Text) (k : Prog) : Prog := hub <| .call (.copy id) fun
  | .ok => k
  | _ => .exit .failure

/-- src/target/google_sheets/mod.rs:59-117 `read_existing_cells`, then `k` with the rows. -/
def readCells (id : Text) (k : List (List GData) → Prog) : Prog := .call (.get id) fun
  | .found (some rows) => k rows
  | .found none => k []
  | .notFound => k []
  | _ => .exit .failure

/-- src/target/google_sheets/mod.rs:152-168 `write_sheet` (with src/target/google_sheets/compilation_target.rs:13-17). -/
def writeSheet (overwrite : Bool) (offset : Nat × Nat) (id : Text) (s : Sheet) : Prog :=
  hub <| readCells id fun rows =>
    match requests overwrite offset s rows with
    | none => .exit .panic
    | some rs => .call (.batchUpdate id rs) fun
      | .ok => .exit .success
      | _ => .exit .failure

/-- src/main.rs:7-18 `compile_from_cli` for Google Sheets, after the compilation with the result `compiled`. -/
def googleRun (e : CredEnv) (cfg : Config) (id : Text) (compiled : Option Sheet) : Prog :=
  match compiled with
  | none => .exit .failure
  | some s =>
    match credentials e with
    | .error _ => .exit .failure
    | .ok _ =>
      if cfg.backup then backupSheet id (writeSheet cfg.overwrite cfg.offset id s)
      else writeSheet cfg.overwrite cfg.offset id s

end Verif.Target
