import Verif.Text
/-
Model of src/date_time: how a date or time is read, written and counted.

The crate `chrono` (version 0.4.38 in Cargo.lock) is modelled by what its documentation says of `parse_from_str`, for the
specifiers that src/date_time/try_from.rs uses, of `Display`, of `from_ymd_opt` and of `signed_duration_since`.
-/
namespace Verif.Date

/-- One item of a format of chrono: `%Y`, `%y`, `%m`, `%d`, `%H`, `%M`, `%S`, `%Z`, white space or another character. -/
inductive Item where
  | year | yearMod100 | month | day | hour | minute | second | zone | space
  | lit (c : Char)
deriving DecidableEq, Repr

/-- `chrono::format::Parsed`, with the fields that the formats set. -/
structure Fields where
  year : Option Int := none
  yearMod100 : Option Nat := none
  month : Option Nat := none
  day : Option Nat := none
  hour : Option Nat := none
  minute : Option Nat := none
  second : Option Nat := none
deriving DecidableEq, Repr

/-- `chrono::format::scan::number`: at least one and at most `width` ASCII digits. -/
def number (width : Nat) (s : Text) : Option (Nat × Text) :=
  let ds := (s.take width).takeWhile Char.isDigit
  if ds = [] then none else some (Nat.ofDigitChars 10 ds 0, s.drop ds.length)

/-- A numeric specifier: white space is skipped, and the value has to be in the range. -/
def numeric (width lo hi : Nat) (s : Text) : Option (Nat × Text) :=
  match number width (s.dropWhile isWs) with
  | some (n, r) => if lo ≤ n ∧ n ≤ hi then some (n, r) else none
  | none => none

/-- `%Y`: four digits at most, or a sign and any number of digits.  The year has to be an `i32`. -/
def signedYear (s : Text) : Option (Int × Text) :=
  match s.dropWhile isWs with
  | '-' :: r => match number r.length r with
    | some (n, r') => if n ≤ 2 ^ 31 then some (-(n : Int), r') else none
    | none => none
  | '+' :: r => match number r.length r with
    | some (n, r') => if n < 2 ^ 31 then some ((n : Int), r') else none
    | none => none
  | r => match number 4 r with
    | some (n, r') => some ((n : Int), r')
    | none => none

/-- `chrono::format::parse`, one item. -/
def item (i : Item) (f : Fields) (s : Text) : Option (Fields × Text) :=
  match i with
  | .year => (signedYear s).map fun (n, r) => ({ f with year := some n }, r)
  | .yearMod100 => (numeric 2 0 99 s).map fun (n, r) => ({ f with yearMod100 := some n }, r)
  | .month => (numeric 2 1 12 s).map fun (n, r) => ({ f with month := some n }, r)
  | .day => (numeric 2 1 31 s).map fun (n, r) => ({ f with day := some n }, r)
  | .hour => (numeric 2 0 23 s).map fun (n, r) => ({ f with hour := some n }, r)
  | .minute => (numeric 2 0 59 s).map fun (n, r) => ({ f with minute := some n }, r)
  | .second => (numeric 2 0 60 s).map fun (n, r) => ({ f with second := some n }, r)
  | .zone => some (f, s.dropWhile fun c => !isWs c)
  | .space => some (f, s.dropWhile isWs)
  | .lit c => match s with
    | c' :: r => if c' = c then some (f, r) else none
    | [] => none

/-- `chrono::format::parse`: all items, and nothing is left. -/
def items : List Item → Fields → Text → Option Fields
  | [], f, s => if s = [] then some f else none
  | i :: is, f, s => match item i f s with
    | some (f', r) => items is f' r
    | none => none

/-- A day of the proleptic Gregorian calendar: `chrono::NaiveDate`. -/
structure Day where
  year : Int
  month : Nat
  day : Nat
deriving DecidableEq, Repr

/-- The leap years. -/
def leap (y : Int) : Bool := y % 4 = 0 && (y % 100 ≠ 0 || y % 400 = 0)

/-- The number of days of a month. -/
def monthLength (y : Int) (m : Nat) : Nat :=
  if m = 2 then (if leap y then 29 else 28) else if m = 4 ∨ m = 6 ∨ m = 9 ∨ m = 11 then 30 else 31

/-- `NaiveDate::from_ymd_opt`; the years are limited in chrono. -/
def fromYmd (y : Int) (m d : Nat) : Option Day :=
  if -262143 ≤ y ∧ y ≤ 262142 ∧ 1 ≤ m ∧ m ≤ 12 ∧ 1 ≤ d ∧ d ≤ monthLength y m then some ⟨y, m, d⟩ else none

/-- `chrono::format::Parsed::to_naive_date`: a year without its century is between 1970 and 2069. -/
def toDay (f : Fields) : Option Day :=
  match f.year, f.yearMod100, f.month, f.day with
  | some y, _, some m, some d => fromYmd y m d
  | none, some r, some m, some d => fromYmd (if r < 70 then 2000 + r else 1900 + r) m d
  | _, _, _, _ => none

/-- `chrono::format::Parsed::to_naive_time`: hour, minute and second. -/
def toTime (f : Fields) : Option (Nat × Nat × Nat) :=
  match f.hour, f.minute with
  | some h, some m => some (h, m, f.second.getD 0)
  | _, _ => none

/-- src/date_time/mod.rs:8-13 `DateTime`. -/
inductive DateTime where
  | date (d : Day)
  | dateAndTime (d : Day) (t : Nat × Nat × Nat)
  | time (t : Nat × Nat × Nat)
deriving DecidableEq, Repr

/-- `%Y-%m-%d` -/
def fmtIso : List Item := [.year, .lit '-', .month, .lit '-', .day]
/-- `%m/%d/%Y` -/
def fmtUs : List Item := [.month, .lit '/', .day, .lit '/', .year]
/-- `%y-%m-%d` -/
def fmtIsoShort : List Item := [.yearMod100, .lit '-', .month, .lit '-', .day]
/-- `%m/%d/%y` -/
def fmtUsShort : List Item := [.month, .lit '/', .day, .lit '/', .yearMod100]
/-- `%H:%M` -/
def fmtMinutes : List Item := [.hour, .lit ':', .minute]
/-- `%H:%M:%S` -/
def fmtSeconds : List Item := [.hour, .lit ':', .minute, .lit ':', .second]

/-- src/date_time/try_from.rs:9-14 `DATE_TIME`. -/
def dateTimeFormats : List (List Item) :=
  [fmtIso ++ .space :: fmtSeconds, fmtUs ++ .space :: fmtSeconds, fmtIso ++ .space :: fmtMinutes, fmtUs ++ .space :: fmtMinutes]
/-- src/date_time/try_from.rs:16 `DATE`. -/
def dateFormats : List (List Item) := [fmtIsoShort, fmtUsShort, fmtIso, fmtUs]
/-- src/date_time/try_from.rs:18 `TIME`. -/
def timeFormats : List (List Item) := [fmtSeconds ++ [.lit '.', .zone], fmtSeconds, fmtMinutes]

/-- `parse_from_str` of `NaiveDateTime`, `NaiveDate` and `NaiveTime`. -/
def parseDateTime (t : Text) (fmt : List Item) : Option DateTime :=
  (items fmt {} t).bind fun f => (toDay f).bind fun d => (toTime f).map fun x => .dateAndTime d x
def parseDate (t : Text) (fmt : List Item) : Option DateTime := (items fmt {} t).bind fun f => (toDay f).map .date
def parseTime (t : Text) (fmt : List Item) : Option DateTime := (items fmt {} t).bind fun f => (toTime f).map .time

/-- src/date_time/try_from.rs:31-57 `token_into`: the first format that fits; `none` is the error. -/
def tokenInto (t : Text) : Option DateTime :=
  (dateTimeFormats.findSome? (parseDateTime t)).or
    ((dateFormats.findSome? (parseDate t)).or (timeFormats.findSome? (parseTime t)))

/-- A number with zeros on the left: `{:0width}`. -/
def padded (width n : Nat) : Text := List.replicate (width - (Nat.toDigits 10 n).length) '0' ++ Nat.toDigits 10 n

/-- `Display` of `NaiveDate`: `yyyy-mm-dd`; other years than 0 to 9999 with a sign (`{:+05}`). -/
def dayText (d : Day) : Text :=
  (if 0 ≤ d.year ∧ d.year ≤ 9999 then padded 4 d.year.toNat
    else (if d.year < 0 then '-' else '+') :: padded 4 d.year.natAbs) ++ '-' :: (padded 2 d.month ++ '-' :: padded 2 d.day)

/-- `Display` of `NaiveTime`: `hh:mm:ss`. -/
def timeText (t : Nat × Nat × Nat) : Text := padded 2 t.1 ++ ':' :: (padded 2 t.2.1 ++ ':' :: padded 2 t.2.2)

/-- src/date_time/display.rs:4-12 `Display` of `DateTime`. -/
def DateTime.text : DateTime → Text
  | .dateAndTime d t => dayText d ++ ' ' :: timeText t
  | .time t => timeText t
  | .date d => dayText d

/-- The days of the months of the year before the month. -/
def daysBefore (y : Int) : Nat → Nat
  | 0 => 0
  | 1 => 0
  | m + 1 => daysBefore y m + monthLength y m

/-- The number of a day: `NaiveDate::num_days_from_ce`, 1 for the first day of year 1. -/
def dayNumber (d : Day) : Int :=
  365 * (d.year - 1) + (d.year - 1) / 4 - (d.year - 1) / 100 + (d.year - 1) / 400 + daysBefore d.year d.month + d.day

/-- src/date_time/mod.rs:15-17 `date_epoch`. -/
def epoch : Day := ⟨1900, 1, 1⟩

/-- src/date_time/mod.rs:22-29 `distance_from_epoch`; `none` is the panic of `unimplemented!`. -/
def DateTime.distance : DateTime → Option Int
  | .date d => some (dayNumber d - dayNumber epoch)
  | _ => none

end Verif.Date
