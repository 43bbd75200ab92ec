import Verif.Time.Spec
import Verif.Time.Functions

/-!
# What functions of dates and times are to do
-/

namespace Verif.Time

/-- `chrono` implements the calendar, and adds seconds to dates and times as long as it gets to a year from 0 to 9999. -/
structure Clock.Right (K : Clock) : Prop where
  chrono : K.toChrono.Right
  shift : ∀ c n r, c.Valid → r.Valid → r.year < 10000 → seconds r = seconds c + n → K.shift c n = .ok r

/-- `2024-02-29T13:05:09Z`. -/
def Civil.rfc (c : Civil) : List Char := dateText c.year c.month c.day ++ ['T'] ++ timeText c.hour c.minute c.second ++ ['Z']

/-- An argument that stands for a date and time: its text, or its number of seconds since 1970. -/
def Denotes (a : Arg) (c : Civil) : Prop := a = .text c.rfc ∨ ∃ t : Nat, a = .timestamp t ∧ seconds c = t

/-- Midnight. -/
def Midnight (c : Civil) : Prop := c.hour = 0 ∧ c.minute = 0 ∧ c.second = 0

/-- The moments at which a unit of time begins. Centuries and decades begin with a year divisible by 100 and by 10, weeks with Monday. -/
def Begins (f : Field) (c : Civil) : Prop := match f with
  | .century => 100 ∣ c.year ∧ c.month = 1 ∧ c.day = 1 ∧ Midnight c
  | .decade => 10 ∣ c.year ∧ c.month = 1 ∧ c.day = 1 ∧ Midnight c
  | .year => c.month = 1 ∧ c.day = 1 ∧ Midnight c
  | .quarter => (c.month = 1 ∨ c.month = 4 ∨ c.month = 7 ∨ c.month = 10) ∧ c.day = 1 ∧ Midnight c
  | .month => c.day = 1 ∧ Midnight c
  | .week => ((dayNumber c.year c.month c.day : Int) - epochDay + 3) % 7 = 0 ∧ Midnight c
  | .day => Midnight c
  | .hour => c.minute = 0 ∧ c.second = 0
  | .minute => c.second = 0
  | .second => True
  | _ => False

/-- The last beginning of a unit that is not after `c`. -/
def IsTrunc (f : Field) (c r : Civil) : Prop :=
  r.Valid ∧ Begins f r ∧ seconds r ≤ seconds c ∧ ∀ s : Civil, s.Valid → Begins f s → seconds s ≤ seconds c → seconds s ≤ seconds r

/-- The fields that name a unit of time. -/
def IsUnit (f : Field) : Prop := f ∈ [Field.century, .decade, .year, .quarter, .month, .week, .day, .hour, .minute, .second]

/-- The number a field names: days of the week from 0 (Sunday) to 6, ISO days of the week from 1 (Monday) to 7, days of the year from 1. `none` where there is no claim. -/
def fieldValue (f : Field) (c : Civil) : Option Int := match f with
  | .year => part .year c
  | .month => part .month c
  | .day => part .day c
  | .hour => part .hour c
  | .minute => part .minute c
  | .second => part .second c
  | .quarter => part .quarter c
  | .dow => part .dow c
  | .doy => part .doy c
  | .epoch => part .epoch c
  | .isodow => some (((dayNumber c.year c.month c.day : Int) - epochDay + 3) % 7 + 1)
  | _ => none

/-- An ISO 8601 duration as written: the digits of each number that is there, and whether there is a `T`. -/
structure Iso where
  years : Option (List Nat) := none
  months : Option (List Nat) := none
  days : Option (List Nat) := none
  time : Bool := false
  hours : Option (List Nat) := none
  minutes : Option (List Nat) := none
  seconds : Option (List Nat) := none

/-- The characters of digits. -/
def digitText (ds : List Nat) : List Char := ds.map fun d => Char.ofNat (48 + d)

/-- The number that digits write. -/
def digitValue (ds : List Nat) : Nat := ds.foldl (fun n d => 10 * n + d) 0

/-- A number with its letter, or nothing. -/
def item (x : Char) : Option (List Nat) → List Char
  | none => []
  | some ds => digitText ds ++ [x]

/-- The number written, 0 if there is none. -/
def itemValue : Option (List Nat) → Nat
  | none => 0
  | some ds => digitValue ds

/-- `P1Y2M3DT4H5M6S`. -/
def Iso.text (x : Iso) : List Char :=
  ['P'] ++ item 'Y' x.years ++ item 'M' x.months ++ item 'D' x.days ++
    (if x.time then ['T'] ++ item 'H' x.hours ++ item 'M' x.minutes ++ item 'S' x.seconds else [])

/-- The numbers have at least one digit, and there are no hours, minutes and seconds without a `T`. -/
def Iso.Valid (x : Iso) : Prop :=
  (∀ ds, some ds ∈ [x.years, x.months, x.days, x.hours, x.minutes, x.seconds] → ds ≠ [] ∧ ∀ d ∈ ds, d < 10) ∧
    (x.time = false → x.hours = none ∧ x.minutes = none ∧ x.seconds = none)

/-- The length in seconds of the days, hours, minutes and seconds. -/
def Iso.exact (x : Iso) : Nat := 86400 * itemValue x.days + 3600 * itemValue x.hours + 60 * itemValue x.minutes + itemValue x.seconds

/-- The length in seconds when a year counts as 365 days and a month as 30. -/
def Iso.rough (x : Iso) : Nat := 86400 * (365 * itemValue x.years + 30 * itemValue x.months) + x.exact

end Verif.Time
