import Verif.Time.Model

/-!
# The Gregorian calendar

Leap years, lengths of months, and the day number of a date by counting the days of all years and months before it.
-/

namespace Verif.Time

/-- Every fourth year is a leap year, except every hundredth, except every four hundredth. -/
def Leap (y : Nat) : Prop := 4 ∣ y ∧ (¬ 100 ∣ y ∨ 400 ∣ y)

instance (y : Nat) : Decidable (Leap y) := inferInstanceAs (Decidable (_ ∧ _))

/-- The days of the months of a year. -/
def months (y : Nat) : List Nat := [31, if Leap y then 29 else 28, 31, 30, 31, 30, 31, 31, 30, 31, 30, 31]

/-- The days of a year. -/
def yearLen (y : Nat) : Nat := if Leap y then 366 else 365

/-- The days of the years before a year, from year 0 on. -/
def daysBefore : Nat → Nat
  | 0 => 0
  | y + 1 => daysBefore y + yearLen y

/-- The number of a day, counted from the first day of year 0; months and days count from 1. -/
def dayNumber (y m d : Nat) : Nat := daysBefore y + ((months y).take (m - 1)).sum + (d - 1)

/-- The first of January 1970. -/
def epochDay : Nat := dayNumber 1970 1 1

/-- A date that exists. -/
def IsDate (y m d : Nat) : Prop := 1 ≤ m ∧ m ≤ 12 ∧ 1 ≤ d ∧ ∀ n, (months y)[m - 1]? = some n → d ≤ n

/-- A date and time that exist. -/
def Civil.Valid (c : Civil) : Prop := IsDate c.year c.month c.day ∧ c.hour < 24 ∧ c.minute < 60 ∧ c.second < 60

/-- Seconds since the first of January 1970. -/
def seconds (c : Civil) : Int := 86400 * ((dayNumber c.year c.month c.day : Int) - epochDay) + 3600 * c.hour + 60 * c.minute + c.second

/-- Chronological order. -/
def Before (a b : Civil) : Prop := a.year < b.year ∨ (a.year = b.year ∧ (a.month < b.month ∨ (a.month = b.month ∧ (a.day < b.day ∨ (a.day = b.day ∧
  (a.hour < b.hour ∨ (a.hour = b.hour ∧ (a.minute < b.minute ∨ (a.minute = b.minute ∧ a.second < b.second)))))))))

/-- `chrono` implements this calendar (its ISO weeks are not used). -/
structure Chrono.Right (K : Chrono) : Prop where
  known : ∀ y m d, K.known y m d = true ↔ IsDate y m d
  weekday : ∀ y m d, IsDate y m d → (K.weekday y m d : Int) = ((dayNumber y m d : Int) - epochDay + 3) % 7
  ordinal : ∀ y m d, IsDate y m d → K.ordinal y m d = ((months y).take (m - 1)).sum + d
  epoch : ∀ c, c.Valid → K.epoch c = seconds c

/-- The moments at which a unit of time starts. -/
def IsStart (u : TimeUnit) (t : Nat) : Prop := match u with
  | .second => True
  | .minute => 60 ∣ t
  | .hour => 3600 ∣ t
  | .day => 86400 ∣ t
  | .month => ∃ y m, 1 ≤ m ∧ m ≤ 12 ∧ (t : Int) = seconds ⟨y, m, 1, 0, 0, 0⟩
  | .year => ∃ y, (t : Int) = seconds ⟨y, 1, 1, 0, 0, 0⟩

/-- The last start of a unit that is not after `t`. -/
def IsFloor (u : TimeUnit) (t r : Nat) : Prop := IsStart u r ∧ r ≤ t ∧ ∀ s, IsStart u s → s ≤ t → s ≤ r

/-- The first start of a unit that is not before `t`. -/
def IsCeil (u : TimeUnit) (t r : Nat) : Prop := IsStart u r ∧ t ≤ r ∧ ∀ s, IsStart u s → t ≤ s → r ≤ s

/-- A number in decimal with a fixed number of digits. -/
def fixed : Nat → Nat → List Char
  | 0, _ => []
  | w + 1, n => fixed w (n / 10) ++ [Char.ofNat (48 + n % 10)]

/-- `2024-02-29`. -/
def dateText (y m d : Nat) : List Char := fixed 4 y ++ ['-'] ++ fixed 2 m ++ ['-'] ++ fixed 2 d
/-- `13:05:09`. -/
def timeText (h m s : Nat) : List Char := fixed 2 h ++ [':'] ++ fixed 2 m ++ [':'] ++ fixed 2 s
/-- `2024-02-29 13:05:09`. -/
def Civil.text (c : Civil) : List Char := dateText c.year c.month c.day ++ [' '] ++ timeText c.hour c.minute c.second

/-- The part of a date and time that a field of EXTRACT names: quarters from 1 to 4, days of the week from 0 (Sunday) to 6, days of the year from 1. `none` where
there is no claim. -/
def part (p : Part) (c : Civil) : Option Int := match p with
  | .year => some c.year
  | .month => some c.month
  | .day => some c.day
  | .hour => some c.hour
  | .minute => some c.minute
  | .second => some c.second
  | .quarter => some ((c.month + 2) / 3 : Nat)
  | .dow => some (((dayNumber c.year c.month c.day : Int) - epochDay + 4) % 7)
  | .doy => some ((dayNumber c.year c.month c.day : Int) - dayNumber c.year 1 1 + 1)
  | .epoch => some (seconds c)
  | .week | .timezone => none

-- Known days: the epoch, the first of March 2000, the leap day of 2024.
example : epochDay = 719528 := by decide +kernel
example : dayNumber 2000 3 1 - epochDay = 11017 ∧ dayNumber 2024 2 29 - epochDay = 19782 := by decide +kernel
example : (⟨2024, 2, 29, 13, 5, 9⟩ : Civil).text = "2024-02-29 13:05:09".toList := by decide +kernel
-- 1970-01-01 was a Thursday, 2000-01-01 a Saturday.
example : ((dayNumber 1970 1 1 : Int) - epochDay + 3) % 7 = 3 ∧ ((dayNumber 2000 1 1 : Int) - epochDay + 3) % 7 = 5 := by decide +kernel

end Verif.Time
