import Verif.Time.Model

/-!
# Functions of dates and times

`DateTimeExpression` (`src/sql/execution/expressions/datetime_expression.rs`): `date_trunc`, `date_part`, `make_date`, `make_time`, `make_timestamp`, and the sum and
difference of a moment and an interval written as an ISO 8601 duration. The planner does not build this expression: it is part of the library's public interface.

Moments are text of the form `2024-02-29T13:05:09Z` or a `Timestamp`, a number of seconds since 1970. Texts with fractions of a second or another time zone are `out`, and
so are results outside the years 0 to 9999, which `chrono` prints differently.
-/

namespace Verif.Time

/-- `chrono`, with the addition of seconds to a date and time, which panics (or is an error) outside its range of years. -/
structure Clock extends Chrono where
  shift : Civil → Int → Res Civil
  isoYear : Nat → Nat → Nat → Int

/-- `DateTimeField` (datetime_expression.rs:31-69), without the ones that both functions refuse; `week` is `Week(Some(_))`, `subsecond` the milli-, micro- and nanoseconds. -/
inductive Field where
  | century | decade | year | quarter | month | week | day | hour | minute | second | dow | doy | isodow | isoWeek | isoYear | epoch | subsecond | other
  deriving DecidableEq, Repr

/-- Go on with a result. -/
def Res.bind {α β : Type} (r : Res α) (f : α → Res β) : Res β := match r with
  | .ok v => f v
  | .err => .err
  | .panic => .panic
  | .out => .out

/-- `format_datetime_utc` (datetime_expression.rs:94-97) writes the digits of a number in at least so many places. -/
def places : Nat → Nat → List Char
  | 0, _ => []
  | w + 1, n => places w (n / 10) ++ [Char.ofNat ('0'.toNat + n % 10)]

/-- `format_datetime_utc` (datetime_expression.rs:94-97). Years of more than four digits are left out. -/
def format (c : Civil) : Res (List Char) :=
  if c.year < 10000 then
    .ok (places 4 c.year ++ '-' :: places 2 c.month ++ '-' :: places 2 c.day ++ 'T' :: places 2 c.hour ++ ':' :: places 2 c.minute ++ ':' :: places 2 c.second ++ ['Z'])
  else .out

/-- `DateTime::parse_from_rfc3339(s)` at UTC, for text of the form `dddd-dd-ddTdd:dd:ddZ`, and text that does not begin with a digit, which is refused. -/
def parseRfc (known : Nat → Nat → Nat → Bool) (s : List Char) : Res Civil :=
  if (s.head?.bind digit?).isNone then .err
  else if s[10]? = some 'T' ∧ s.length = 20 ∧ s[19]? = some 'Z' then
    (parseDate known (s.take 10)).bind fun (y, m, d) => (parseTime ((s.drop 11).take 8)).bind fun (h, n, c) => .ok ⟨y, m, d, h, n, c⟩
  else .out

/-- `u64 as i64`. -/
def asI64 (n : Nat) : Int := if n % 2 ^ 64 < 2 ^ 63 then (n % 2 ^ 64 : Nat) else (n % 2 ^ 64 : Nat) - 2 ^ 64

/-- An argument: text (VARCHAR or CHAR), a TIMESTAMP, or a value of another type. -/
inductive Arg where
  | text (s : List Char)
  | timestamp (t : Nat)
  | other
  deriving DecidableEq, Repr

/-- The moment an argument is (datetime_expression.rs:367-390 and so on). `timestamp_opt` is an error outside the range of years. -/
def moment (K : Clock) : Arg → Res Civil
  | .text s => parseRfc K.known s
  | .timestamp t => (match K.shift ⟨1970, 1, 1, 0, 0, 0⟩ (asI64 t) with
    | .panic => .err
    | r => r)
  | .other => .err

/-- `with_year`, `with_month` and `with_day`, each followed by `unwrap`. -/
def orPanic (K : Clock) (y m d : Nat) (r : Res Civil) : Res Civil := if K.known y m d then r else .panic

/-- `evaluate_date_trunc` (datetime_expression.rs:149-237). -/
def dateTrunc (K : Clock) (f : Field) (c : Civil) : Res Civil := match f with
  | .year => .ok { c with hour := 0, minute := 0, second := 0 }
  | .month => if K.known c.year c.month 1 then .ok ⟨c.year, c.month, 1, 0, 0, 0⟩ else .err
  | .quarter =>
    let m := (c.month - 1) / 3 * 3 + 1
    orPanic K c.year m c.day (orPanic K c.year m 1 (.ok ⟨c.year, m, 1, 0, 0, 0⟩))
  | .day => .ok { c with hour := 0, minute := 0, second := 0 }
  | .hour => .ok { c with minute := 0, second := 0 }
  | .minute => .ok { c with second := 0 }
  | .century =>
    let y := c.year / 100 * 100
    orPanic K y c.month c.day (orPanic K y 1 c.day (orPanic K y 1 1 (.ok ⟨y, 1, 1, 0, 0, 0⟩)))
  | .decade =>
    let y := c.year / 10 * 10
    orPanic K y c.month c.day (orPanic K y 1 c.day (orPanic K y 1 1 (.ok ⟨y, 1, 1, 0, 0, 0⟩)))
  | .week => K.shift { c with hour := 0, minute := 0, second := 0 } (- (86400 * K.weekday c.year c.month c.day))
  | .second => .ok c
  | _ => .err

/-- `evaluate_date_part` (datetime_expression.rs:239-275). Moments have no fraction of a second here. -/
def datePart (K : Clock) (f : Field) (c : Civil) : Res Int := match f with
  | .year => .ok c.year
  | .month => .ok c.month
  | .day => .ok c.day
  | .dow => .ok (K.weekday c.year c.month c.day)
  | .doy => .ok (K.ordinal c.year c.month c.day)
  | .hour => .ok c.hour
  | .minute => .ok c.minute
  | .second => .ok c.second
  | .quarter => .ok (((c.month - 1) / 3 + 1 : Nat) : Int)
  | .week => .ok (K.isoWeek c.year c.month c.day)
  | .isoWeek => .ok (K.isoWeek c.year c.month c.day)
  | .isoYear => .ok (K.isoYear c.year c.month c.day)
  | .isodow => .ok (K.weekday c.year c.month c.day + 1 : Nat)
  | .epoch => .ok (wrapI32 (K.epoch c))
  | .subsecond => .ok 0
  | _ => .err

/-- `DateTrunc` in `evaluate` (datetime_expression.rs:359-399), with one argument and a field. -/
def truncOf (K : Clock) (f : Field) (a : Arg) : Res (List Char) := (moment K a).bind fun c => (dateTrunc K f c).bind format

/-- `DatePart` in `evaluate` (datetime_expression.rs:400-440), with one argument and a field. -/
def partOf (K : Clock) (f : Field) (a : Arg) : Res Int := (moment K a).bind fun c => datePart K f c

/-- `i32 as u32`. -/
def asU32 (i : Int) : Nat := (i % 2 ^ 32).toNat

/-- `Utc.with_ymd_and_hms(..).earliest()` and the printing of it; years before 0 are left out. -/
def build (K : Clock) (y m d h n s : Int) : Res (List Char) :=
  if y < 0 then .out
  else if K.known y.toNat (asU32 m) (asU32 d) ∧ asU32 h < 24 ∧ asU32 n < 60 ∧ asU32 s < 60 then format ⟨y.toNat, asU32 m, asU32 d, asU32 h, asU32 n, asU32 s⟩
  else .err

/-- `evaluate_make_date` (datetime_expression.rs:277-296). An argument is what `as_integer` (value.rs:1966-1990) makes of it, `none` when that fails: it is unwrapped. -/
def makeDate (K : Clock) : List (Option Int) → Res (List Char)
  | [y, m, d] => (match y, m, d with
    | some y, some m, some d => build K y m d 0 0 0
    | _, _, _ => .panic)
  | _ => .err

/-- `evaluate_make_time` (datetime_expression.rs:298-317): the date is the 0th of month 0. -/
def makeTime (K : Clock) : List (Option Int) → Res (List Char)
  | [h, n, s] => (match h, n, s with
    | some h, some n, some s => build K 0 0 0 h n s
    | _, _, _ => .panic)
  | _ => .err

/-- `evaluate_make_timestamp` (datetime_expression.rs:319-354). -/
def makeTimestamp (K : Clock) : List (Option Int) → Res (List Char)
  | [y, m, d, h, n, s] => (match y, m, d, h, n, s with
    | some y, some m, some d, some h, some n, some s => build K y m d h n s
    | _, _, _, _, _, _ => .panic)
  | _ => .err

/-! ## Intervals -/

/-- Digits at the front of a text, and the rest. -/
def spanDigits : List Char → List Char × List Char
  | [] => ([], [])
  | c :: cs => if (digit? c).isSome then (c :: (spanDigits cs).1, (spanDigits cs).2) else ([], c :: cs)

/-- `(?:(\d+)X)?` in the regular expression (datetime_expression.rs:104-107), with the number `parse::<i64>().ok().unwrap_or(0)` (datetime_expression.rs:110-133). -/
def group (x : Char) (s : List Char) : Nat × List Char :=
  match spanDigits s with
  | (ds, c :: rest) => if ds ≠ [] ∧ c = x then (match number? 0 ds with
      | some n => if n < 2 ^ 63 then (n, rest) else (0, rest)
      | none => (0, rest))
    else (0, s)
  | _ => (0, s)

/-- The largest number of whole seconds of a `chrono::Duration`. -/
def maxDuration : Nat := 9223372036854775

/-- The arithmetic on `i64` (datetime_expression.rs:135-140): an overflow, a panic in some builds and not in others, is left out; `Duration::days` and the sum of durations panic. -/
def duration (years months days hours minutes seconds : Nat) : Res Nat :=
  let d := years * 365 + months * 30 + days
  let s := hours * 3600 + minutes * 60 + seconds
  if 2 ^ 63 ≤ d ∨ 2 ^ 63 ≤ s then .out
  else if maxDuration < d * 86400 + s then .panic
  else .ok (d * 86400 + s)

/-- `parse_iso8601_duration` (datetime_expression.rs:100-147), in seconds. `\d` also matches digits outside ASCII: such text is left out. -/
def parseDuration (s : List Char) : Res Nat :=
  if s.any fun c => 128 ≤ c.toNat then .out else
  match s with
  | 'P' :: s =>
    let (years, s) := group 'Y' s
    let (months, s) := group 'M' s
    let (days, s) := group 'D' s
    (match s with
    | [] => duration years months days 0 0 0
    | 'T' :: s =>
      let (hours, s) := group 'H' s
      let (minutes, s) := group 'M' s
      let (seconds, s) := group 'S' s
      if s = [] then duration years months days hours minutes seconds else .err
    | _ => .err)
  | _ => .err

/-- `Add` and `Subtract`. -/
inductive Sign where | add | subtract
  deriving DecidableEq, Repr

/-- What a sum or difference is: a moment as text, or a span of seconds. The latter is printed by `{:?}` of `chrono::TimeDelta`. -/
inductive Sum where
  | moment (s : List Char)
  | span (n : Int)
  deriving DecidableEq, Repr

/-- A moment and an interval (datetime_expression.rs:457-493, 495-531, 533-569): the moment is read first. -/
def shiftBy (K : Clock) (sg : Sign) (a : Arg) (iv : List Char) : Res Sum :=
  (moment K a).bind fun c => (parseDuration iv).bind fun n =>
    (K.shift c (match sg with | .add => n | .subtract => - n)).bind fun r => (format r).bind fun s => .ok (.moment s)

/-- `Add` and `Subtract` in `evaluate` (datetime_expression.rs:444-627) with two arguments: the first arm that fits the types is taken. -/
def sumOf (K : Clock) (sg : Sign) (a b : Arg) : Res Sum := match sg, a, b with
  | .add, .text s, .text iv => shiftBy K .add (.text s) iv
  | .add, .timestamp t, .text iv => shiftBy K .add (.timestamp t) iv
  | .add, .text iv, .timestamp t => shiftBy K .add (.timestamp t) iv
  | .subtract, .text s, .text iv => shiftBy K .subtract (.text s) iv
  | .subtract, .timestamp t, .text iv => shiftBy K .subtract (.timestamp t) iv
  | .subtract, .text s, .timestamp t => (moment K (.text s)).bind fun x => (moment K (.timestamp t)).bind fun y => .ok (.span (K.epoch x - K.epoch y))
  | .subtract, .timestamp s, .timestamp t => (moment K (.timestamp s)).bind fun x => (moment K (.timestamp t)).bind fun y => .ok (.span (K.epoch x - K.epoch y))
  | _, _, _ => .err

end Verif.Time
