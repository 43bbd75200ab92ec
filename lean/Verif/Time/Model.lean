/-!
# Dates and times in SQL expressions

`FLOOR(t TO unit)` and `CEIL(t TO unit)` (`src/sql/execution/expressions/ceil_floor_expression.rs`), `EXTRACT(field FROM t)`
(`extract_expression.rs`) and the literals `DATE '...'`, `TIME '...'` and `TIMESTAMP '...'` (`typed_string_expression.rs`).

A `Timestamp` is a number of seconds since 1970-01-01, a `u64`. The `chrono` crate is not part of the repository: the calendar it implements is
the one of `Time/Spec.lean`, its parser is modelled on text of the fixed width it prints, and every other text is `out`.
-/

namespace Verif.Time

/-! ## CEIL and FLOOR -/

/-- `is_leap_year` (ceil_floor_expression.rs:448-450). Years are never below 1970. -/
def isLeapYear (y : Nat) : Bool := y % 4 == 0 && (y % 100 != 0 || y % 400 == 0)

/-- `days_in_month` (ceil_floor_expression.rs:452-459). -/
def daysInMonth (y m : Nat) : Nat := match m with
  | 4 | 6 | 9 | 11 => 30
  | 2 => if isLeapYear y then 29 else 28
  | _ => 31

/-- The number in the loops over years (ceil_floor_expression.rs:468-469, 494). -/
def daysInYear (y : Nat) : Nat := if isLeapYear y then 366 else 365

/-- `timestamp as i32` (ceil_floor_expression.rs:462). -/
def asI32 (t : Nat) : Int := if t % 2 ^ 32 < 2 ^ 31 then (t % 2 ^ 32 : Nat) else (t % 2 ^ 32 : Nat) - 2 ^ 32

/-- The loop over years (ceil_floor_expression.rs:467-471). The first argument bounds the number of rounds, each of which takes at least 365 days. -/
def yearLoop : Nat → Int → Nat → Int × Nat
  | 0, d, y => (d, y)
  | n + 1, d, y => if (daysInYear y : Int) ≤ d then yearLoop n (d - daysInYear y) (y + 1) else (d, y)

/-- The loop over months (ceil_floor_expression.rs:473-477), at most eleven rounds. -/
def monthLoop (y : Nat) : Nat → Int → Nat → Int × Nat
  | 0, d, m => (d, m)
  | n + 1, d, m => if (daysInMonth y m : Int) ≤ d then monthLoop y n (d - daysInMonth y m) (m + 1) else (d, m)

/-- The year and the month of `timestamp_to_date` (ceil_floor_expression.rs:461-487); the rest of its result is not used. -/
def timestampToDate (t : Nat) : Nat × Nat :=
  let days := (asI32 t).tdiv 86400
  let r := yearLoop days.toNat days 1970
  (r.2, (monthLoop r.2 11 r.1 1).2)

/-- `date_to_timestamp` (ceil_floor_expression.rs:489-506) for the first second of a month. -/
def dateToTimestamp (y m : Nat) : Nat :=
  ((List.range (y - 1970)).map fun i => daysInYear (1970 + i) * 86400).sum + ((List.range (m - 1)).map fun i => daysInMonth y (i + 1) * 86400).sum

/-- The fields that `CEIL` and `FLOOR` can be given, as the SQL parser has them: none at all, those below, `WEEK`, and the others. -/
inductive SqlField where
  | none | second | minute | hour | day | month | year | week (weekday : Bool) | other (listed : Bool)
  deriving DecidableEq

/-- The units that are implemented. -/
inductive TimeUnit where | second | minute | hour | day | month | year
  deriving DecidableEq, Repr

/-- What an evaluation comes to. `out` is what this model leaves out. -/
inductive Res (α : Type) where
  | ok (v : α)
  | err
  | panic
  | out
  deriving DecidableEq, Repr

/-- `CeilFloorOperation`. -/
inductive Op where | ceil | floor
  deriving DecidableEq, Repr

/-- The match on the field in `evaluate` (ceil_floor_expression.rs:106-186): adding more than `i64::MAX` seconds to the epoch panics (line 110). -/
def ceilFloor (op : Op) (u : TimeUnit) (t : Nat) : Res Nat :=
  if 2 ^ 63 ≤ t then .panic else
  .ok (match u, op with
    | .second, _ => t
    | .minute, .ceil => (t / 60 + 1) * 60
    | .minute, .floor => t / 60 * 60
    | .hour, .ceil => (t / 3600 + 1) * 3600
    | .hour, .floor => t / 3600 * 3600
    | .day, .ceil => (t / 86400 + 1) * 86400
    | .day, .floor => t / 86400 * 86400
    | .month, .floor => let (y, m) := timestampToDate t; dateToTimestamp y m
    | .month, .ceil => let (y, m) := timestampToDate t; if m = 12 then dateToTimestamp (y + 1) 1 else dateToTimestamp y (m + 1)
    | .year, .floor => let (y, _) := timestampToDate t; dateToTimestamp y 1
    | .year, .ceil => let (y, _) := timestampToDate t; dateToTimestamp (y + 1) 1)

/-- `CEIL(t TO field)` and `FLOOR(t TO field)` on a timestamp, from the parser (expression_parser.rs:1069-1131, 1134-1196) to the value. `CEIL(t)` has no field: the parser
refuses it. `WEEK` without a day of the week panics in the parser (line 1081). Other fields are refused by the parser or, when `listed` there, by the evaluation. -/
def ceilFloorSql (op : Op) (f : SqlField) (t : Nat) : Res Nat := match f with
  | .second => ceilFloor op .second t
  | .minute => ceilFloor op .minute t
  | .hour => ceilFloor op .hour t
  | .day => ceilFloor op .day t
  | .month => ceilFloor op .month t
  | .year => ceilFloor op .year t
  | .week false => .panic
  | .week true => if 2 ^ 63 ≤ t then .panic else .err
  | .other true => if 2 ^ 63 ≤ t then .panic else .err
  | .other false => .err
  | .none => .err

/-! ## EXTRACT and literals -/

/-- A date and a time of day, as `chrono::NaiveDateTime` has it. -/
structure Civil where
  year : Nat
  month : Nat
  day : Nat
  hour : Nat
  minute : Nat
  second : Nat
  deriving DecidableEq, Repr

/-- A decimal digit. -/
def digit? (c : Char) : Option Nat := if '0' ≤ c ∧ c ≤ '9' then some (c.toNat - '0'.toNat) else none

/-- The number digits denote. -/
def number? : Nat → List Char → Option Nat
  | acc, [] => some acc
  | acc, c :: cs => (digit? c).bind fun d => number? (acc * 10 + d) cs

/-- `NaiveDate::parse_from_str(s, "%Y-%m-%d")` on text of the form `dddd-dd-dd`; `known` says whether the date exists. -/
def parseDate (known : Nat → Nat → Nat → Bool) : List Char → Res (Nat × Nat × Nat)
  | [a, b, c, d, '-', e, f, '-', g, h] => match number? 0 [a, b, c, d], number? 0 [e, f], number? 0 [g, h] with
    | some y, some m, some n => if known y m n then .ok (y, m, n) else .err
    | _, _, _ => .out
  | _ => .out

/-- `NaiveTime::parse_from_str(s, "%H:%M:%S")` on text of the form `dd:dd:dd`; the leap second 60 is left out. -/
def parseTime : List Char → Res (Nat × Nat × Nat)
  | [a, b, ':', c, d, ':', e, f] => match number? 0 [a, b], number? 0 [c, d], number? 0 [e, f] with
    | some h, some m, some s => if h < 24 ∧ m < 60 ∧ s < 60 then .ok (h, m, s) else if s = 60 then .out else .err
    | _, _, _ => .out
  | _ => .out

/-- Text that is only digits: the year takes at most four of them and a hyphen must follow, so it is refused. -/
def onlyDigits (s : List Char) : Bool := s.all fun c => (digit? c).isSome

/-- `NaiveDateTime::parse_from_str(s, "%Y-%m-%d %H:%M:%S")` on text of the form `dddd-dd-dd dd:dd:dd` and on plain numbers. -/
def parseDateTime (known : Nat → Nat → Nat → Bool) (s : List Char) : Res Civil :=
  if onlyDigits s then .err
  else if s[10]? = some ' ' then
    match parseDate known (s.take 10), parseTime (s.drop 11) with
    | .ok (y, m, d), .ok (h, n, c) => .ok ⟨y, m, d, h, n, c⟩
    | .out, _ => .out
    | _, .out => .out
    | _, _ => .err
  else .out

/-- What `EXTRACT` knows (extract_expression.rs:16-29). -/
inductive Part where | year | month | day | hour | minute | second | timezone | quarter | week | dow | doy | epoch
  deriving DecidableEq, Repr

/-- What `chrono` knows about its dates and times: which exist, and their day of the week from Monday (0 to 6), ISO week, day of the year and seconds since 1970. -/
structure Chrono where
  known : Nat → Nat → Nat → Bool
  weekday : Nat → Nat → Nat → Nat
  isoWeek : Nat → Nat → Nat → Nat
  ordinal : Nat → Nat → Nat → Nat
  epoch : Civil → Int

/-- `i64 as i32`. -/
def wrapI32 (i : Int) : Int := if i % 2 ^ 32 < 2 ^ 31 then i % 2 ^ 32 else i % 2 ^ 32 - 2 ^ 32

/-- The match of `extract_from_timestamp` (extract_expression.rs:57-74). -/
def extractPart (K : Chrono) (p : Part) (c : Civil) : Res Int := match p with
  | .year => .ok c.year
  | .month => .ok c.month
  | .day => .ok c.day
  | .hour => .ok c.hour
  | .minute => .ok c.minute
  | .second => .ok c.second
  | .quarter => .ok (((c.month - 1) / 3 + 1 : Nat) : Int)
  | .week => .ok (K.isoWeek c.year c.month c.day)
  | .dow => .ok (K.weekday c.year c.month c.day + 1 : Nat)
  | .doy => .ok (K.ordinal c.year c.month c.day)
  | .epoch => .ok (wrapI32 (K.epoch c))
  | .timezone => .err

/-- The decimal digits of a number (`to_string` of `u64`); the first argument bounds their count. -/
def natText : Nat → Nat → List Char
  | 0, _ => []
  | f + 1, n => if n < 10 then [Char.ofNat (48 + n)] else natText f (n / 10) ++ [Char.ofNat (48 + n % 10)]

/-- The operand of `EXTRACT`: text or a timestamp. -/
inductive Operand where
  | text (s : List Char)
  | timestamp (t : Nat)

/-- `ExtractExpression::evaluate` (extract_expression.rs:81-91): the operand is printed, a timestamp as its number of seconds (timestamp_type.rs:175-184), and parsed again. -/
def extract (K : Chrono) (p : Part) (o : Operand) : Res Int :=
  match parseDateTime K.known (match o with | .text s => s | .timestamp t => natText (t + 1) t) with
  | .ok c => extractPart K p c
  | .err => .err
  | .panic => .panic
  | .out => .out

/-- `i64 as u64`. -/
def asU64 (i : Int) : Nat := (i % 2 ^ 64).toNat

/-- `DATE '...'` (typed_string_expression.rs:50-74): a `Timestamp` value. -/
def dateLiteral (K : Chrono) (s : List Char) : Res Nat := match parseDate K.known s with
  | .ok (y, m, d) => .ok (asU64 (K.epoch ⟨y, m, d, 0, 0, 0⟩))
  | .err => .err
  | .panic => .panic
  | .out => .out

/-- `TIME '...'` without a fraction (typed_string_expression.rs:77-100): a `Timestamp` value. -/
def timeLiteral (s : List Char) : Res Nat := match parseTime s with
  | .ok (h, m, c) => .ok (h * 3600 + m * 60 + c)
  | .err => .err
  | .panic => .panic
  | .out => .out

/-- `TIMESTAMP '...'` (typed_string_expression.rs:103-153): a plain number below 2^64 is the number of seconds; text with a `T` or a time zone is left out. -/
def timestampLiteral (K : Chrono) (s : List Char) : Res Nat :=
  match (if onlyDigits s ∧ s ≠ [] then number? 0 s else none) with
  | some n => if n < 2 ^ 64 then .ok n else .err
  | none => match parseDateTime K.known s with
    | .ok c => .ok (asU64 (K.epoch c))
    | .err => .err
    | .panic => .panic
    | .out => .out

end Verif.Time
