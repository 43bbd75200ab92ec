import Verif.Sql.Cast
import Verif.Time.Spec

/-!
# The text shown for a value (`Display for Value`, value.rs:2252-2276, and `to_string` of the types)

This is what the command line client prints in a cell (result_writer.rs:343-366) and what `LIKE`, `EXTRACT` and the like read from an operand.
Texts are their UTF-8 bytes.
-/

namespace Verif.Sql

open Verif.Wire Verif.Bytes

/-- What the text of a value takes from the libraries: `to_string` of `f64` and `f32`, and the date `chrono` finds so many days after the first of January 1970
(`checked_add_days`, `none` beyond its range). -/
structure Printers where
  f64 : Nat → List Byte
  f32 : Nat → List Byte
  dateAfter : Nat → Option (Nat × Nat × Nat)

/-- A byte that begins a character of a UTF-8 text. -/
def isLead (b : Byte) : Bool := !(decide (128 ≤ b.val) && decide (b.val < 192))

/-- `s.chars().take(n)`, the text being valid UTF-8. -/
def takeChars : Nat → List Byte → List Byte
  | _, [] => []
  | 0, b :: bs => if isLead b then [] else b :: takeChars 0 bs
  | n + 1, b :: bs => b :: takeChars (if isLead b then n else n + 1) bs

/-- `CharType::normalize_string` of the one instance there is, whose length is 255 (const_len_type.rs:10-14, 27-34): at most 255 characters, then spaces up to 255 bytes. -/
def normalize (s : List Byte) : List Byte := takeChars 255 s ++ List.replicate (255 - (takeChars 255 s).length) 32

/-- `{:02}` of a number below 100. -/
def pad2 (n : Nat) : List Byte := [Fin.ofNat 256 (48 + n / 10), Fin.ofNat 256 (48 + n % 10)]

/-- `{:02}:{:02}:{:02}`. -/
def clock (h m s : Nat) : List Byte := pad2 h ++ [58] ++ pad2 m ++ [58] ++ pad2 s

/-- `IntervalType::format_interval` (interval_type.rs:22-40). `none` is the overflow of `abs`, a panic in a debug build. -/
def intervalText (i : Int) : Option (List Byte) :=
  if i = - 2 ^ 63 then none
  else
    let n := i.natAbs
    some ((if i < 0 then [45] else []) ++ (if 0 < n / 86400 then natStr (n / 86400 + 1) (n / 86400) ++ lit " days " else [])
      ++ clock (n % 86400 / 3600) (n % 3600 / 60) (n % 60))

/-- `TimeType::to_string` (time_type.rs:24-33, 185-198). -/
def timeText (i : Int) : List Byte :=
  if 0 ≤ i ∧ i < 86400 then clock (i.toNat / 3600) (i.toNat % 3600 / 60) (i.toNat % 60)
  else lit "INVALID_TIME(" ++ intStr i ++ lit ")"

/-- `%Y` of `chrono`: four digits, from the year 10000 on with a sign. -/
def yearText (y : Nat) : List Byte :=
  if y < 10000 then pad2 (y / 100) ++ pad2 (y % 100) else 43 :: natStr (y + 1) y

/-- `DateType::to_string` (date_type.rs:24-28, 161-174): `days as u64` of a negative number is about 2^64, beyond the range of `chrono`. -/
def dateText (P : Printers) (i : Int) : List Byte :=
  match (if 0 ≤ i then P.dateAfter i.toNat else P.dateAfter (i + 2 ^ 64).toNat) with
  | some (y, m, d) => yearText y ++ [45] ++ pad2 m ++ [45] ++ pad2 d
  | none => lit "INVALID_DATE(" ++ intStr i ++ lit ")"

/-- A digit of `hex::encode`. -/
def hexDigit (n : Nat) : Byte := if n < 10 then Fin.ofNat 256 (48 + n) else Fin.ofNat 256 (87 + n)

/-- `hex::encode`. -/
def hex (s : List Byte) : List Byte := s.flatMap fun b => [hexDigit (b.val / 16), hexDigit (b.val % 16)]

/-- `join(", ")`. -/
def joinComma : List (List Byte) → List Byte
  | [] => []
  | [s] => s
  | s :: t :: ss => s ++ [44, 32] ++ joinComma (t :: ss)

mutual
/-- `Display for Value` (value.rs:2252-2276) with `to_string` of the type of the value (types.rs:311-336). A value whose variant is not the one of its type is `INVALID`
(unreachable for values made by `Value::new` and `new_with_type`). `none` is a panic, or a struct: the text of structs is not modelled. -/
def display (P : Printers) : Value → Option (List Byte)
  | .mk v _ _ t _ => match v with
    | .null => some (lit "NULL")
    | .vector vs => (displays P vs).map fun ss => 91 :: joinComma ss ++ [93]
    | .array vs => (displays P vs).map fun ss => 91 :: joinComma ss ++ [93]
    | .struct => none
    | .boolean b => some (if t = 0 then lit (if b then "true" else "false") else lit "INVALID")
    | .tinyInt i => some (if t = 1 then intStr i else lit "INVALID")
    | .smallInt i => some (if t = 2 then intStr i else lit "INVALID")
    | .integer i => some (if t = 3 then intStr i else lit "INVALID")
    | .bigInt i => some (if t = 4 then intStr i else lit "INVALID")
    | .decimal x => some (if t = 5 then P.f64 x else lit "INVALID")
    | .float x => some (if t = 6 then P.f32 x else lit "INVALID")
    | .timestamp n => some (if t = 7 then natStr (n + 1) n else lit "INVALID")
    | .date i => some (if t = 8 then dateText P i else lit "INVALID")
    | .time i => some (if t = 9 then timeText i else lit "INVALID")
    | .interval i => if t = 10 then intervalText i else some (lit "INVALID")
    | .varLen s => some (if t = 11 then s else if t = 12 then normalize s else lit "INVALID")
    | .constLen s => some (if t = 11 then s else if t = 12 then normalize s else lit "INVALID")
    | .binary s => some (if t = 13 then lit "\\x" ++ hex s else lit "INVALID")
    | .json s => some (if t = 14 then s else lit "INVALID")
    | .uuid s => some (if t = 15 then s else lit "INVALID")
    | .enum _ s => some (if t = 18 then s else lit "INVALID")
    | .point x y => some (if t = 19 then lit "POINT(" ++ P.f64 x ++ lit ", " ++ P.f64 y ++ lit ")" else lit "INVALID")
termination_by structural x => x

/-- The texts of the items of an array. -/
def displays (P : Printers) : List Value → Option (List (List Byte))
  | [] => some []
  | v :: vs => match display P v, displays P vs with
    | some s, some ss => some (s :: ss)
    | _, _ => none
termination_by structural x => x
end

/-- Libraries that print nothing, for examples without floats and dates. -/
def noPrinters : Printers := ⟨fun _ => [], fun _ => [], fun _ => none⟩

-- 26 hours, a minute to midnight, an array of a number and NULL.
example : display noPrinters (new (.interval 93784)) = some (lit "1 days 02:03:04") ∧ display noPrinters (new (.interval (-5))) = some (lit "-00:00:05")
    ∧ display noPrinters (new (.time 86340)) = some (lit "23:59:00") ∧ display noPrinters (new (.time 86400)) = some (lit "INVALID_TIME(86400)")
    ∧ display noPrinters (new (.array [new (.integer (-7)), new .null])) = some (lit "[-7, NULL]")
    ∧ display noPrinters (new (.binary [0, 255, 16])) = some (lit "\\x00ff10") := by decide +kernel

end Verif.Sql
