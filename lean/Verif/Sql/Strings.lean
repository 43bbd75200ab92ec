import Verif.Sql.Expr

/-!
# String expressions: LIKE, SUBSTRING, OVERLAY, TRIM, POSITION (`src/sql/execution/expressions/`)

LIKE and TRIM work on characters and are modelled on lists of `Char`; SUBSTRING, OVERLAY and POSITION work on byte offsets and are modelled
on the bytes of the string.
-/

namespace Verif.Sql

open Verif.Wire Verif.Bytes

/-! ## LIKE -/

/-- Whether a character of the value matches one of the pattern (like_expression.rs:98-102). Lean's `toLower`, like Rust's
`eq_ignore_ascii_case`, changes ASCII letters only. -/
def sameChar (cs : Bool) (c p : Char) : Bool := if cs then c == p else c.toLower == p.toLower

/-- The loop that tries every rest of the value after `%` (like_expression.rs:77-83): it goes byte by byte, and slicing at a byte that is not
the first of a character panics (`none`). -/
def trySuffixes (f : List Char → Option Bool) : List Char → Option Bool
  | [] => f []
  | c :: v => match f (c :: v) with
    | none => none
    | some true => some true
    | some false => if c.utf8Size = 1 then trySuffixes f v else none

/-- One pattern character that takes one character of the value (like_expression.rs:88-107). -/
def takeOne (ok : Char → Bool) (f : List Char → Option Bool) : List Char → Option Bool
  | [] => some false
  | c :: v => if ok c then f v else some false

/-- `matches_pattern` (like_expression.rs:47-115): the rest of the pattern, `escaping`, the rest of the value. -/
def likeLoop (esc : Option Char) (cs : Bool) : List Char → Bool → List Char → Option Bool
  | [], _, v => some v.isEmpty
  | p :: ps, escaping, v =>
    if esc = some p ∧ escaping = false then likeLoop esc cs ps true v
    else if p = '%' ∧ escaping = false then
      if ps = [] then some true else trySuffixes (likeLoop esc cs ps false) v
    else takeOne (fun c => decide (p = '_' ∧ escaping = false) || sameChar cs c p) (likeLoop esc cs ps false) v

/-- `value.to_string()` for a NULL, a VARCHAR and a CHAR (value.rs:2252-2275, varlen_type.rs:127-133, const_len_type.rs:28-34, 179-185): a
CHAR is cut or padded to 255 characters. (The padding loop counts bytes; the text is taken to be ASCII here.) -/
inductive Text where
  | null
  | varchar (s : List Char)
  | char (s : List Char)

def Text.show : Text → List Char
  | .null => "NULL".toList
  | .varchar s => s
  | .char s => s.take 255 ++ List.replicate (255 - s.length) ' '

/-- `LikeExpression::evaluate` (like_expression.rs:119-128). -/
def likeValue (esc : Option Char) (negated cs : Bool) (v p : Text) : Option Bool :=
  (likeLoop esc cs p.show false v.show).map (negated ^^ ·)

/-- What the parser builds for LIKE and for ILIKE (expression_parser.rs:1525-1569). -/
def parseLike (esc : Option Char) (negated : Bool) (v p : Text) : Option Bool := likeValue esc negated false v p

/-! ## SUBSTRING and OVERLAY -/

/-- The outcome of a string function. -/
inductive StrR where
  | ok (s : List Byte)
  | null
  | err
  | panic
  | overflow
  deriving DecidableEq

/-- `str::is_char_boundary`. -/
def boundary (s : List Byte) (i : Nat) : Bool := match s[i]? with
  | none => i == s.length
  | some b => i == 0 || b.val < 128 || 192 ≤ b.val

/-- `s[a..b]`. -/
def slice (s : List Byte) (a b : Nat) : StrR :=
  if a ≤ b ∧ boundary s a = true ∧ boundary s b = true then .ok ((s.drop a).take (b - a)) else .panic

/-- `*i as i32` for an `i64`. -/
def wrapI32 (i : Int) : Int := if i % 2 ^ 32 < 2 ^ 31 then i % 2 ^ 32 else i % 2 ^ 32 - 2 ^ 32

/-- `start_idx` (substring_expression.rs:105-116); `none` when `-start_pos` overflows. -/
def startIdx (len : Nat) (p : Int) : Option Nat :=
  if 0 < p then some (p - 1).toNat
  else if p < 0 then
    if p = lo 3 then none
    else some (if (-p).toNat > len then 0 else len - (-p).toNat)
  else some 0

/-- `SubstringExpression::evaluate` on the string's bytes and the numbers, which are `i32` (substring_expression.rs:105-160). -/
def substring (s : List Byte) (p : Int) (n : Option Int) : StrR := match startIdx s.length p with
  | none => .overflow
  | some a =>
    if s.length ≤ a then .ok []
    else match n with
      | some n => if n ≤ 0 then .ok [] else slice s a (min (a + n.toNat) s.length)
      | none => slice s a s.length

/-- The string in a value. -/
def strOf (v : Value) : Option (List Byte) := match val v with
  | .varLen s | .constLen s => some s
  | _ => none

/-- A number argument of SUBSTRING (substring_expression.rs:90-101, 131-142). -/
def i32Of (v : Value) : Option Int := match val v with
  | .tinyInt i | .smallInt i | .integer i => some i
  | .bigInt i => some (wrapI32 i)
  | _ => none

/-- `SubstringExpression::evaluate` on the values (substring_expression.rs:65-160); the FOR argument is looked at last. -/
def substringValue (v f : Value) (n : Option Value) : StrR :=
  if isNull v then .null
  else match strOf v with
    | none => .err
    | some s =>
      if isNull f then .null
      else match i32Of f with
        | none => .err
        | some p => match n with
          | none => substring s p none
          | some n => match startIdx s.length p with
            | none => .overflow
            | some a =>
              if s.length ≤ a then .ok []
              else if isNull n then .null
              else match i32Of n with
                | none => .err
                | some n => substring s p (some n)

/-- `OverlayExpression::evaluate` on the bytes and the numbers (overlay_expression.rs:81-140). -/
def overlay (s w : List Byte) (p : Int) (n : Option Int) : StrR :=
  if p < 1 then .err
  else if (match n with | some n => decide (n < 0) | none => false) = true then .err
  else
    let a := p.toNat - 1
    let k := match n with | some n => n.toNat | none => w.length
    if s.length ≤ a then .ok (s ++ w)
    else
      let e := if k = 0 then a else min (a + k) s.length
      match slice s 0 a, slice s e s.length with
      | .ok l, .ok r => .ok (l ++ w ++ r)
      | _, _ => .panic

/-- A number argument of OVERLAY (overlay_expression.rs:81-97, 101-117): only Integer. -/
def integerOf (v : Value) : Option Int := match val v with
  | .integer i => some i
  | _ => none

/-- `OverlayExpression::evaluate` on the values (overlay_expression.rs:49-141). -/
def overlayValue (v w f : Value) (n : Option Value) : StrR := match strOf v, strOf w, integerOf f with
  | some s, some w, some p => (match n with
    | none => overlay s w p none
    | some n => match integerOf n with
      | some n => overlay s w p (some n)
      | none => .err)
  | _, _, _ => .err

/-! ## TRIM and POSITION -/

/-- `TrimType` (trim_expression.rs:12-16). -/
inductive TrimType where | both | leading | trailing
  deriving DecidableEq

/-- `trim_start_matches`, `trim_end_matches`. -/
def trimStart (set : List Char) (s : List Char) : List Char := s.dropWhile fun c => set.contains c
def trimEnd (set : List Char) (s : List Char) : List Char := (trimStart set s.reverse).reverse

/-- `TrimExpression::evaluate` on the strings (trim_expression.rs:83-93). -/
def trim (t : TrimType) (set : List Char) (s : List Char) : List Char := match t with
  | .both => trimEnd set (trimStart set s)
  | .leading => trimStart set s
  | .trailing => trimEnd set s

/-- The characters trimmed when there is no second argument (trim_expression.rs:79). -/
def blanks : List Char := [' ', '\t', '\n', '\r']

/-- `TRIM([where] [what FROM] s)` as the parser builds it (expression_parser.rs:1627-1680): `what` is dropped. -/
def parseTrim (t : TrimType) (_what : Option (List Char)) (s : List Char) : List Char := trim t blanks s

/-- `str::find`: the first byte offset at which `w` occurs. -/
def findStr (w : List Byte) : List Byte → Option Nat
  | [] => if w = [] then some 0 else none
  | b :: s => if w.isPrefixOf (b :: s) then some 0 else (findStr w s).map (· + 1)

/-- `PositionExpression::evaluate` on the strings (position_expression.rs:70-75). -/
def position (w s : List Byte) : Nat := match findStr w s with
  | some i => i + 1
  | none => 0

example : likeLoop (some '\\') true "a\\%_%z".toList false "a%bxyz".toList = some true ∧
    likeLoop (some '\\') true "a\\%_%z".toList false "aXbxyz".toList = some false := by decide +kernel
example : substring (lit "ferrite") 3 (some 2) = .ok (lit "rr") ∧ overlay (lit "ferrite") (lit "XY") 2 (some 3) = .ok (lit "fXYite") := by
  decide +kernel
example : trim .both "xy".toList "xyaxbyx".toList = "axb".toList ∧ position (lit "ri") (lit "ferrite") = 4 := by decide +kernel

end Verif.Sql
