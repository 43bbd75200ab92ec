import Verif.Sql.Value

/-!
# Casts (`Value::cast_to`, `src/types_db/value.rs:408-1124`)
-/

namespace Verif.Sql

open Verif.Wire Verif.Bytes

/-- The result of a cast: a value, an `Err`, or a conversion that is not modelled: printing or parsing a float, parsing a date or time
that is not a plain number, and checking UTF-8. -/
inductive CastR where
  | ok (v : Value)
  | err
  | out

/-- The bounds of the integer types, by type number: `i8`, `i16`, `i32`, `i64`. -/
def lo : Nat → Int
  | 1 => - 2 ^ 7 | 2 => - 2 ^ 15 | 3 => - 2 ^ 31 | _ => - 2 ^ 63
def hi : Nat → Int
  | 1 => 2 ^ 7 - 1 | 2 => 2 ^ 15 - 1 | 3 => 2 ^ 31 - 1 | _ => 2 ^ 63 - 1

/-- The digit characters of a number, most significant first; the first argument bounds their count. -/
def natStr : Nat → Nat → List Byte
  | 0, _ => []
  | f + 1, n => if n < 10 then [Fin.ofNat 256 (48 + n)] else natStr f (n / 10) ++ [Fin.ofNat 256 (48 + n % 10)]

/-- `to_string` of an integer. -/
def intStr (i : Int) : List Byte := if i < 0 then 45 :: natStr (i.natAbs + 1) i.natAbs else natStr (i.natAbs + 1) i.natAbs

/-- The number a string of digit characters denotes, `none` if another character occurs. -/
def digits : Nat → List Byte → Option Nat
  | acc, [] => some acc
  | acc, b :: bs => if 48 ≤ b.val ∧ b.val ≤ 57 then digits (acc * 10 + (b.val - 48)) bs else none

/-- `str::parse` for a signed integer type with the given bounds: a sign, then at least one digit, and the number in range. -/
def parseInt (l h : Int) (s : List Byte) : Option Int :=
  let r : Option Int := match s with
    | [] => none
    | [43] | [45] => none
    | 43 :: ds => (digits 0 ds).map fun (n : Nat) => (n : Int)
    | 45 :: ds => (digits 0 ds).map fun (n : Nat) => - (n : Int)
    | ds => (digits 0 ds).map fun (n : Nat) => (n : Int)
  r.bind fun i => if l ≤ i ∧ i ≤ h then some i else none

/-- `str::parse::<u64>`: no minus sign. -/
def parseU64 (s : List Byte) : Option Nat :=
  let r : Option Nat := match s with
    | [] => none
    | [43] => none
    | 43 :: ds => digits 0 ds
    | ds => digits 0 ds
  r.bind fun i => if i < 2 ^ 64 then some i else none

/-- The bytes of an ASCII string literal. -/
def lit (s : String) : List Byte := s.toList.map fun c => Fin.ofNat 256 c.toNat

/-- `to_lowercase` as far as the words below are concerned: no character outside ASCII has one of their letters as its lower case. -/
def lower (s : List Byte) : List Byte := s.map fun b => if 65 ≤ b.val ∧ b.val ≤ 90 then Fin.ofNat 256 (b.val + 32) else b

/-- The words read as a boolean (value.rs:668-676, 807-815). -/
def parseBool (s : List Byte) : Option Bool :=
  if lower s ∈ [lit "true", lit "t", lit "1", lit "yes", lit "y"] then some true
  else if lower s ∈ [lit "false", lit "f", lit "0", lit "no", lit "n", lit ""] then some false
  else none

/-- An integer of type `t` (1 TinyInt, 2 SmallInt, 3 Integer, 4 BigInt). -/
def intVal (t : Nat) (i : Int) : Value := newTyped (match t with
  | 1 => .tinyInt i | 2 => .smallInt i | 3 => .integer i | _ => .bigInt i) t

/-- A string of type `t` (11 VarChar, 12 Char). -/
def strVal (t : Nat) (s : List Byte) : Value := newTyped (if t = 11 then .varLen s else .constLen s) t

/-- A parse that failed is an error. -/
def orErr : Option Value → CastR
  | some v => .ok v
  | none => .err

/-- A parse that failed goes on to a format that is not modelled. -/
def orOut : Option Value → CastR
  | some v => .ok v
  | none => .out

/-- From an integer of type `s` (value.rs:456-606): widening is unchecked, narrowing checked. -/
def castInt (s : Nat) (i : Int) (t : Nat) : CastR := match t with
  | 0 => .ok (newTyped (.boolean (i ≠ 0)) 0)
  | 1 | 2 | 3 | 4 => if s ≤ t then .ok (intVal t i) else if lo t ≤ i ∧ i ≤ hi t then .ok (intVal t i) else .err
  | 5 => .ok (newTyped (.decimal (f64.ofInt i)) 5)
  | 6 => .ok (newTyped (.float (f32.ofInt i)) 6)
  | 7 => if s = 3 ∨ s = 4 then (if 0 ≤ i then .ok (newTyped (.timestamp i.toNat) 7) else .err) else .err
  | 11 | 12 => .ok (strVal t (intStr i))
  | _ => .err

/-- From a float (value.rs:609-662): to an integer without any check. -/
def castFloat (f : Fmt) (x : Nat) (t : Nat) : CastR := match t with
  | 0 => .ok (newTyped (.boolean (f.cmp x 0 ≠ some .eq)) 0)
  | 1 | 2 | 3 | 4 => .ok (intVal t (f.toInt (lo t) (hi t) x))
  | 5 => .ok (newTyped (.decimal (f.convert f64 x)) 5)
  | 6 => .ok (newTyped (.float (f.convert f32 x)) 6)
  | 11 | 12 => .out
  | _ => .err

/-- From a string (value.rs:665-802, 804-941). -/
def castStr (s : List Byte) (t : Nat) : CastR := match t with
  | 0 => orErr ((parseBool s).map fun b => newTyped (.boolean b) 0)
  | 1 | 2 | 3 | 4 => orErr ((parseInt (lo t) (hi t) s).map (intVal t))
  | 5 | 6 => .out
  | 7 => orOut ((parseU64 s).map fun n => newTyped (.timestamp n) 7)
  | 8 => orOut ((parseInt (lo 3) (hi 3) s).map fun i => newTyped (.date i) 8)
  | 9 => orOut ((parseInt (lo 3) (hi 3) s).map fun i => newTyped (.time i) 9)
  | 10 => orErr ((parseInt (lo 4) (hi 4) s).map fun i => newTyped (.interval i) 10)
  | 11 | 12 => .ok (strVal t s)
  | 13 => .ok (newTyped (.binary s) 13)
  | 14 => .ok (newTyped (.json s) 14)
  | 15 => .ok (newTyped (.uuid s) 15)
  | _ => .err

/-- `n as i64` for a `u64`. -/
def wrapI64 (n : Nat) : Int := if n < 2 ^ 63 then n else (n : Int) - 2 ^ 64

/-- `cast_to` (value.rs:408-1124), for a value whose type is the one of its variant (`Typed`). -/
def castTo (a : Value) (t : Nat) : CastR :=
  if ty a = t then .ok a
  else if isNull a then .ok (newTyped .null t)
  else match val a with
    | .boolean b => (match t with
      | 1 | 2 | 3 | 4 => .ok (intVal t (if b then 1 else 0))
      | 5 => .ok (newTyped (.decimal (f64.ofInt (if b then 1 else 0))) 5)
      | 6 => .ok (newTyped (.float (f32.ofInt (if b then 1 else 0))) 6)
      | 11 | 12 => .ok (strVal t (if b then lit "true" else lit "false"))
      | _ => .err)
    | .tinyInt i => castInt 1 i t
    | .smallInt i => castInt 2 i t
    | .integer i => castInt 3 i t
    | .bigInt i => castInt 4 i t
    | .decimal x => castFloat f64 x t
    | .float x => castFloat f32 x t
    | .varLen s => castStr s t
    | .constLen s => castStr s t
    | .timestamp n => (match t with
      | 11 | 12 => .ok (strVal t (intStr n))
      | 4 => .ok (intVal 4 (wrapI64 n))
      | 3 => if (n : Int) ≤ hi 3 then .ok (intVal 3 n) else .err
      | _ => .err)
    | .date i => (match t with
      | 11 | 12 => .ok (strVal t (intStr i))
      | 3 | 4 => .ok (intVal t i)
      | _ => .err)
    | .time i => (match t with
      | 11 | 12 => .ok (strVal t (intStr i))
      | 3 | 4 => .ok (intVal t i)
      | _ => .err)
    | .interval i => (match t with
      | 11 | 12 => .ok (strVal t (intStr i))
      | 4 => .ok (intVal 4 i)
      | 3 => if lo 3 ≤ i ∧ i ≤ hi 3 then .ok (intVal 3 i) else .err
      | _ => .err)
    | .binary _ => (match t with
      | 11 | 12 => .out
      | _ => .err)
    | .json s => (match t with
      | 11 | 12 => .ok (strVal t s)
      | _ => .err)
    | .uuid s => (match t with
      | 11 | 12 => .ok (strVal t s)
      | _ => .err)
    | .enum i s => (match t with
      | 3 | 4 => .ok (intVal t i)
      | 11 | 12 => .ok (strVal t s)
      | _ => .err)
    | .point _ _ => (match t with
      | 11 | 12 => .out
      | _ => .err)
    | .vector vs => (match t with
      | 17 => .ok (newTyped (.array vs) 17)
      | _ => .err)
    | .array vs => (match t with
      | 16 => .ok (newTyped (.vector vs) 16)
      | _ => .err)
    | .null => .ok (newTyped .null t)
    | .struct => .err

/-- The payload of an integer value. -/
def intOf (a : Value) : Option Int := match val a with
  | .tinyInt i | .smallInt i | .integer i | .bigInt i => some i
  | _ => none

-- 70000 as TinyInt is refused, 3.7 as Integer is 3, '+42' as Integer is 42, '4 2' is refused.
example : castTo (new (.integer 70000)) 1 = .err := by rfl
example : (match castTo (new (.decimal 0x400d99999999999a)) 3 with | .ok v => intOf v | _ => none) = some 3 := by decide +kernel
example : (match castTo (new (.varLen (lit "+42"))) 3 with | .ok v => intOf v | _ => none) = some 42 := by decide +kernel
example : parseInt (lo 3) (hi 3) (lit "4 2") = none ∧ parseInt (lo 1) (hi 1) (lit "128") = none ∧ intStr (-1207) = lit "-1207" := by
  decide +kernel

end Verif.Sql
