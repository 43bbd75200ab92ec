import Verif.Sql.Cast

/-!
# The bytes of a value (`get_storage_size`, `as_bytes`, `deserialize_from`, value.rs:110-173, 277-405)
-/

namespace Verif.Sql

open Verif.Wire Verif.Bytes

/-- `to_le_bytes` of a signed integer of `w` bytes: two's complement. -/
def intLE (w : Nat) (i : Int) : List Byte := toLE w (i % 256 ^ w).toNat

/-- `from_le_bytes` of a signed integer, of the bytes there are. -/
def ofIntLE (bs : List Byte) : Int :=
  if 2 * ofLE bs < 256 ^ bs.length then (ofLE bs : Int) else (ofLE bs : Int) - 256 ^ bs.length

/-- `Value::get_storage_size` (value.rs:110-135); the conversions to `u32` are taken to be exact. -/
def storageSize (v : Value) : Nat := match val v with
  | .boolean _ | .tinyInt _ | .null => 1
  | .smallInt _ => 2
  | .integer _ | .float _ | .date _ | .time _ => 4
  | .bigInt _ | .decimal _ | .timestamp _ | .interval _ | .struct => 8
  | .varLen s | .constLen s | .binary s | .json s => s.length
  | .uuid _ | .point _ _ => 16
  | .vector vs | .array vs => 4 + vs.length * 4
  | .enum _ s => 4 + s.length

mutual
/-- `Value::as_bytes` (value.rs:138-173). -/
def asBytes : Value → List Byte
  | .mk v _ _ _ _ => match v with
    | .boolean b => [if b then 1 else 0]
    | .tinyInt i => intLE 1 i
    | .smallInt i => intLE 2 i
    | .integer i | .date i | .time i => intLE 4 i
    | .bigInt i | .interval i => intLE 8 i
    | .decimal x | .timestamp x => toLE 8 x
    | .float x => toLE 4 x
    | .varLen s | .constLen s | .binary s | .json s | .uuid s => s
    | .vector vs => allBytes vs
    | .array vs => allBytes vs
    | .enum i s => intLE 4 i ++ s
    | .point x y => toLE 8 x ++ toLE 8 y
    | .null | .struct => [0]
termination_by structural x => x

/-- The bytes of all items of an array. -/
def allBytes : List Value → List Byte
  | [] => []
  | v :: vs => asBytes v ++ allBytes vs
termination_by structural x => x
end

/-- `Value::deserialize_from` (value.rs:277-405). `utf8` is `str::from_utf8`, whether bytes are a text. -/
def fromBytes (utf8 : List Byte → Bool) (data : List Byte) (t : Nat) : Value := match t with
  | 0 => match data with
    | b :: _ => new (.boolean (b ≠ 0))
    | [] => new .null
  | 1 => if 1 ≤ data.length then new (.tinyInt (ofIntLE (data.take 1))) else new .null
  | 2 => if 2 ≤ data.length then new (.smallInt (ofIntLE (data.take 2))) else new .null
  | 3 => if 4 ≤ data.length then new (.integer (ofIntLE (data.take 4))) else new .null
  | 4 => if 8 ≤ data.length then new (.bigInt (ofIntLE (data.take 8))) else new .null
  | 5 => if 8 ≤ data.length then new (.decimal (ofLE (data.take 8))) else new .null
  | 6 => if 4 ≤ data.length then new (.float (ofLE (data.take 4))) else new .null
  | 7 => if 8 ≤ data.length then new (.timestamp (ofLE (data.take 8))) else new .null
  | 8 => if 4 ≤ data.length then newTyped (.date (ofIntLE (data.take 4))) 8 else new .null
  | 9 => if 4 ≤ data.length then newTyped (.time (ofIntLE (data.take 4))) 9 else new .null
  | 10 => if 8 ≤ data.length then newTyped (.interval (ofIntLE (data.take 8))) 10 else new .null
  | 11 => if utf8 data then new (.varLen data) else new .null
  | 12 => if utf8 data then newTyped (.constLen data) 12 else new .null
  | 13 => newTyped (.binary data) 13
  | 14 => if utf8 data then newTyped (.json data) 14 else new .null
  | 15 => if utf8 data then newTyped (.uuid data) 15 else new .null
  | 16 => newTyped (.vector []) 16
  | 17 => newTyped (.array []) 17
  | 18 => newTyped (.enum 0 []) 18
  | 19 => if 16 ≤ data.length then newTyped (.point (ofLE (data.take 8)) (ofLE ((data.drop 8).take 8))) 19 else new .null
  | 21 => newTyped .struct 21
  | _ => new .null

end Verif.Sql
