import Verif.Dml.Declared

/-!
# What declared types allow

The meaning of the types in SQL and in the dialects they come from, stated without the type numbers of the code.
-/

namespace Verif.Dml

open Verif.Wire Verif.Bytes Verif.Sql

/-- What a value stands for: a truth value, a whole number, a text in UTF-8, a decimal number given by the bits of a double. -/
inductive Datum where
  | bool (b : Bool)
  | int (i : Int)
  | text (s : List Byte)
  | dec (bits : Nat)
deriving DecidableEq

def datum (v : Value) : Option Datum := match val v with
  | .boolean b => some (.bool b)
  | .tinyInt i | .smallInt i | .integer i | .bigInt i => some (.int i)
  | .varLen s | .constLen s => some (.text s)
  | .decimal x => some (.dec x)
  | _ => none

/-- The integer types: signed or not, and the number of bits. -/
def intType : SqlType → Option (Bool × Nat)
  | .tinyInt _ => some (true, 8)
  | .smallInt _ | .int2 _ | .int16 => some (true, 16)
  | .mediumInt _ => some (true, 24)
  | .int _ | .integer _ | .int4 _ | .int32 => some (true, 32)
  | .bigInt _ | .int8 _ | .int64 | .signed | .signedInteger => some (true, 64)
  | .int128 | .hugeInt => some (true, 128)
  | .int256 => some (true, 256)
  | .tinyIntUnsigned _ | .uTinyInt | .uInt8 => some (false, 8)
  | .smallIntUnsigned _ | .int2Unsigned _ | .uSmallInt | .uInt16 => some (false, 16)
  | .mediumIntUnsigned _ => some (false, 24)
  | .intUnsigned _ | .int4Unsigned _ | .integerUnsigned _ | .uInt32 => some (false, 32)
  | .bigIntUnsigned _ | .int8Unsigned _ | .uBigInt | .uInt64 | .unsigned | .unsignedInteger => some (false, 64)
  | .uInt128 | .uHugeInt => some (false, 128)
  | .uInt256 => some (false, 256)
  | _ => none

/-- The characters of a text: the bytes which do not continue one (10xxxxxx). -/
def characters (s : List Byte) : Nat := s.countP fun b => b.val / 64 ≠ 2

/-- A limit on a text. -/
inductive Limit where
  | none
  | characters (n : Nat)
  | octets (n : Nat)

def Limit.Ok : Limit → List Byte → Prop
  | .none, _ => True
  | .characters n, s => Dml.characters s ≤ n
  | .octets n, s => s.length ≤ n

def CharLen.limit : CharLen → Limit
  | .count n false => .characters n
  | .count n true => .octets n
  | .max => .none

/-- The character types: CHAR without a length is CHAR(1), the others without a length have no limit. -/
def textType : SqlType → Option Limit
  | .char l | .character l => some ((l.map (·.limit)).getD (.characters 1))
  | .varchar l | .characterVarying l | .charVarying l | .nvarchar l => some ((l.map (·.limit)).getD .none)
  | .string n | .characterLargeObject n | .charLargeObject n | .clob n => some ((n.map .characters).getD .none)
  | .fixedString n => some (.octets n)
  | .text => some .none
  | .tinyText => some (.octets (2 ^ 8 - 1))
  | .mediumText => some (.octets (2 ^ 24 - 1))
  | .longText => some (.octets (2 ^ 32 - 1))
  | _ => none

/-- The decimal types with a precision: how many digits may come before the point. -/
def wholeDigits : SqlType → Option Nat
  | .decimal (.precision p) | .numeric (.precision p) | .dec (.precision p) => some p
  | .decimal (.precisionScale p s) | .numeric (.precisionScale p s) | .dec (.precisionScale p s) => some (p - s).toNat
  | _ => none

/-- The types a column cannot have: a precision that does not fit a byte, a scale that is negative or beyond the precision, an unknown name, and the types that no column type stands for. -/
def Unsupported : SqlType → Prop
  | .decimal (.precision p) | .numeric (.precision p) | .float (.precision p) => 255 < p
  | .decimal (.precisionScale p s) | .numeric (.precisionScale p s) | .float (.precisionScale p s) => 255 < p ∨ s < 0 ∨ (p : Int) < s
  | .custom name => name.toUpper ≠ "VECTOR"
  | .regclass | .map | .tuple | .nested | .set | .union | .nullable | .lowCardinality | .unspecified | .trigger | .anyType | .table | .namedTable | .tsVector | .tsQuery => True
  | _ => False

/-- The data a type allows; none if it is not one of the types above. For a decimal only the digits before the point are limited here. -/
def Allows (t : SqlType) : Option (Datum → Prop) := match t, intType t, textType t, wholeDigits t with
  | .boolean, _, _, _ | .bool, _, _, _ => some fun d => ∃ b, d = .bool b
  | _, some (true, n), _, _ => some fun d => ∃ i : Int, d = .int i ∧ - 2 ^ (n - 1) ≤ i ∧ i < 2 ^ (n - 1)
  | _, some (false, n), _, _ => some fun d => ∃ i : Int, d = .int i ∧ 0 ≤ i ∧ i < 2 ^ n
  | _, _, some l, _ => some fun d => ∃ s, d = .text s ∧ l.Ok s
  | _, _, _, some k => some fun d => ∃ x, d = .dec x ∧ f64.cmp (f64.mag x) (f64.ofInt (10 ^ k)) = some .lt
  | _, _, _, _ => none

/-- A value as Rust holds it: NULL, or of the type of its variant with a number in the range of the machine integer which holds it. -/
def Representable (v : Value) : Prop := match val v with
  | .null => True
  | .tinyInt i => ty v = 1 ∧ - 2 ^ 7 ≤ i ∧ i < 2 ^ 7
  | .smallInt i => ty v = 2 ∧ - 2 ^ 15 ≤ i ∧ i < 2 ^ 15
  | .integer i => ty v = 3 ∧ - 2 ^ 31 ≤ i ∧ i < 2 ^ 31
  | .bigInt i => ty v = 4 ∧ - 2 ^ 63 ≤ i ∧ i < 2 ^ 63
  | .timestamp n => ty v = 7 ∧ n < 2 ^ 64
  | .date i => ty v = 8 ∧ - 2 ^ 31 ≤ i ∧ i < 2 ^ 31
  | .time i => ty v = 9 ∧ - 2 ^ 31 ≤ i ∧ i < 2 ^ 31
  | .interval i => ty v = 10 ∧ - 2 ^ 63 ≤ i ∧ i < 2 ^ 63
  | .enum i _ => ty v = 18 ∧ - 2 ^ 31 ≤ i ∧ i < 2 ^ 31
  | w => ty v = tag w

/-- A column of a type number can hold a datum. -/
def CanHold (id : Nat) (d : Datum) : Prop := ∃ v, Representable v ∧ ty v = id ∧ datum v = some d

/-- The types which the code takes for what they are: booleans, the signed integers of 8, 16, 32 and 64 bits, texts without a limit. -/
def Exact (t : SqlType) : Prop := t = .boolean ∨ t = .bool ∨ (∃ n ∈ [8, 16, 32, 64], intType t = some (true, n) ∧ t ≠ .signed ∧ t ≠ .signedInteger) ∨ textType t = some .none

/-- The values written in an expression. -/
def Literals (P : Value → Prop) : Expr → Prop := fun e => go e
where
  go : Expr → Prop
  | .col _ _ => True
  | .lit v => P v
  | .arith _ a b | .modulo a b | .concat a b | .cmp _ a b | .and a b | .or a b | .distinct _ a b | .inList _ a b | .any _ a b | .all _ a b => go a ∧ go b
  | .not a | .neg a | .is _ _ a => go a
  | .between _ a b c => go a ∧ go b ∧ go c
  | .coalesce es | .array es => gos es
  | .caseWhen arms => goArms arms
  | .caseOf b arms => go b ∧ goArms arms
  gos : Exprs → Prop
  | .nil => True
  | .cons e es => go e ∧ gos es
  goArms : Arms → Prop
  | .els e => go e
  | .when c t rest => go c ∧ go t ∧ goArms rest

end Verif.Dml
