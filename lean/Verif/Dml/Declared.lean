import Verif.Dml.Model

/-!
# Declared column types (`src/sql/planner/schema_manager.rs`)

What CREATE TABLE makes of the type written for a column. Constraints are modelled in `Verif.Catalog` and `Verif.Dml.Model`.
-/

namespace Verif.Dml

open Verif.Wire Verif.Bytes Verif.Sql Verif.Exec

/-- `CharacterLength` of the parser: a number with its unit, octets if the flag is set, or MAX. -/
inductive CharLen where
  | count (n : Nat) (octets : Bool)
  | max
deriving DecidableEq

/-- `ExactNumberInfo` of the parser. -/
inductive NumInfo where
  | none
  | precision (p : Nat)
  | precisionScale (p : Nat) (s : Int)
deriving DecidableEq

/-- `DataType` of the parser, the variants named in `convert_sql_type` (schema_manager.rs:875-1005) in the same order. A number is a display width or a length; the parts of
nested types, time zones and precisions of times, which nothing reads, are left out. -/
inductive SqlType where
  | boolean | bool | tinyInt (n : Option Nat) | smallInt (n : Option Nat) | int (n : Option Nat) | integer (n : Option Nat) | bigInt (n : Option Nat)
  | decimal (e : NumInfo) | float (e : NumInfo) | varchar (l : Option CharLen) | string (n : Option Nat) | text | char (l : Option CharLen) | array
  | timestamp | character (l : Option CharLen) | characterVarying (l : Option CharLen) | charVarying (l : Option CharLen)
  | nvarchar (l : Option CharLen) | characterLargeObject (n : Option Nat) | charLargeObject (n : Option Nat) | clob (n : Option Nat)
  | binary (n : Option Nat) | varbinary (n : Option Nat) | blob (n : Option Nat) | tinyBlob | mediumBlob | longBlob | bytes (n : Option Nat)
  | numeric (e : NumInfo) | bigNumeric (e : NumInfo) | bigDecimal (e : NumInfo) | dec (e : NumInfo) | tinyIntUnsigned (n : Option Nat) | uTinyInt
  | int2 (n : Option Nat) | int2Unsigned (n : Option Nat) | smallIntUnsigned (n : Option Nat) | uSmallInt | mediumInt (n : Option Nat)
  | mediumIntUnsigned (n : Option Nat) | int4 (n : Option Nat) | int8 (n : Option Nat) | int16 | int32 | int64 | int128 | int256
  | intUnsigned (n : Option Nat) | int4Unsigned (n : Option Nat) | integerUnsigned (n : Option Nat) | hugeInt | uHugeInt | uInt8 | uInt16 | uInt32
  | uInt64 | uInt128 | uInt256 | bigIntUnsigned (n : Option Nat) | uBigInt | int8Unsigned (n : Option Nat) | signed | signedInteger | unsigned
  | unsignedInteger | float4 | float32 | float64 | real | float8 | double (e : NumInfo) | doublePrecision | date | date32 | time | datetime
  | datetime64 | timestampNtz | interval | json | jsonb | uuid | regclass | tinyText | mediumText | longText | fixedString (n : Nat) | bytea | bit
  | bitVarying | varBit | custom (name : String) | map | tuple | nested | enum | set | struct | union | nullable | lowCardinality | unspecified
  | trigger | anyType | geometricType | table | namedTable | tsVector | tsQuery | decimalUnsigned (e : NumInfo) | decUnsigned (e : NumInfo)
  | floatUnsigned (e : NumInfo) | realUnsigned | doubleUnsigned (e : NumInfo) | doublePrecisionUnsigned
deriving DecidableEq

/-- `convert_sql_type` (schema_manager.rs:874-1006): the number of the `TypeId`, or none for an error. -/
def convertType : SqlType → Option Nat
  | .boolean | .bool => some 0
  | .tinyInt _ => some 1
  | .smallInt _ => some 2
  | .int _ | .integer _ => some 3
  | .bigInt _ => some 4
  | .decimal _ => some 5
  | .float _ => some 6
  | .varchar _ | .string _ | .text | .char _ => some 11
  | .array => some 16
  | .timestamp => some 7
  | .character _ => some 12
  | .characterVarying _ | .charVarying _ | .nvarchar _ | .characterLargeObject _ | .charLargeObject _ | .clob _ => some 11
  | .binary _ | .varbinary _ | .blob _ | .tinyBlob | .mediumBlob | .longBlob | .bytes _ => some 13
  | .numeric _ | .bigNumeric _ | .bigDecimal _ | .dec _ => some 5
  | .tinyIntUnsigned _ | .uTinyInt => some 1
  | .int2 _ | .int2Unsigned _ | .smallIntUnsigned _ | .uSmallInt => some 2
  | .mediumInt _ | .mediumIntUnsigned _ | .int4 _ => some 3
  | .int8 _ => some 4
  | .int16 => some 2
  | .int32 => some 3
  | .int64 | .int128 | .int256 => some 4
  | .intUnsigned _ | .int4Unsigned _ | .integerUnsigned _ => some 3
  | .hugeInt | .uHugeInt => some 4
  | .uInt8 => some 1
  | .uInt16 => some 2
  | .uInt32 => some 3
  | .uInt64 | .uInt128 | .uInt256 | .bigIntUnsigned _ | .uBigInt | .int8Unsigned _ => some 4
  | .signed | .signedInteger | .unsigned | .unsignedInteger => some 3
  | .float4 | .float32 => some 6
  | .float64 => some 5
  | .real => some 6
  | .float8 | .double _ | .doublePrecision => some 5
  | .date | .date32 => some 8
  | .time => some 9
  | .datetime | .datetime64 | .timestampNtz => some 7
  | .interval => some 10
  | .json | .jsonb => some 14
  | .uuid => some 15
  | .regclass => none
  | .tinyText | .mediumText | .longText => some 11
  | .fixedString _ => some 12
  | .bytea | .bit | .bitVarying | .varBit => some 13
  | .custom name => if name.toUpper = "VECTOR" then some 16 else none
  | .map | .tuple | .nested => none
  | .enum => some 18
  | .set => none
  | .struct => some 21
  | .union | .nullable | .lowCardinality | .unspecified | .trigger | .anyType => none
  | .geometricType => some 19
  | .table | .namedTable | .tsVector | .tsQuery => none
  | .decimalUnsigned _ | .decUnsigned _ => some 5
  | .floatUnsigned _ | .realUnsigned => some 6
  | .doubleUnsigned _ | .doublePrecisionUnsigned => some 5

/-- `extract_precision_scale` (schema_manager.rs:759-799). -/
def extractPrecisionScale : NumInfo → Option (Option Nat × Option Nat)
  | .none => some (none, none)
  | .precision p => if 255 < p then none else some (some p, none)
  | .precisionScale p s =>
    if 255 < p then none
    else if s < 0 ∨ 255 < s then none
    else if p < s.toNat then none
    else some (some p, some s.toNat)

/-- What a column keeps of its declared type (column.rs:382-404): `len` is the length given to the builder. -/
structure Declared where
  ty : Nat
  len : Option Nat := none
  precision : Option Nat := none
  scale : Option Nat := none
deriving DecidableEq

/-- `create_column_from_sql_type_with_constraints` (schema_manager.rs:596-742) after `convert_sql_type`, with `from_sql_info` (column.rs:496-548): the constraints are left out. -/
def declare (t : SqlType) : Option Declared := (convertType t).bind fun id => match t with
  | .decimal e | .numeric e => (extractPrecisionScale e).map fun x => { ty := id, precision := x.1, scale := x.1.bind fun _ => x.2 }
  | .float e => (extractPrecisionScale e).map fun x => { ty := id, precision := x.1 }
  | .varchar _ | .string _ => some { ty := id, len := some 255 }
  | .char _ => some { ty := id, len := some 1 }
  | .binary _ | .varbinary _ | .blob _ => some { ty := id, len := some 255 }
  | .array => some { ty := id, len := some 1024 }
  | _ => some { ty := id }

/-- `convert_column_defs` (schema_manager.rs:415-451): the first error is returned. -/
def declareAll : List (String × SqlType) → Option (List Column)
  | [] => some []
  | (n, t) :: ds => (declare t).bind fun x => (declareAll ds).map ({ name := n, ty := x.ty, len := x.len } :: ·)

end Verif.Dml
