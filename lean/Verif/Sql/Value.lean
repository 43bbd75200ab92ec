import Verif.Wire.Value
import Verif.Sql.Float

/-!
# SQL values: equality, order, hash, comparison operators, casts (`src/types_db/value.rs`)

The values are those of `Verif.Wire.Value`. A `TypeId` is its number (type_id.rs:12-36), and the variants of `Val` are declared in the
same order as the types they belong to, so that one number serves for both: 0 Boolean, 1 TinyInt, 2 SmallInt, 3 Integer, 4 BigInt,
5 Decimal, 6 Float, 7 Timestamp, 8 Date, 9 Time, 10 Interval, 11 VarChar, 12 Char, 13 Binary, 14 JSON, 15 UUID, 16 Vector, 17 Array,
18 Enum, 19 Point, 20 Invalid (`Val::Null`), 21 Struct.
-/

namespace Verif.Sql

open Verif.Wire Verif.Bytes

/-- The position of the variant in `enum Val` (value.rs:11-34), and the type `Value::new` gives it (value.rs:53-86). -/
def tag : Val → Nat
  | .boolean _ => 0 | .tinyInt _ => 1 | .smallInt _ => 2 | .integer _ => 3 | .bigInt _ => 4 | .decimal _ => 5 | .float _ => 6
  | .timestamp _ => 7 | .date _ => 8 | .time _ => 9 | .interval _ => 10 | .varLen _ => 11 | .constLen _ => 12 | .binary _ => 13
  | .json _ => 14 | .uuid _ => 15 | .vector _ => 16 | .array _ => 17 | .enum _ _ => 18 | .point _ _ => 19 | .null => 20 | .struct => 21

/-- `value_`, `type_id_`, `struct_data`. -/
def val : Value → Val | .mk v _ _ _ _ => v
def ty : Value → Nat | .mk _ _ _ t _ => t
def fieldsOf : Value → Option (List Value) | .mk _ _ _ _ fs => fs

/-- `is_null` (value.rs:176-178). -/
def isNull (a : Value) : Bool := match val a with | .null => true | _ => false

/-- `get_type_size` (types.rs:339-353). -/
def typeSize : Nat → Nat
  | 0 | 1 => 1 | 2 => 2 | 3 | 6 | 8 | 9 => 4 | 4 | 5 | 7 | 10 => 8 | 15 => 16 | 16 | 17 => 8 | 18 => 4 | 19 => 16 | 21 => 8 | _ => 0

/-- `Value::new_with_type` (value.rs:204-242). -/
def newTyped (v : Val) (t : Nat) : Value := .mk v (.length (typeSize t)) false t none
/-- `Value::new` (value.rs:53-86). -/
def new (v : Val) : Value := newTyped v (tag v)

/-- What `new_with_type` asserts (value.rs:207-234): a value that is not NULL carries the type of its variant. -/
def Typed (a : Value) : Prop := isNull a = true ∨ ty a = tag (val a)

instance (a : Value) : Decidable (Typed a) := inferInstanceAs (Decidable (_ ∨ _))

/-! ## The derived `PartialEq` and `PartialOrd` of `Val`, and the ones written out for `Value` -/

/-- The payload of a variant whose derived comparison is the lexicographic one on the numbers it holds: `bool`, an integer, the bytes
of a `String` or `Vec<u8>`, or an integer followed by a string. -/
def atoms : Val → List Int
  | .boolean b => [if b then 1 else 0]
  | .tinyInt i | .smallInt i | .integer i | .bigInt i | .date i | .time i | .interval i => [i]
  | .timestamp n => [(n : Int)]
  | .varLen s | .constLen s | .binary s | .json s | .uuid s => s.map fun b => (b.val : Int)
  | .enum i s => i :: s.map fun b => (b.val : Int)
  | _ => []

/-- Lexicographic order, a proper prefix coming first. -/
def lexCmp : List Int → List Int → Ordering
  | [], [] => .eq
  | [], _ :: _ => .lt
  | _ :: _, [] => .gt
  | a :: as, b :: bs => match compare a b with
    | .eq => lexCmp as bs
    | o => o

/-- One comparison, then the next if the first says equal. -/
def thenCmp (a : Option Ordering) (b : Option Ordering) : Option Ordering := match a with
  | some .eq => b
  | o => o

mutual
/-- The derived `==` of `Val` (value.rs:10). -/
def valEq : Val → Val → Bool
  | .decimal a, .decimal b => f64.cmp a b == some .eq
  | .float a, .float b => f32.cmp a b == some .eq
  | .point a b, .point c d => f64.cmp a c == some .eq && f64.cmp b d == some .eq
  | .vector a, .vector b => valuesEq a b
  | .array a, .array b => valuesEq a b
  | a, b => tag a == tag b && atoms a == atoms b
termination_by structural x => x

/-- `PartialEq for Value` (value.rs:2310-2333). -/
def valueEq : Value → Value → Bool
  | .mk v _ _ t fs, .mk v' _ _ t' fs' => match v, v' with
    | .null, .null => true
    | .decimal a, .decimal b => t == t' && f64.canon a == f64.canon b
    | .float a, .float b => t == t' && f32.canon a == f32.canon b
    | .point a b, .point c d => t == t' && (f64.canon a == f64.canon c && f64.canon b == f64.canon d)
    | .struct, .struct => t == t' && fieldsEq fs fs'
    | a, b => t == t' && valEq a b
termination_by structural x => x

/-- `==` of `Option<Vec<Value>>`. -/
def fieldsEq : Option (List Value) → Option (List Value) → Bool
  | none, none => true
  | some a, some b => valuesEq a b
  | _, _ => false
termination_by structural x => x

/-- `==` of `Vec<Value>`. -/
def valuesEq : List Value → List Value → Bool
  | [], [] => true
  | a :: as, b :: bs => valueEq a b && valuesEq as bs
  | _, _ => false
termination_by structural x => x
end

mutual
/-- The derived `partial_cmp` of `Val` (value.rs:10): variants in the order of their declaration, then the payloads. -/
def valCmp : Val → Val → Option Ordering
  | .decimal a, .decimal b => f64.cmp a b
  | .float a, .float b => f32.cmp a b
  | .point a b, .point c d => thenCmp (f64.cmp a c) (f64.cmp b d)
  | .vector a, .vector b => valuesCmp a b
  | .array a, .array b => valuesCmp a b
  | a, b => if tag a = tag b then some (lexCmp (atoms a) (atoms b)) else some (compare (tag a) (tag b))
termination_by structural x => x

/-- `PartialOrd for Value` (value.rs:2337-2369). -/
def valueCmp : Value → Value → Option Ordering
  | .mk v s m t fs, .mk v' s' m' t' fs' =>
    if valueEq (.mk v s m t fs) (.mk v' s' m' t' fs') then some .eq
    else if isNull (.mk v s m t fs) then some .lt
    else if isNull (.mk v' s' m' t' fs') then some .gt
    else if t ≠ t' then some (compare t t')
    else match v, v' with
      | .struct, .struct => fieldsCmp fs fs'
      | a, b => valCmp a b
termination_by structural x => x

/-- `partial_cmp` of `Option<Vec<Value>>`. -/
def fieldsCmp : Option (List Value) → Option (List Value) → Option Ordering
  | none, none => some .eq
  | none, some _ => some .lt
  | some _, none => some .gt
  | some a, some b => valuesCmp a b
termination_by structural x => x

/-- `partial_cmp` of `Vec<Value>`. -/
def valuesCmp : List Value → List Value → Option Ordering
  | [], [] => some .eq
  | [], _ :: _ => some .lt
  | _ :: _, [] => some .gt
  | a :: as, b :: bs => thenCmp (valueCmp a b) (valuesCmp as bs)
termination_by structural x => x
end

mutual
/-- What `Hash for Value` feeds the hasher (value.rs:2371-2425), one number for each primitive written; a string is its bytes and a
terminator, a byte vector its length and its bytes. -/
def hashIn : Value → List Int
  | .mk v _ _ t fs => match v with
    | .null => [0]
    | .struct => (t : Int) :: hashFields fs
    | .decimal x => [(t : Int), (f64.canon x : Int)]
    | .float x => [(t : Int), (f32.canon x : Int)]
    | .point x y => [(t : Int), (f64.canon x : Int), (f64.canon y : Int)]
    | .vector vs => (t : Int) :: (vs.length : Int) :: hashIns vs
    | .array vs => (t : Int) :: (vs.length : Int) :: hashIns vs
    | .binary s => (t : Int) :: (s.length : Int) :: atoms (.binary s)
    | .varLen s => (t : Int) :: atoms (.varLen s) ++ [255]
    | .constLen s => (t : Int) :: atoms (.constLen s) ++ [255]
    | .json s => (t : Int) :: atoms (.json s) ++ [255]
    | .uuid s => (t : Int) :: atoms (.uuid s) ++ [255]
    | .enum i s => (t : Int) :: atoms (.enum i s) ++ [255]
    | v => (t : Int) :: atoms v
termination_by structural x => x

def hashFields : Option (List Value) → List Int
  | some vs => (vs.length : Int) :: hashIns vs
  | none => [0]
termination_by structural x => x

def hashIns : List Value → List Int
  | [] => []
  | v :: vs => hashIn v ++ hashIns vs
termination_by structural x => x
end

/-! ## The SQL comparison operators -/

/-- `CmpBool` (types.rs:14-18). -/
inductive Tri where | f | t | n
  deriving DecidableEq, Repr

/-- `CmpBool::from(bool)`. -/
def Tri.of (b : Bool) : Tri := if b then .t else .f

/-- The six comparisons of `Type` (types.rs:184-189). -/
inductive CmpOp where | eq | ne | lt | le | gt | ge
  deriving DecidableEq, Repr

/-- Whether Rust's operator holds, from `partial_cmp`. -/
def CmpOp.holds : CmpOp → Option Ordering → Bool
  | .eq, o => o == some .eq
  | .ne, o => o != some .eq
  | .lt, o => o == some .lt
  | .le, o => o == some .lt || o == some .eq
  | .gt, o => o == some .gt
  | .ge, o => o == some .gt || o == some .eq

/-- Whether the operator is one of the four orderings. -/
def CmpOp.ordering : CmpOp → Bool
  | .eq | .ne => false
  | _ => true

/-- A number: the payload of the six numeric variants. -/
inductive Num where
  | int (i : Int)
  | dec (x : Nat)
  | flt (x : Nat)

def num : Val → Option Num
  | .tinyInt i | .smallInt i | .integer i | .bigInt i => some (.int i)
  | .decimal x => some (.dec x)
  | .float x => some (.flt x)
  | _ => none

/-- The mixed numeric rows of the six functions (value.rs:1317-1351, 1367-1401, 1423-1456, 1475-1508, 1528-1562, 1580-1614). An integer is
widened to the other's integer type or converted to the other's float type. A `Float` and a `Decimal` meet as `f64`, except in
`Float <= Decimal` (1505) and `Float >= Decimal` (1613), which convert the `Decimal` to `f32`. -/
def numCmp (op : CmpOp) : Num → Num → Option Ordering
  | .int a, .int b => some (compare a b)
  | .int a, .dec b => f64.cmp (f64.ofInt a) b
  | .int a, .flt b => f32.cmp (f32.ofInt a) b
  | .dec a, .int b => f64.cmp a (f64.ofInt b)
  | .dec a, .dec b => f64.cmp a b
  | .dec a, .flt b => f64.cmp a (f32.convert f64 b)
  | .flt a, .int b => f32.cmp a (f32.ofInt b)
  | .flt a, .dec b => if op = .le ∨ op = .ge then f32.cmp a (f64.convert f32 b) else f64.cmp (f32.convert f64 a) b
  | .flt a, .flt b => f32.cmp a b

/-- The last row of each function (value.rs:1352-1360, 1402-1410, 1457-1465, 1509-1517, 1564-1572, 1615-1623). -/
def sameType (op : CmpOp) (a b : Value) : Tri :=
  if ty a ≠ ty b then .of (op == .ne)
  else match op with
    | .eq => .of (valEq (val a) (val b))
    | .ne => .of (!valEq (val a) (val b))
    | op => .of (op.holds (valCmp (val a) (val b)))

/-- Vectors and arrays. -/
def isSeq (a : Value) : Bool := match val a with | .vector _ | .array _ => true | _ => false

/-- `compare_equals`, `compare_not_equals`, `compare_less_than`, `compare_less_than_equals`, `compare_greater_than`,
`compare_greater_than_equals` (value.rs:1312-1626). The rows for two numbers of different variants come before the last row; two `Float`s
have a row too, in all functions but `compare_less_than`. -/
def compareOp (op : CmpOp) (a b : Value) : Tri :=
  if isNull a || isNull b then .n
  else if op.ordering && (isSeq a || isSeq b) then .f
  else match num (val a), num (val b) with
    | some x, some y =>
      if tag (val a) ≠ tag (val b) ∨ (tag (val a) = 6 ∧ op ≠ .lt) then .of (op.holds (numCmp op x y)) else sameType op a b
    | _, _ => sameType op a b

end Verif.Sql
