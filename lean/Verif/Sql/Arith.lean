import Verif.Sql.Cast

/-!
# Arithmetic (`src/sql/execution/expressions/arithmetic_expression.rs`, `unary_op_expression.rs`, `Value::modulo`)

The parser builds an `ArithmeticExpression` for `+ - * /` (expression_parser.rs:424-486), a `BinaryOpExpression` for `%`
(expression_parser.rs:698, which calls `Value::modulo`) and a `UnaryOpExpression` for the unary minus.
-/

namespace Verif.Sql

open Verif.Wire Verif.Bytes

namespace Fmt

/-- The sign bit turned over. -/
def flip (f : Fmt) (x : Nat) : Nat := f.signed (!f.neg x) (f.mag x)

/-- A finite float as a signed multiple of `2 ^ e`, for `e` at most its exponent. -/
def at_ (f : Fmt) (e : Int) (x : Nat) : Int :=
  let n : Int := f.mant x * 2 ^ (f.expo x - e).toNat
  if f.neg x then - n else n

/-- IEEE addition, round to nearest, ties to even; every NaN result is given as the quiet one. -/
def add (f : Fmt) (x y : Nat) : Nat :=
  if f.nan x || f.nan y then f.quiet
  else if f.mag x = f.inf then (if f.mag y = f.inf ∧ f.neg x ≠ f.neg y then f.quiet else x)
  else if f.mag y = f.inf then y
  else
    let e := min (f.expo x) (f.expo y)
    let s := f.at_ e x + f.at_ e y
    if s = 0 then f.signed (f.neg x && f.neg y) 0 else f.signed (s < 0) (f.ofDyadic s.natAbs e)

/-- IEEE subtraction. -/
def sub (f : Fmt) (x y : Nat) : Nat := f.add x (if f.nan y then y else f.flip y)

/-- IEEE multiplication. -/
def mul (f : Fmt) (x y : Nat) : Nat :=
  let s := f.neg x != f.neg y
  if f.nan x || f.nan y then f.quiet
  else if f.mag x = f.inf ∨ f.mag y = f.inf then (if f.mag x = 0 ∨ f.mag y = 0 then f.quiet else f.signed s f.inf)
  else f.signed s (f.ofDyadic (f.mant x * f.mant y) (f.expo x + f.expo y))

/-- IEEE division: the quotient to enough bits, with a last bit telling whether anything was cut off. -/
def div (f : Fmt) (x y : Nat) : Nat :=
  let s := f.neg x != f.neg y
  if f.nan x || f.nan y then f.quiet
  else if f.mag x = f.inf then (if f.mag y = f.inf then f.quiet else f.signed s f.inf)
  else if f.mag y = f.inf then f.signed s 0
  else if f.mag y = 0 then (if f.mag x = 0 then f.quiet else f.signed s f.inf)
  else
    let k := 2 * f.m + 4
    let n := f.mant x * 2 ^ k
    let q := 2 * (n / f.mant y) + (if n % f.mant y = 0 then 0 else 1)
    f.signed s (f.ofDyadic q (f.expo x - f.expo y - k - 1))

end Fmt

-- 0.1 + 0.2, 1 - 1, 1 / 3, 1e308 * 10, 5e-324 / 2 (ties to even), 0.3 - 0.1 in single precision.
example : f64.add 0x3fb999999999999a 0x3fc999999999999a = 0x3fd3333333333334 ∧ f64.sub 0x3ff0000000000000 0x3ff0000000000000 = 0 ∧
    f64.div 0x3ff0000000000000 0x4008000000000000 = 0x3fd5555555555555 ∧ f64.mul 0x7fe1ccf385ebc8a0 0x4024000000000000 = f64.inf ∧
    f64.div 1 0x4000000000000000 = 0 ∧ f32.sub 0x3e99999a 0x3dcccccd = 0x3e4cccce := by decide +kernel

/-- `ArithmeticOp` (arithmetic_expression.rs:15-20). -/
inductive ArOp where | add | sub | mul | div
deriving DecidableEq

/-- What an arithmetic expression evaluates to: a value or one of the three errors (exception.rs `ArithmeticExpressionError`). -/
inductive ArR where
  | ok (v : Value)
  | divZero
  | overflow
  | unknown

/-- The operations on integers; Rust's `/` truncates towards zero. -/
def ArOp.onInt : ArOp → Int → Int → Int
  | .add, i, j => i + j
  | .sub, i, j => i - j
  | .mul, i, j => i * j
  | .div, i, j => Int.tdiv i j

/-- `checked_add` and its like in the integer type `t`, with the test for a zero divisor in front (arithmetic_expression.rs:145-452). -/
def checked (t : Nat) (op : ArOp) (i j : Int) : ArR :=
  if op = .div ∧ j = 0 then .divZero
  else if lo t ≤ op.onInt i j ∧ op.onInt i j ≤ hi t then .ok (intVal t (op.onInt i j))
  else .overflow

/-- The same without the test: `checked_div` itself refuses a zero divisor (arithmetic_expression.rs:767-788). -/
def checkedJoin (t : Nat) (op : ArOp) (i j : Int) : ArR :=
  if op = .div ∧ j = 0 then .overflow
  else if lo t ≤ op.onInt i j ∧ op.onInt i j ≤ hi t then .ok (intVal t (op.onInt i j))
  else .overflow

/-- The operations on floats (arithmetic_expression.rs:217-248, 455-746). -/
def onFloat (f : Fmt) (mk : Nat → Value) (op : ArOp) (x y : Nat) : ArR := match op with
  | .add => .ok (mk (f.add x y))
  | .sub => .ok (mk (f.sub x y))
  | .mul => .ok (mk (f.mul x y))
  | .div => if f.cmp y 0 = some .eq then .divZero else .ok (mk (f.div x y))

/-- A number operand: an integer with its type number, or a float. -/
inductive Operand where
  | int (t : Nat) (i : Int)
  | float (x : Nat)
  | decimal (x : Nat)

def operand (a : Value) : Option Operand := match val a with
  | .tinyInt i => some (.int 1 i)
  | .smallInt i => some (.int 2 i)
  | .integer i => some (.int 3 i)
  | .bigInt i => some (.int 4 i)
  | .decimal x => some (.decimal x)
  | .float x => some (.float x)
  | _ => none

def mkFloat (x : Nat) : Value := newTyped (.float x) 6
def mkDecimal (x : Nat) : Value := new (.decimal x)

/-- `evaluate` on two operand values (arithmetic_expression.rs:139-750). The code has one arm for each of the 36 pairs of numeric types;
the integer arms differ only in the type computed in, which is the wider of the two. -/
def arith (op : ArOp) (a b : Value) : ArR := match operand a, operand b with
  | some (.int s i), some (.int t j) => checked (max s t) op i j
  | some (.float x), some (.float y) => onFloat f32 mkFloat op x y
  | some (.decimal x), some (.decimal y) => onFloat f64 mkDecimal op x y
  | some (.int _ i), some (.float y) => onFloat f32 mkFloat op (f32.ofInt i) y
  | some (.float x), some (.int _ j) => onFloat f32 mkFloat op x (f32.ofInt j)
  | some (.int _ i), some (.decimal y) => onFloat f64 mkDecimal op (f64.ofInt i) y
  | some (.decimal x), some (.int _ j) => onFloat f64 mkDecimal op x (f64.ofInt j)
  | some (.float x), some (.decimal y) => onFloat f64 mkDecimal op (f32.convert f64 x) y
  | some (.decimal x), some (.float y) => onFloat f64 mkDecimal op x (f32.convert f64 y)
  | _, _ => .unknown

/-- `evaluate_join` on two operand values (arithmetic_expression.rs:752-872): fewer types, and one arm for an integer and a decimal in
either order, which computes with the integer on the left. -/
def arithJoin (op : ArOp) (a b : Value) : ArR := match val a, val b with
  | .integer i, .integer j => checkedJoin 3 op i j
  | .bigInt i, .bigInt j => checkedJoin 4 op i j
  | .decimal x, .decimal y => onFloat f64 mkDecimal op x y
  | .integer i, .decimal y => onFloat f64 mkDecimal op (f64.ofInt i) y
  | .decimal x, .integer j => onFloat f64 mkDecimal op (f64.ofInt j) x
  | .bigInt i, .integer j => checked 4 op i j
  | .integer i, .bigInt j => checked 4 op i j
  | .bigInt i, .decimal y => onFloat f64 mkDecimal op (f64.ofInt i) y
  | .decimal x, .bigInt j => onFloat f64 mkDecimal op (f64.ofInt j) x
  | _, _ => .unknown

/-- The outcome of code that can panic: on an integer overflow Rust panics when overflow checks are on and wraps when they are off. -/
inductive PanicR where
  | ok (v : Value)
  | err
  | overflow

/-- The unary minus (unary_op_expression.rs:89-103). -/
def negate (a : Value) : PanicR := match val a with
  | .null => .ok (new .null)
  | .tinyInt i => if -i ≤ hi 1 then .ok (new (.tinyInt (-i))) else .overflow
  | .smallInt i => if -i ≤ hi 2 then .ok (new (.smallInt (-i))) else .overflow
  | .integer i => if -i ≤ hi 3 then .ok (new (.integer (-i))) else .overflow
  | .bigInt i => if -i ≤ hi 4 then .ok (new (.bigInt (-i))) else .overflow
  | .decimal x => .ok (new (.decimal (f64.flip x)))
  | _ => .err

/-- `is_zero` (value.rs:249-275) on the operands of `modulo`. -/
def isZero (a : Value) : Bool := match val a with
  | .tinyInt i | .smallInt i | .integer i | .bigInt i => i == 0
  | .decimal x => f64.cmp x 0 == some .eq
  | .float x => f32.cmp x 0 == some .eq
  | .varLen s | .constLen s | .binary s => s.isEmpty
  | .vector vs | .array vs => vs.isEmpty
  | _ => false

/-- `modulo` (value.rs:1930-1944), for operands whose type is that of their variant: anything but two Integers gives NULL;
`i32::MIN % -1` overflows. -/
def modulo (a b : Value) : PanicR :=
  if isZero b then .ok (new .null)
  else match val a, val b with
    | .integer i, .integer j => if i = lo 3 ∧ j = -1 then .overflow else .ok (newTyped (.integer (Int.tmod i j)) 3)
    | _, _ => .ok (new .null)

-- 7 / -2 = -3, 2147483647 + 1 overflows an Integer but not a BigInt, 3 / 0, 1.5 + 1 = 2.5.
example : (match arith .div (new (.integer 7)) (new (.integer (-2))) with | .ok v => intOf v | _ => none) = some (-3) ∧
    (match arith .add (new (.integer 2147483647)) (new (.tinyInt 1)) with | .overflow => true | _ => false) = true ∧
    (match arith .add (new (.integer 2147483647)) (new (.bigInt 1)) with | .ok v => intOf v | _ => none) = some 2147483648 ∧
    (match arith .div (new (.integer 3)) (new (.smallInt 0)) with | .divZero => true | _ => false) = true ∧
    (match arith .add (new (.decimal 0x3ff8000000000000)) (new (.integer 1)) with
      | .ok v => valueEq v (new (.decimal 0x4004000000000000)) | _ => false) = true := by decide +kernel

end Verif.Sql
