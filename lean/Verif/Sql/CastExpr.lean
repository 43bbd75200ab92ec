import Verif.Sql.Expr

/-!
# `CAST` and function calls (`cast_expression.rs`, `function_expression.rs`)

Both take the values of their operands; the operands themselves are expressions (`Expr`). They are not cases of `Expr`, so an expression with a
`CAST` or a call inside another operator is outside `eval`.
-/

namespace Verif.Sql

open Verif.Wire Verif.Bytes

/-- `d.round() as i32` and the like for the integer type from `lo` to `hi`: `f64::round` goes to the nearest whole number, halves away from
zero; the result of `round` is exact, so adding a half of the last unit kept and cutting off is the same. -/
def Fmt.roundInt (f : Fmt) (lo hi : Int) (x : Nat) : Int :=
  if f.nan x then 0
  else if f.mag x = f.inf then (if f.neg x then lo else hi)
  else
    let t : Nat := if 0 ≤ f.expo x then f.mant x * 2 ^ (f.expo x).toNat
      else (2 * f.mant x + 2 ^ (- f.expo x).toNat) / (2 * 2 ^ (- f.expo x).toNat)
    max lo (min hi (if f.neg x then - (t : Int) else t))

/-- The type names a `CAST` may name, with the length or precision in brackets (expression_parser.rs:886-896). -/
inductive SqlType where
  | int | bigint | float | double | decimal (p s : Option Nat)
  | char (n : Option Nat) | varchar (n : Option Nat) | boolean
  | smallint | tinyint | timestamp | date | time | text
  deriving DecidableEq

/-- The type number the parser gives to `CastExpression::new`; `none` is "Unsupported cast target type" (expression_parser.rs:886-896). The
length and precision are dropped. -/
def castTarget : SqlType → Option Nat
  | .int => some 3
  | .bigint => some 4
  | .float => some 5
  | .double => some 5
  | .decimal _ _ => some 5
  | .char _ => some 12
  | .varchar _ => some 11
  | .boolean => some 0
  | _ => none

/-- `CastExpression::evaluate` on the operand's value (cast_expression.rs:68-152), for a value whose type is the one of its variant.
`apply_format` (44-64) changes only a value that is not of the target type, which there is none of. -/
def castValue (t : Nat) (a : Value) : Res :=
  if isNull a then .ok (newTyped .null t)
  else match ty a, t, val a with
    | 5, 3, .decimal d => .ok (newTyped (.integer (f64.roundInt (lo 3) (hi 3) d)) 3)
    | 5, 3, _ => .err
    | 3, 5, .integer i => .ok (newTyped (.decimal (f64.ofInt i)) 5)
    | 3, 5, _ => .err
    | 3, 4, .integer i => .ok (newTyped (.bigInt i) 4)
    | 3, 4, _ => .err
    | 11, 12, .varLen s => .ok (newTyped (.constLen s) 12)
    | 11, 12, _ => .err
    | 12, 11, .constLen s => .ok (newTyped (.varLen s) 11)
    | 12, 11, _ => .err
    | s, t, _ => if s = t then .ok a else .err

/-- `CastExpression::evaluate_join` on the operand's value (cast_expression.rs:154-167): `Value::cast_to`. -/
def castValueJoin (t : Nat) (a : Value) : Res := match castTo a t with
  | .ok v => .ok v
  | .err => .err
  | .out => .out

/-- `CAST(e AS ty)`: a type that is refused is an error of the statement, here the same outcome as an error of the evaluation. -/
def evalCast (j : Bool) (ρ : Env) (e : Expr) (s : SqlType) : Res := match castTarget s with
  | none => .err
  | some t => (eval j ρ e).bind fun v => if j then castValueJoin t v else castValue t v

/-- `str::to_lowercase` and `str::to_uppercase` on ASCII text; other text is not modelled. -/
def recase (upper : Bool) (s : List Byte) : Option (List Byte) :=
  if s.all (·.val < 128) then
    some (s.map fun b =>
      if upper then (if 97 ≤ b.val ∧ b.val ≤ 122 then Fin.ofNat 256 (b.val - 32) else b)
      else (if 65 ≤ b.val ∧ b.val ≤ 90 then Fin.ofNat 256 (b.val + 32) else b))
  else none

/-- One of the two functions on the values of its arguments (function_expression.rs:114-151, the same at 179-216). -/
def recaseCall (upper : Bool) (args : List Value) : Res := match args with
  | [a] => if isNull a then .ok (new .null)
    else match val a with
      | .varLen s | .constLen s => (match recase upper s with
        | some r => .ok (new (.varLen r))
        | none => .out)
      | _ => .err
  | _ => .err

/-- `FunctionExpression::evaluate` and `evaluate_join` on the values of the arguments (function_expression.rs:105-222): the name in upper
case decides. -/
def callFn (name : String) (args : List Value) : Res :=
  if name.toUpper = "LOWER" then recaseCall false args
  else if name.toUpper = "UPPER" then recaseCall true args
  else .err

/-- The values of the arguments from left to right, or the first outcome that is not a value (function_expression.rs:107-110). -/
def evalArgs (j : Bool) (ρ : Env) : List Expr → List Value ⊕ Res
  | [] => .inl []
  | e :: es => match eval j ρ e with
    | .ok v => (match evalArgs j ρ es with
      | .inl vs => .inl (v :: vs)
      | .inr r => .inr r)
    | r => .inr r

/-- `name(args)`, a scalar function. -/
def evalCall (j : Bool) (ρ : Env) (name : String) (args : List Expr) : Res := match evalArgs j ρ args with
  | .inl vs => callFn name vs
  | .inr r => r

end Verif.Sql
