import Verif.Sql.CastExpr

/-!
# CONVERT, TRY_CONVERT and COLLATE (`convert_expression.rs`, `collate_expression.rs`)
-/

namespace Verif.Sql

open Verif.Wire Verif.Bytes

/-- The type number of a CONVERT; `none` is "Unsupported conversion target type" (expression_parser.rs:1022-1034). -/
def convertTarget : SqlType → Option Nat
  | .int => some 3
  | .bigint => some 4
  | .float => some 5
  | .double => some 5
  | .decimal _ _ => some 5
  | .char _ => some 12
  | .varchar _ => some 11
  | .boolean => some 0
  | _ => none

/-- `ConvertExpression::evaluate` and `evaluate_join` on the value of the operand (convert_expression.rs:48-78, 80-117). The styles are never
looked at. -/
def convertValue (isTry : Bool) (charset : Option String) (target : Option Nat) (a : Value) : Res := match charset with
  | some c => if c.toLower = "utf8" ∨ c.toLower = "utf8mb4" then .ok a else .err
  | none => match target with
    | none => .ok a
    | some t => match castTo a t with
      | .ok v => .ok v
      | .out => .out
      | .err => if isTry then .ok (newTyped .null t) else .err

/-- What is written after the comma of a CONVERT. -/
inductive ConvertTo where
  | type (s : SqlType)
  | charset (c : String)

/-- `Expr::Convert` (expression_parser.rs:1010-1067) and its evaluation. -/
def evalConvert (j isTry : Bool) (ρ : Env) (e : Expr) : ConvertTo → Res
  | .charset c => (eval j ρ e).bind (convertValue isTry (some c) none)
  | .type s => match convertTarget s with
    | none => .err
    | some t => (eval j ρ e).bind (convertValue isTry none (some t))

/-- `Expr::Collate` (expression_parser.rs:1682-1690) and `CollateExpression::evaluate` (collate_expression.rs:34-38, 40-51): the collation is
never looked at. -/
def evalCollate (j : Bool) (ρ : Env) (e : Expr) (_collation : String) : Res := eval j ρ e

end Verif.Sql
