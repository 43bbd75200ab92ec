import Verif.Sql.Expr

/-!
# Reading expressions (`ExpressionParser::parse_expression`, `src/sql/execution/expression_parser.rs:298-2253`)

From the syntax tree of sqlparser to an expression with its return type. Here columns, literals, `+ - * /`, `||`, comparisons, AND, OR, NOT, unary minus, the IS tests, BETWEEN,
IN with a list, and CASE with conditions; parentheses leave no trace (expression_parser.rs:916-919). A column is given by its index, see `Verif.Plan.Select` for names. Types are
numbers as in `tag`; 20 is `Invalid`, the type of NULL.
-/

namespace Verif.Sql

open Verif.Wire Verif.Bytes

mutual
/-- `sqlparser::ast::Expr`. A number is one without a decimal point. -/
inductive Ast where
  | col (i : Nat)
  | num (n : Nat)
  | str (s : List Byte)
  | bool (b : Bool)
  | null
  | arith (op : ArOp) (a b : Ast)
  | concat (a b : Ast)
  | cmp (op : CmpOp) (a b : Ast)
  | and (a b : Ast)
  | or (a b : Ast)
  | not (a : Ast)
  | neg (a : Ast)
  | is (c : Check) (negated : Bool) (a : Ast)
  | between (negated : Bool) (a l h : Ast)
  | inList (negated : Bool) (a : Ast) (items : Asts)
  | caseWhen (arms : AstArms)
/-- The items of a list. -/
inductive Asts where
  | nil
  | cons (a : Ast) (as : Asts)
/-- `WHEN c THEN t ... [ELSE e] END`. -/
inductive AstArms where
  | fin
  | els (a : Ast)
  | when (c t : Ast) (rest : AstArms)
end

/-- The outcome of parsing: a result, an error, or a cast that is not modelled. -/
inductive PR (α : Type) where
  | ok (x : α)
  | err
  | out

/-- Rust's `?`. -/
def PR.bind {α β : Type} (r : PR α) (k : α → PR β) : PR β := match r with
  | .ok x => k x
  | .err => .err
  | .out => .out

/-- The numeric types. -/
def numeric (t : Nat) : Bool := 1 ≤ t && t ≤ 6

/-- `ArithmeticExpression::infer_return_type` (arithmetic_expression.rs:56-135), on two numeric types: it has a row for each pair. -/
def arithTy (s t : Nat) : Nat := if s ≤ 4 ∧ t ≤ 4 then max s t else if s = 5 ∨ t = 5 then 5 else 6

/-- The types that are compared as they are (expression_parser.rs:538-566). -/
def comparable (s t : Nat) : Bool := s == t || (numeric s && numeric t) || ((s == 11 || s == 12) && (t == 11 || t == 12)) || ((s == 7 || s == 8) && (t == 7 || t == 8))

/-- A literal or constant brought to a type (expression_parser.rs:571-647). -/
def castLit (v : Value) (t : Nat) : PR Expr := match castTo v t with
  | .ok w => .ok (.lit w)
  | .err => .err
  | .out => .out

/-- The comparison operators (expression_parser.rs:527-696). -/
def parseCmp (op : CmpOp) (a b : Expr × Nat) : PR (Expr × Nat) :=
  if comparable a.2 b.2 then .ok (.cmp op a.1 b.1, 0)
  else match b.1 with
    | .lit v => (castLit v a.2).bind fun b' => .ok (.cmp op a.1 b', 0)
    | _ => match a.1 with
      | .lit v => (castLit v b.2).bind fun a' => .ok (.cmp op a' b.1, 0)
      | _ => .err

/-- `CaseExpression::determine_return_type` (case_expression.rs:67-92): the results must all have one type. -/
def caseTy : List Nat → Option Nat
  | [] => none
  | t :: ts => if ts.all (· == t) then some t else none

mutual
/-- `parse_expression` (expression_parser.rs:298-2253): columns 301-319; literals 414-416 with `LiteralValueExpression::new` (literal_value_expression.rs:27-76); arithmetic 424-486;
AND and OR 488-525; comparisons 527-696; `||` 698-703 with `BinaryOpExpression::infer_return_type` (binary_op_expression.rs:123-128); NOT and minus 707-712 with
`UnaryOpExpression::new` (unary_op_expression.rs:23-69); IS 714-784; BETWEEN 786-834; IN 1277-1492; CASE 838-877 with `CaseExpression::new` (case_expression.rs:30-92).
`ts` are the types of the columns. -/
def parse (ts : List Nat) : Ast → PR (Expr × Nat)
  | .col i => (match ts[i]? with
    | some t => .ok (.col 0 i, t)
    | none => .err)
  | .num n => (match numberLit n with
    | some (.lit v) => .ok (.lit v, ty v)
    | _ => .err)
  | .str s => .ok (.lit (new (.varLen s)), 11)
  | .bool b => .ok (.lit (new (.boolean b)), 0)
  | .null => .ok (.lit (new .null), 20)
  | .arith op a b => (parse ts a).bind fun x => (parse ts b).bind fun y =>
    if numeric x.2 && numeric y.2 then .ok (.arith op x.1 y.1, arithTy x.2 y.2) else .err
  | .concat a b => (parse ts a).bind fun x => (parse ts b).bind fun y => if x.2 = 11 ∧ y.2 = 11 then .ok (.concat x.1 y.1, 11) else .err
  | .cmp op a b => (parse ts a).bind fun x => (parse ts b).bind fun y => parseCmp op x y
  | .and a b => (parse ts a).bind fun x => (parse ts b).bind fun y => if x.2 = 0 ∧ y.2 = 0 then .ok (.and x.1 y.1, 0) else .err
  | .or a b => (parse ts a).bind fun x => (parse ts b).bind fun y => if x.2 = 0 ∧ y.2 = 0 then .ok (.or x.1 y.1, 0) else .err
  | .not a => (parse ts a).bind fun x => if x.2 = 0 ∨ x.2 = 20 then .ok (.not x.1, 0) else .err
  | .neg a => (parse ts a).bind fun x => if x.2 = 20 then .ok (.neg x.1, 3) else if 1 ≤ x.2 ∧ x.2 ≤ 5 then .ok (.neg x.1, x.2) else .err
  | .is c n a => (parse ts a).bind fun x => .ok (.is c n x.1, 0)
  | .between n a l h => (parse ts a).bind fun x => (parse ts l).bind fun y => (parse ts h).bind fun z => .ok (parseBetween n x.1 y.1 z.1, 0)
  | .inList n a items => (parse ts a).bind fun x => (parseItems ts items).bind fun ys => .ok (parseIn n x.2 x.1 ys, 0)
  | .caseWhen arms => (parseArms ts arms).bind fun x => match x.1, caseTy x.2 with
    | .when c t rest, some u => .ok (.caseWhen (.when c t rest), u)
    | _, _ => .err
termination_by structural a => a

/-- The items of a list (expression_parser.rs:1290-1476). -/
def parseItems (ts : List Nat) : Asts → PR (List Expr)
  | .nil => .ok []
  | .cons a as => (parse ts a).bind fun x => (parseItems ts as).bind fun ys => .ok (x.1 :: ys)
termination_by structural a => a

/-- The arms of a CASE with the types of the results (expression_parser.rs:854-877). A missing ELSE is NULL and has no type (case_expression.rs:76-78, 150-157). -/
def parseArms (ts : List Nat) : AstArms → PR (Arms × List Nat)
  | .fin => .ok (.els (.lit (new .null)), [])
  | .els a => (parse ts a).bind fun x => .ok (.els x.1, [x.2])
  | .when c t rest => (parse ts c).bind fun x => (parse ts t).bind fun y => (parseArms ts rest).bind fun z => .ok (.when x.1 y.1 z.1, y.2 :: z.2)
termination_by structural a => a
end

end Verif.Sql
