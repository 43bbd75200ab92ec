import Verif.Sql.Arith

/-!
# Evaluating SQL expressions (`src/sql/execution/expressions/`)

One inductive type for the expressions built from columns, constants, arithmetic, comparisons, logic, NULL tests, COALESCE, CASE, IN, ANY,
ALL and arrays. `eval` is the `evaluate` method of all of them at once, and with the flag set their `evaluate_join`.
-/

namespace Verif.Sql

open Verif.Wire Verif.Bytes

/-- The outcome of an evaluation: a value, an `ExpressionError`, an arithmetic overflow (a panic when overflow checks are on), or a cast
that is not modelled. -/
inductive Res where
  | ok (v : Value)
  | err
  | overflow
  | out

/-- Rust's `?`. -/
def Res.bind (r : Res) (k : Value → Res) : Res := match r with
  | .ok v => k v
  | .err => .err
  | .overflow => .overflow
  | .out => .out

def ArR.res : ArR → Res
  | .ok v => .ok v
  | _ => .err

def PanicR.res : PanicR → Res
  | .ok v => .ok v
  | .err => .err
  | .overflow => .overflow

/-- `IsCheckType` (is_check_expression.rs:12-17). -/
inductive Check where | isTrue | isFalse | isUnknown | isNull
  deriving DecidableEq, Repr

mutual
/-- The expressions. `negated` is the first argument where there is one. -/
inductive Expr where
  | col (side i : Nat)
  | lit (v : Value)
  | arith (op : ArOp) (a b : Expr)
  | modulo (a b : Expr)
  | concat (a b : Expr)
  | cmp (op : CmpOp) (a b : Expr)
  | and (a b : Expr)
  | or (a b : Expr)
  | not (a : Expr)
  | neg (a : Expr)
  | is (c : Check) (negated : Bool) (a : Expr)
  | distinct (negated : Bool) (a b : Expr)
  | between (negated : Bool) (a l h : Expr)
  | coalesce (es : Exprs)
  | caseWhen (arms : Arms)
  | caseOf (b : Expr) (arms : Arms)
  | inList (negated : Bool) (a l : Expr)
  | any (op : CmpOp) (a l : Expr)
  | all (op : CmpOp) (a l : Expr)
  | array (es : Exprs)
/-- A list of expressions. -/
inductive Exprs where
  | nil
  | cons (e : Expr) (es : Exprs)
/-- The WHEN ... THEN ... pairs of a CASE and its ELSE. -/
inductive Arms where
  | els (e : Expr)
  | when (c t : Expr) (rest : Arms)
end

/-- `Value::new(CmpBool)` (value.rs:2217-2225). -/
def ofTri : Tri → Value
  | .t => new (.boolean true)
  | .f => new (.boolean false)
  | .n => new .null

/-- `get_bool_as_cmp_bool` (logic_expression.rs:98-109). -/
def boolAsTri (a : Value) : Tri := match val a with
  | .boolean true => .t
  | .boolean false => .f
  | _ => .n

/-- `perform_and` (logic_expression.rs:111-117). -/
def performAnd : Tri → Tri → Tri
  | .f, _ => .f
  | _, .f => .f
  | .t, .t => .t
  | _, _ => .n

/-- `perform_or` (logic_expression.rs:119-125). -/
def performOr : Tri → Tri → Tri
  | .t, _ => .t
  | _, .t => .t
  | .f, .f => .f
  | _, _ => .n

/-- `UnaryOperator::Not` (unary_op_expression.rs:77-87). -/
def notValue (a : Value) : Res :=
  if isNull a then .ok (new .null)
  else match val a with
    | .boolean b => .ok (new (.boolean !b))
    | _ => .err

/-- `perform_comparison` (comparison_expression.rs:80-146), without the unused `IsNotNull`, and the match in `evaluate` (155-159). -/
def comparison (op : CmpOp) (a b : Value) : Res :=
  if isNull a || isNull b then .ok (ofTri .n)
  else if ty a ≠ ty b then
    match castTo a (ty b) with
    | .ok a' => .ok (ofTri (compareOp op a' b))
    | .out => .out
    | .err => match castTo b (ty a) with
      | .ok b' => .ok (ofTri (compareOp op a b'))
      | .out => .out
      | .err => .err
  else .ok (ofTri (compareOp op a b))

/-- `IsCheckExpression::evaluate` on the value (is_check_expression.rs:44-81). -/
def isCheck (c : Check) (negated : Bool) (a : Value) : Res := match c with
  | .isTrue => (match val a with
    | .boolean b => .ok (new (.boolean (negated ^^ b)))
    | .null => .ok (new (.boolean (negated ^^ false)))
    | _ => .err)
  | .isFalse => (match val a with
    | .boolean b => .ok (new (.boolean (negated ^^ !b)))
    | .null => .ok (new (.boolean (negated ^^ false)))
    | _ => .err)
  | .isUnknown => .ok (new (.boolean (negated ^^ isNull a)))
  | .isNull => .ok (new (.boolean (negated ^^ isNull a)))

/-- `IsDistinctExpression::evaluate` on the values (is_distinct_expression.rs:44-61). -/
def isDistinct (negated : Bool) (a b : Value) : Value :=
  let d := if isNull a && isNull b then false else if isNull a || isNull b then true else !valueEq a b
  new (.boolean (if negated then !d else d))

/-- `BetweenExpression::evaluate` on the values (between_expression.rs:44-53): `>=` and `<=` of `PartialOrd`. -/
def betweenValue (negated : Bool) (a l h : Value) : Value :=
  let r := CmpOp.ge.holds (valueCmp a l) && CmpOp.le.holds (valueCmp a h)
  new (.boolean (if negated then !r else r))

/-- How `check_value_in_list` converts an element before comparing (in_expression.rs:142-190); the parser converts literals in the same way
for the type of the tested expression (expression_parser.rs:1299-1373). -/
def convIn (t : Nat) (v : Value) : Value :=
  if t = 3 ∧ ty v ≠ 3 then
    match val v with
    | .tinyInt n => if ty v = 1 then new (.integer n) else v
    | .smallInt n => if ty v = 2 then new (.integer n) else v
    | .bigInt n => if ty v = 4 ∧ lo 3 ≤ n ∧ n ≤ hi 3 then new (.integer n) else v
    | .decimal x => if ty v = 5 ∧ f64.cmp x (f64.ofInt (f64.toInt (lo 3) (hi 3) x)) = some .eq then new (.integer (f64.toInt (lo 3) (hi 3) x)) else v
    | _ => v
  else v

/-- The loop of `check_value_in_list` (in_expression.rs:131-213): `nul` is `has_null`. -/
def inLoop (x : Value) (nul : Bool) : List Value → Tri
  | [] => if nul then .n else .f
  | v :: vs =>
    if isNull v then inLoop x true vs
    else match compareOp .eq x (convIn (ty x) v) with
      | .t => .t
      | .f => inLoop x nul vs
      | .n => inLoop x true vs

/-- `check_value_in_list` (in_expression.rs:125-214). -/
def inCheck (x : Value) (vs : List Value) : Tri := if isNull x then .n else inLoop x false vs

/-- `evaluate_list` (in_expression.rs:79-92) and `negate_result` (216-224). -/
def inValue (negated : Bool) (x l : Value) : Value :=
  let r := inCheck x (match val l with | .vector vs => vs | _ => [l])
  ofTri (if negated then (match r with | .t => .f | .f => .t | .n => .n) else r)

/-- The loop of `AnyExpression::evaluate` (any_expression.rs:77-98). -/
def anyLoop (op : CmpOp) (x : Value) (nul : Bool) : List Value → Tri
  | [] => if nul then .n else .f
  | v :: vs => match compareOp op x v with
    | .t => .t
    | .n => anyLoop op x true vs
    | .f => anyLoop op x nul vs

/-- `AnyExpression::evaluate` on the values (any_expression.rs:62-99). -/
def anyValue (op : CmpOp) (x l : Value) : Res := match val l with
  | .vector vs => .ok (ofTri (anyLoop op x false vs))
  | _ => .err

/-- The loop of `AllExpression::evaluate` (all_expression.rs:62-96). -/
def allLoop (op : CmpOp) (x : Value) : List Value → Tri
  | [] => .t
  | v :: vs => match compareOp op x v with
    | .f => .f
    | .n => .n
    | .t => allLoop op x vs

/-- `AllExpression::evaluate` on the values (all_expression.rs:45-97). -/
def allValue (op : CmpOp) (x l : Value) : Res := match val l with
  | .vector vs => .ok (ofTri (allLoop op x vs))
  | _ => .err

/-- `BinaryOperator::StringConcat` (binary_op_expression.rs:231-236). -/
def concatValue (a b : Value) : Res := match val a, val b with
  | .varLen s, .varLen t => .ok (new (.varLen (s ++ t)))
  | _, _ => .err

/-- Where the columns' values come from: the number of the tuple and of the column. -/
abbrev Env := Nat → Nat → Option Value

/-- `ColumnRefExpression::evaluate` (column_value_expression.rs:51-61): the tuple index is ignored. -/
def rowEnv (row : List Value) : Env := fun _ i => row[i]?

/-- `ColumnRefExpression::evaluate_join` (column_value_expression.rs:63-112), for a left row as long as its schema. -/
def joinEnv (l r : List Value) : Env := fun side i => match side with
  | 0 => l[i]?
  | 1 => if l.length ≤ i then r[i - l.length]? else r[i]?
  | _ => none

mutual
/-- `evaluate`, and `evaluate_join` when `j` is true. They differ in two expressions: `ArithmeticExpression` has two separate lists of type
pairs, and `BinaryOpExpression::evaluate_join` (binary_op_expression.rs:245-269) evaluates its operands a second time, on the row of the two
values it has just computed. Sources: column_value_expression.rs:51-112; constant_value_expression.rs:45-61; arithmetic_expression.rs:
139-872; binary_op_expression.rs:209-269; comparison_expression.rs:150-191; logic_expression.rs:129-163; unary_op_expression.rs:73-150;
is_check_expression.rs:44-128; is_distinct_expression.rs:44-90; between_expression.rs:44-76; coalesce_expression.rs:50-75;
case_expression.rs:96-200; in_expression.rs:228-293; any_expression.rs:62-146; all_expression.rs:45-160; array_expression.rs:27-50. -/
def eval (j : Bool) (ρ : Env) : Expr → Res
  | .col side i => (match ρ side i with
    | some v => .ok v
    | none => .err)
  | .lit v => .ok v
  | .arith op a b => (eval j ρ a).bind fun x => (eval j ρ b).bind fun y => (if j then arithJoin op x y else arith op x y).res
  | .modulo a b => (eval j ρ a).bind fun x => (eval j ρ b).bind fun y =>
    if j then (eval false (rowEnv [x, y]) a).bind fun x' => (eval false (rowEnv [x, y]) b).bind fun y' => (modulo x' y').res
    else (modulo x y).res
  | .concat a b => (eval j ρ a).bind fun x => (eval j ρ b).bind fun y =>
    if j then (eval false (rowEnv [x, y]) a).bind fun x' => (eval false (rowEnv [x, y]) b).bind fun y' => concatValue x' y'
    else concatValue x y
  | .cmp op a b => (eval j ρ a).bind fun x => (eval j ρ b).bind fun y => comparison op x y
  | .and a b => (eval j ρ a).bind fun x => (eval j ρ b).bind fun y => .ok (ofTri (performAnd (boolAsTri x) (boolAsTri y)))
  | .or a b => (eval j ρ a).bind fun x => (eval j ρ b).bind fun y => .ok (ofTri (performOr (boolAsTri x) (boolAsTri y)))
  | .not a => (eval j ρ a).bind fun x => notValue x
  | .neg a => (eval j ρ a).bind fun x => (negate x).res
  | .is c n a => (eval j ρ a).bind fun x => isCheck c n x
  | .distinct n a b => (eval j ρ a).bind fun x => (eval j ρ b).bind fun y => .ok (isDistinct n x y)
  | .between n a l h => (eval j ρ a).bind fun x => (eval j ρ l).bind fun y => (eval j ρ h).bind fun z => .ok (betweenValue n x y z)
  | .coalesce es => evalCoalesce j ρ es
  | .caseWhen arms => evalArms j ρ none arms
  | .caseOf b arms => (eval j ρ b).bind fun x => evalArms j ρ (some x) arms
  | .inList n a l => (eval j ρ a).bind fun x => (eval j ρ l).bind fun y => .ok (inValue n x y)
  | .any op a l => (eval j ρ a).bind fun x => (eval j ρ l).bind fun y => anyValue op x y
  | .all op a l => (eval j ρ a).bind fun x => (eval j ρ l).bind fun y => allValue op x y
  | .array es => evalArray j ρ [] es
termination_by structural e => e

/-- The loop of `CoalesceExpression` (coalesce_expression.rs:51-58). -/
def evalCoalesce (j : Bool) (ρ : Env) : Exprs → Res
  | .nil => .ok (new .null)
  | .cons e es => (eval j ρ e).bind fun v => if isNull v then evalCoalesce j ρ es else .ok v
termination_by structural es => es

/-- The loop of `CaseExpression` (case_expression.rs:112-157). A missing ELSE is `lit NULL`. -/
def evalArms (j : Bool) (ρ : Env) (base : Option Value) : Arms → Res
  | .els e => eval j ρ e
  | .when c t rest => (eval j ρ c).bind fun w => match base with
    | some b => if valueEq b w then eval j ρ t else evalArms j ρ base rest
    | none => match val w with
      | .boolean m => if m then eval j ρ t else evalArms j ρ base rest
      | _ => .err
termination_by structural arms => arms

/-- `ArrayExpression` (array_expression.rs:27-50). -/
def evalArray (j : Bool) (ρ : Env) (acc : List Value) : Exprs → Res
  | .nil => .ok (new (.vector acc))
  | .cons e es => (eval j ρ e).bind fun v => evalArray j ρ (acc ++ [v]) es
termination_by structural es => es
end

/-! ## What the parser builds (`src/sql/execution/expression_parser.rs`) -/

/-- `LiteralValueExpression::new` on a number without a decimal point (literal_value_expression.rs:29-48): the smallest type that holds it. -/
def numberLit (n : Nat) : Option Expr :=
  if (n : Int) ≤ hi 1 then some (.lit (new (.tinyInt n)))
  else if (n : Int) ≤ hi 2 then some (.lit (new (.smallInt n)))
  else if (n : Int) ≤ hi 3 then some (.lit (new (.integer n)))
  else if (n : Int) ≤ hi 4 then some (.lit (new (.bigInt n)))
  else none

/-- `x [NOT] BETWEEN l AND h` (expression_parser.rs:786-834). -/
def parseBetween (negated : Bool) (x l h : Expr) : Expr :=
  if negated then .or (.cmp .lt x l) (.cmp .gt x h) else .and (.cmp .ge x l) (.cmp .le x h)

/-- The `negated` the parser passes for `a IS [NOT] DISTINCT FROM b` (expression_parser.rs:1255-1275). -/
def parseDistinct (notDistinct : Bool) (a b : Expr) : Expr := .distinct (!notDistinct) a b

/-- One item of an IN list (expression_parser.rs:1290-1475): a literal or constant is converted to the type `t` of the tested expression,
anything else becomes NULL. -/
def inItem (t : Nat) : Expr → Value
  | .lit v => convIn t v
  | _ => new .null

/-- `x [NOT] IN (items)` (expression_parser.rs:1277-1492). -/
def parseIn (negated : Bool) (t : Nat) (x : Expr) (items : List Expr) : Expr :=
  .inList negated x (.lit (new (.vector (items.map (inItem t)))))

/-- A list of expressions, and of arms, from Lean lists. -/
def Exprs.of : List Expr → Exprs
  | [] => .nil
  | e :: es => .cons e (Exprs.of es)

def Arms.of (els : Expr) : List (Expr × Expr) → Arms
  | [] => .els els
  | (c, t) :: rest => .when c t (Arms.of els rest)

end Verif.Sql
