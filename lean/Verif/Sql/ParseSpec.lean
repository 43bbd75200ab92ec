import Verif.Sql.Parse
import Verif.Sql.ArithProps

/-!
# What expressions mean in SQL

Values are NULL, integers, truth values and texts. Texts are compared byte by byte.
-/

namespace Verif.Sql

open Verif.Wire Verif.Bytes

/-- A value of SQL. -/
inductive SV where
  | null
  | int (i : Int)
  | bool (b : Bool)
  | str (s : List Byte)
  deriving DecidableEq

/-- The families of types. -/
inductive Fam where | num | bool | str
  deriving DecidableEq

/-- BOOLEAN, the four integer types, VARCHAR. -/
def famOf : Nat → Option Fam
  | 0 => some .bool
  | 1 | 2 | 3 | 4 => some .num
  | 11 => some .str
  | _ => none

mutual
/-- The expression is well typed in SQL, and of family `f`. NULL is of every family. -/
def WT (ts : List Nat) : Ast → Fam → Prop
  | .col i, f => ∃ t, ts[i]? = some t ∧ famOf t = some f
  | .num _, f => f = .num
  | .str _, f => f = .str
  | .bool _, f => f = .bool
  | .null, _ => True
  | .arith _ a b, f => f = .num ∧ WT ts a .num ∧ WT ts b .num
  | .concat a b, f => f = .str ∧ WT ts a .str ∧ WT ts b .str
  | .cmp _ a b, f => f = .bool ∧ ∃ g, WT ts a g ∧ WT ts b g
  | .and a b, f => f = .bool ∧ WT ts a .bool ∧ WT ts b .bool
  | .or a b, f => f = .bool ∧ WT ts a .bool ∧ WT ts b .bool
  | .not a, f => f = .bool ∧ WT ts a .bool
  | .neg a, f => f = .num ∧ WT ts a .num
  | .is c _ a, f => f = .bool ∧ ∃ g, (c ≠ .isNull → g = .bool) ∧ WT ts a g
  | .between _ a l h, f => f = .bool ∧ ∃ g, WT ts a g ∧ WT ts l g ∧ WT ts h g
  | .inList _ a items, f => f = .bool ∧ ∃ g, WT ts a g ∧ WTs ts items g
  | .caseWhen arms, f => WTArms ts arms f
termination_by structural a => a

def WTs (ts : List Nat) : Asts → Fam → Prop
  | .nil, _ => True
  | .cons a as, f => WT ts a f ∧ WTs ts as f
termination_by structural a => a

def WTArms (ts : List Nat) : AstArms → Fam → Prop
  | .fin, _ => True
  | .els a, f => WT ts a f
  | .when c t rest, f => WT ts c .bool ∧ WT ts t f ∧ WTArms ts rest f
termination_by structural a => a
end

/-- The text `s` comes before the text `t`. -/
def before : List Byte → List Byte → Bool
  | [], [] => false
  | [], _ :: _ => true
  | _ :: _, [] => false
  | a :: s, b :: t => if a = b then before s t else a.val < b.val

/-- What a comparison operator means for texts. -/
def CmpOp.onStr : CmpOp → List Byte → List Byte → Bool
  | .eq, s, t => s = t
  | .ne, s, t => s ≠ t
  | .lt, s, t => before s t
  | .le, s, t => before s t || s = t
  | .gt, s, t => before t s
  | .ge, s, t => before t s || s = t

/-- A comparison; FALSE comes before TRUE. -/
def SV.cmp (op : CmpOp) : SV → SV → Option SV
  | .null, _ => some .null
  | _, .null => some .null
  | .int i, .int j => some (.bool (op.rel i j))
  | .bool a, .bool b => some (.bool (op.rel (if a then 1 else 0) (if b then 1 else 0)))
  | .str s, .str t => some (.bool (op.onStr s t))
  | _, _ => none

/-- Arithmetic: no value for a division by zero. -/
def SV.arith (op : ArOp) : SV → SV → Option SV
  | .null, _ => some .null
  | _, .null => some .null
  | .int i, .int j => (op.math i j).map .int
  | _, _ => none

def SV.concat : SV → SV → Option SV
  | .null, _ => some .null
  | _, .null => some .null
  | .str s, .str t => some (.str (s ++ t))
  | _, _ => none

def SV.and : SV → SV → Option SV
  | .bool false, .bool _ => some (.bool false)
  | .bool false, .null => some (.bool false)
  | .null, .bool false => some (.bool false)
  | .bool true, .bool b => some (.bool b)
  | .bool true, .null => some .null
  | .null, .bool true => some .null
  | .null, .null => some .null
  | _, _ => none

def SV.not : SV → Option SV
  | .bool b => some (.bool !b)
  | .null => some .null
  | _ => none

/-- By de Morgan. -/
def SV.or (a b : SV) : Option SV := a.not.bind fun x => b.not.bind fun y => (x.and y).bind SV.not

def SV.neg : SV → Option SV
  | .int i => some (.int (-i))
  | .null => some .null
  | _ => none

/-- `IS TRUE` and its like; UNKNOWN is the truth value NULL. -/
def SV.is : Check → SV → Option Bool
  | .isNull, v => some (v = .null)
  | .isUnknown, .null => some true
  | .isUnknown, .bool _ => some false
  | .isTrue, .null => some false
  | .isTrue, .bool b => some b
  | .isFalse, .null => some false
  | .isFalse, .bool b => some !b
  | _, _ => none

mutual
/-- The value of an expression on a row; `none` if it has none. -/
def den (row : List SV) : Ast → Option SV
  | .col i => row[i]?
  | .num n => some (.int n)
  | .str s => some (.str s)
  | .bool b => some (.bool b)
  | .null => some .null
  | .arith op a b => (den row a).bind fun x => (den row b).bind fun y => x.arith op y
  | .concat a b => (den row a).bind fun x => (den row b).bind fun y => x.concat y
  | .cmp op a b => (den row a).bind fun x => (den row b).bind fun y => x.cmp op y
  | .and a b => (den row a).bind fun x => (den row b).bind fun y => x.and y
  | .or a b => (den row a).bind fun x => (den row b).bind fun y => x.or y
  | .not a => (den row a).bind SV.not
  | .neg a => (den row a).bind SV.neg
  | .is c n a => (den row a).bind fun x => (x.is c).map fun b => .bool (if n then !b else b)
  | .between n a l h => (den row a).bind fun x => (den row l).bind fun y => (den row h).bind fun z =>
    (x.cmp .ge y).bind fun p => (x.cmp .le z).bind fun q => (p.and q).bind fun r => if n then r.not else some r
  | .inList n a items => (den row a).bind fun x => (denIn row x items).bind fun r => if n then r.not else some r
  | .caseWhen arms => denArms row arms
termination_by structural a => a

/-- `x = item OR x = item ... OR FALSE`. -/
def denIn (row : List SV) (x : SV) : Asts → Option SV
  | .nil => some (.bool false)
  | .cons a as => (den row a).bind fun y => (x.cmp .eq y).bind fun p => (denIn row x as).bind fun q => p.or q
termination_by structural a => a

/-- The result of the first condition that is TRUE. -/
def denArms (row : List SV) : AstArms → Option SV
  | .fin => some .null
  | .els a => den row a
  | .when c t rest => (den row c).bind fun x => if x = .bool true then den row t else denArms row rest
termination_by structural a => a
end

/-- `v` is the value `s` in type `t`. -/
def Rep (t : Nat) (s : SV) (v : Value) : Prop := match s with
  | .null => isNull v = true
  | .int i => Fits t i ∧ v = intVal t i
  | .bool b => t = 0 ∧ v = new (.boolean b)
  | .str x => t = 11 ∧ v = new (.varLen x)

/-- The row `vs`, with columns of the types `ts`, holds the values `row`. -/
def RowOf (ts : List Nat) (row : List SV) (vs : List Value) : Prop := row.length = ts.length ∧ vs.length = ts.length ∧
  ∀ (i : Nat) t s v, ts[i]? = some t → row[i]? = some s → vs[i]? = some v → Rep t s v

/-- A literal. -/
def Ast.isLit : Ast → Bool
  | .num _ | .str _ | .bool _ | .null => true
  | _ => false

mutual
/-- The items of IN lists are literals, at least one. -/
def LitItems : Ast → Prop
  | .arith _ a b => LitItems a ∧ LitItems b
  | .concat a b => LitItems a ∧ LitItems b
  | .cmp _ a b => LitItems a ∧ LitItems b
  | .and a b => LitItems a ∧ LitItems b
  | .or a b => LitItems a ∧ LitItems b
  | .not a => LitItems a
  | .neg a => LitItems a
  | .is _ _ a => LitItems a
  | .between _ a l h => LitItems a ∧ LitItems l ∧ LitItems h
  | .inList _ a items => LitItems a ∧ items ≠ .nil ∧ AllLits items
  | .caseWhen arms => LitArms arms
  | _ => True
termination_by structural a => a

def AllLits : Asts → Prop
  | .nil => True
  | .cons a as => a.isLit = true ∧ AllLits as
termination_by structural a => a

def LitArms : AstArms → Prop
  | .fin => True
  | .els a => LitItems a
  | .when c t rest => LitItems c ∧ LitItems t ∧ LitArms rest
termination_by structural a => a
end

/-! ## When an expression has a value

Ferrite's arithmetic does not follow SQL everywhere: a NULL operand is an error, and so is a result that does not fit the wider of the operands' types. -/

mutual
/-- The type of an expression: for a number the narrowest one that holds it, for an arithmetic expression the wider of the operands'. -/
def exprTy (ts : List Nat) : Ast → Nat
  | .col i => ts[i]?.getD 20
  | .num n => if n < 2 ^ 7 then 1 else if n < 2 ^ 15 then 2 else if n < 2 ^ 31 then 3 else 4
  | .str _ => 11
  | .null => 20
  | .arith _ a b => max (exprTy ts a) (exprTy ts b)
  | .concat _ _ => 11
  | .neg a => if exprTy ts a = 20 then 3 else exprTy ts a
  | .caseWhen arms => armsTy ts arms
  | _ => 0
termination_by structural a => a

def armsTy (ts : List Nat) : AstArms → Nat
  | .fin => 20
  | .els a => exprTy ts a
  | .when _ t _ => exprTy ts t
termination_by structural a => a
end

mutual
/-- On this row no arithmetic and no `||` meets a NULL or leaves its type, and no condition of a CASE that is reached is NULL. -/
def Safe (ts : List Nat) (row : List SV) : Ast → Prop
  | .arith op a b => Safe ts row a ∧ Safe ts row b ∧ ∃ i j r, den row a = some (.int i) ∧ den row b = some (.int j) ∧ op.math i j = some r ∧
    Fits (max (exprTy ts a) (exprTy ts b)) r
  | .concat a b => Safe ts row a ∧ Safe ts row b ∧ ∃ s t, den row a = some (.str s) ∧ den row b = some (.str t)
  | .neg a => Safe ts row a ∧ (den row a = some .null ∨ ∃ i, den row a = some (.int i) ∧ Fits (exprTy ts a) (-i))
  | .cmp _ a b => Safe ts row a ∧ Safe ts row b
  | .and a b => Safe ts row a ∧ Safe ts row b
  | .or a b => Safe ts row a ∧ Safe ts row b
  | .not a => Safe ts row a
  | .is _ _ a => Safe ts row a
  | .between _ a l h => Safe ts row a ∧ Safe ts row l ∧ Safe ts row h
  | .inList _ a _ => Safe ts row a
  | .caseWhen arms => SafeArms ts row arms
  | _ => True
termination_by structural a => a

def SafeArms (ts : List Nat) (row : List SV) : AstArms → Prop
  | .fin => True
  | .els a => Safe ts row a
  | .when c t rest => Safe ts row c ∧ ((den row c = some (.bool true) ∧ Safe ts row t) ∨ (den row c = some (.bool false) ∧ SafeArms ts row rest))
termination_by structural a => a
end

/-- All results of a CASE have the type `u`. -/
def armsAll (ts : List Nat) (u : Nat) : AstArms → Prop
  | .fin => True
  | .els a => exprTy ts a = u
  | .when _ t rest => exprTy ts t = u ∧ armsAll ts u rest

mutual
/-- The well-typed expressions that Ferrite accepts: numbers below 2^63; no NULL as an operand of arithmetic, `||`, AND, OR; in a comparison NULL on the right, or on the left of something
that is not a literal; a CASE whose results have one type. -/
def Accepted (ts : List Nat) : Ast → Prop
  | .num n => n < 2 ^ 63
  | .arith _ a b => Accepted ts a ∧ Accepted ts b ∧ exprTy ts a ≠ 20 ∧ exprTy ts b ≠ 20
  | .concat a b => Accepted ts a ∧ Accepted ts b ∧ exprTy ts a ≠ 20 ∧ exprTy ts b ≠ 20
  | .cmp _ a b => Accepted ts a ∧ Accepted ts b ∧ ((exprTy ts a = 20 ↔ exprTy ts b = 20) ∨ b = .null ∨ (a = .null ∧ b.isLit = false))
  | .and a b => Accepted ts a ∧ Accepted ts b ∧ exprTy ts a ≠ 20 ∧ exprTy ts b ≠ 20
  | .or a b => Accepted ts a ∧ Accepted ts b ∧ exprTy ts a ≠ 20 ∧ exprTy ts b ≠ 20
  | .not a => Accepted ts a
  | .neg a => Accepted ts a
  | .is _ _ a => Accepted ts a
  | .between _ a l h => Accepted ts a ∧ Accepted ts l ∧ Accepted ts h
  | .inList _ a items => Accepted ts a ∧ AcceptedAll ts items
  | .caseWhen arms => AcceptedArms ts arms ∧ (∃ c t rest, arms = .when c t rest) ∧ armsAll ts (armsTy ts arms) arms
  | _ => True
termination_by structural a => a

def AcceptedAll (ts : List Nat) : Asts → Prop
  | .nil => True
  | .cons a as => Accepted ts a ∧ AcceptedAll ts as
termination_by structural a => a

def AcceptedArms (ts : List Nat) : AstArms → Prop
  | .fin => True
  | .els a => Accepted ts a
  | .when c t rest => Accepted ts c ∧ Accepted ts t ∧ AcceptedArms ts rest
termination_by structural a => a
end

mutual
/-- Every minus that is computed on the row has a result in the range of its type. -/
def Calm (ts : List Nat) (row : List SV) : Ast → Prop
  | .neg a => Calm ts row a ∧ ∀ i, den row a = some (.int i) → Fits (exprTy ts a) (-i)
  | .arith _ a b => Calm ts row a ∧ Calm ts row b
  | .concat a b => Calm ts row a ∧ Calm ts row b
  | .cmp _ a b => Calm ts row a ∧ Calm ts row b
  | .and a b => Calm ts row a ∧ Calm ts row b
  | .or a b => Calm ts row a ∧ Calm ts row b
  | .not a => Calm ts row a
  | .is _ _ a => Calm ts row a
  | .between _ a l h => Calm ts row a ∧ Calm ts row l ∧ Calm ts row h
  | .inList _ a _ => Calm ts row a
  | .caseWhen arms => CalmArms ts row arms
  | _ => True
termination_by structural a => a

def CalmArms (ts : List Nat) (row : List SV) : AstArms → Prop
  | .fin => True
  | .els a => Calm ts row a
  | .when c t rest => Calm ts row c ∧ (den row c = some (.bool true) → Calm ts row t) ∧ (den row c = some (.bool false) → CalmArms ts row rest)
termination_by structural a => a
end

end Verif.Sql
