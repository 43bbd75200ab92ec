import Verif.Sql.Strings

/-!
# Array subscripts and slices, STRUCT and field access (`subscript_expression.rs`, `map_access_expression.rs`, `struct_expression.rs`)

`evaluate_join` of these expressions is the same code with `evaluate_join` for the operands; the operands are given here by what they
evaluate to, so one model serves for both.
-/

namespace Verif.Sql

open Verif.Wire Verif.Bytes

/-- `Value::new_vector` (value.rs:89-102). -/
def newVector (vs : List Value) : Value := .mk (.vector vs) (.length vs.length) false 16 none

/-- `if index >= vec.len() { return Err(..) } Ok(vec[index].clone())` (subscript_expression.rs:149-156). -/
def nthValue (vs : List Value) (k : Nat) : Res := match vs[k]? with
  | some v => .ok v
  | none => .err

/-- The element at an `i32` index (subscript_expression.rs:110-123, 149-156; the other integer types are cast to `i32` first). Negating
`i32::MIN` overflows. -/
def elemAt (vs : List Value) (i : Int) : Res :=
  if i < 0 then
    if i = lo 3 then .overflow
    else if -i > wrapI32 vs.length then .err
    else nthValue vs (wrapI32 vs.length + i).toNat
  else nthValue vs i.toNat

/-- `Subscript::Single` (subscript_expression.rs:59-70, 73-157). -/
def subscriptValue (a : Value) (idx : Res) : Res := match val a with
  | .vector vs => idx.bind fun v => match i32Of v with
    | some i => elemAt vs i
    | none => .err
  | _ => .err

/-- A bound of a slice as a position (subscript_expression.rs:182-189, 231-238); `none` when negating it overflows. -/
def boundAt (n : Nat) (i : Int) : Option Nat :=
  if i < 0 then
    if i = lo 3 then none
    else if -i > wrapI32 n then some 0
    else some (wrapI32 n + i).toNat
  else some i.toNat

/-- One bound of a slice, with what a missing one stands for (subscript_expression.rs:160-207, 209-256). -/
def sliceBound (n dflt : Nat) (b : Option Res) (k : Nat → Res) : Res := match b with
  | none => k dflt
  | some r => match r with
    | .ok v => (match i32Of v with
      | none => .err
      | some i => match boundAt n i with
        | none => .overflow
        | some p => k p)
    | r => r

/-- `Subscript::Range` (subscript_expression.rs:159-266). -/
def sliceValue (a : Value) (start stop : Option Res) : Res := match val a with
  | .vector vs =>
    sliceBound vs.length 0 start fun s => sliceBound vs.length vs.length stop fun e =>
      .ok (newVector (if s ≤ e ∧ e ≤ vs.length then (vs.drop s).take (e - s) else []))
  | _ => .err

/-- `MapAccessKey` (map_access_expression.rs:14-17). -/
inductive MapKey where
  | str (s : List Char)
  | num (i : Int)

/-- `access_value` (map_access_expression.rs:39-102). `*idx as usize` makes a negative index a huge one. A string is parsed as JSON, which
is not modelled (`out`). -/
def mapAccess (a : Value) (k : MapKey) : Res := match val a with
  | .vector vs => (match k with
    | .num i => if i < 0 then .err else nthValue vs i.toNat
    | .str _ => .err)
  | .varLen _ | .constLen _ => .out
  | _ => .err

/-- `StructExpression::evaluate` (struct_expression.rs:49-61): the names of the fields are dropped. -/
def structValue (_names : List (List Char)) (vs : List Value) : Value := newVector vs

/-- How an index is written, as far as the parser looks at it (expression_parser.rs:2111-2178). -/
inductive IndexForm where
  | quoted (s : List Char)
  | number (n : Int)
  | ident (s : List Char)
  | literal
  | other

/-- `AccessExpr` of the SQL parser: `.name`, `[index]`, `[lower:upper]`. An index is given by its form and by what it evaluates to, or
`none` if it does not parse; a bound likewise. -/
inductive Access where
  | dot (name : List Char)
  | index (f : IndexForm) (r : Option Res)
  | slice (lower upper : Option (Option Res))

/-- `unwrap_or_else(|_| constant)` on a bound that does not parse (expression_parser.rs:2192-2214). -/
def boundOr (c : Int) (b : Option (Option Res)) : Option Res := b.map fun r => r.getD (.ok (new (.integer c)))

/-- One round of the loop over the access chain (expression_parser.rs:2060-2230), on the return type of the expression so far and on what
it evaluates to. `none` is an error of the parser. The function `access_at_index` does not exist, so that calling it is an error. -/
def accessStep (t : Nat) (r : Res) : Access → Option (Nat × Res)
  | .dot name => if t = 21 then some (20, r.bind fun a => mapAccess a (.str name)) else none
  | .index _ none => none
  | .index f (some i) =>
    if t = 16 ∨ t = 17 then some (20, r.bind fun a => subscriptValue a i)
    else if t = 21 ∨ t = 14 then
      match f with
      | .quoted s | .ident s => some (20, r.bind fun a => mapAccess a (.str s))
      | .number n => some (20, r.bind fun a => mapAccess a (.num n))
      | .literal => none
      | .other => some (20, r.bind fun _ => i.bind fun _ => .err)
    else none
  | .slice l u => some (16, r.bind fun a => sliceValue a (boundOr 0 l) (boundOr (-1) u))

/-- `Expr::CompoundFieldAccess` (expression_parser.rs:2054-2234) and the evaluation of what it builds. -/
def accessChain (t : Nat) (r : Res) : List Access → Option (Nat × Res)
  | [] => some (t, r)
  | a :: as => match accessStep t r a with
    | none => none
    | some (t', r') => accessChain t' r' as

end Verif.Sql
