import Verif.Plan.From
import Verif.Plan.SelectSpec
import Verif.Exec.JoinProps

/-!
# What a FROM clause means

The vocabulary of C109. A column is known by the name of its table, or by the alias if there is one, and its own name; the rows of a join are those of the relational algebra.
-/

namespace Verif.Plan

open Verif.Wire Verif.Bytes Verif.Sql Verif.Exec

/-- The columns that can be named after a table. -/
def Table.scope (T : Table) : Schema := T.cols.map fun c => ⟨some (T.alias_.getD T.name), c⟩

/-- The columns that can be named after a FROM. -/
def From.scope : From → Schema
  | .table T => T.scope
  | .join _ l r _ => l.scope ++ r.scope

/-- The relational join of two lists of rows with `nl` and `nr` columns. -/
def relJoin (op : JoinOp) (on : Row → Row → Bool) (nl nr : Nat) (ls rs : List Row) : List Row := match op with
  | .inner => pairs on ls rs
  | .left => leftJoin on nr ls rs
  | .right => pairs on ls rs ++ (unmatchedR on ls rs).map (List.replicate nl (new .null) ++ ·)
  | .full => pairs on ls rs ++ ((unmatchedR on ls rs).map (List.replicate nl (new .null) ++ ·) ++ (unmatchedL on ls rs).map (· ++ List.replicate nr (new .null)))
  | .cross => pairs (fun _ _ => true) ls rs
  | .other => []

/-- The predicate is TRUE on the row. -/
def isTrue (s : Schema) (row : Row) (e : NExpr) : Bool := match valueOf s row e with
  | .ok v => decide (truth v = some .t)
  | _ => false

theorem isTrue_iff {s : Schema} {row : Row} {e : NExpr} : isTrue s row e = true ↔ IsTrue s row e := by
  unfold isTrue IsTrue
  cases valueOf s row e <;> simp

/-- The rows of a FROM. The condition of a join is evaluated on the columns of both sides. -/
def From.rows (w : World) : From → List Row
  | .table T => w.rows T.oid
  | .join op l r c => relJoin op (fun a b => match c with
      | .on e => isTrue (l.scope ++ r.scope) (a ++ b) e
      | _ => true) l.scope.length r.scope.length (l.rows w) (r.rows w)

/-- The condition is made of equalities with AND; in each of them the first column (by the number of its name, `pos` gives its place) is one of the first `n`, those of the left
side, and the second is not. The column `d.id` is compared only when it is the first one of the right side. -/
def Equi (s : Schema) (pos : Nat → Option Nat) (n : Nat) : Expr → Prop
  | .cmp .eq (.col _ i) (.col _ j) => (∃ a, pos i = some a ∧ a < n) ∧ ∃ b, pos j = some b ∧ n ≤ b ∧ (s[b]? = some ⟨some "d", "id"⟩ → b = n)
  | .and a b => Equi s pos n a ∧ Equi s pos n b
  | _ => False

/-- The place of the column a name stands for. -/
def place (s : Schema) (n : Name) : Option Nat := match matching s n with
  | [i] => some i
  | _ => none

/-- The planner does not mistake the column of another table for this one: it forgets the names of tables without an alias, so a qualified name is in danger when two of them
have a column of that name. `s` is the schema of the planner. -/
def Clear (s : Schema) (n : Name) : Prop := n.tbl = none ∨ s.count ⟨none, n.col⟩ ≤ 1

/-- What is asked of the FROM: the rows are as long as the schemas; the names in the conditions stand for one column and are `Clear`; the conditions are as in `Equi`, and have a
truth value on all pairs; the left side of a RIGHT or FULL join is not empty and the rows of its right side are different. -/
def From.Fine (w : World) : From → Prop
  | .table T => ∀ r ∈ w.rows T.oid, r.length = T.cols.length
  | .join op l r c => l.Fine w ∧ r.Fine w ∧ (op = .inner ∨ op = .left ∨ op = .right ∨ op = .full) ∧
    ((op = .right ∨ op = .full) → l.rows w ≠ [] ∧ (r.rows w).Pairwise fun x y => valuesEq x y = false) ∧
    match c with
    | .on e => Known (l.scope ++ r.scope) e ∧ (∀ n ∈ e.cols, Clear (l.schema ++ r.schema) n) ∧
      Equi (l.schema ++ r.schema) (fun i => (e.cols[i]?).bind (place (l.scope ++ r.scope))) l.scope.length e.body ∧
      ∀ a ∈ l.rows w, ∀ b ∈ r.rows w, HasTruth (l.scope ++ r.scope) (a ++ b) e
    | _ => False

/-- The names in a SELECT list. -/
def namesOf : List Item → List Name
  | [] => []
  | .star :: rest => namesOf rest
  | .expr (.column n) _ :: rest => n :: namesOf rest
  | .expr (.scalar e _) _ :: rest => e.cols ++ namesOf rest
  | .expr (.agg _ n) _ :: rest => n :: namesOf rest

/-- The tables of a FROM. -/
def From.tables : From → List Table
  | .table T => [T]
  | .join _ l r _ => l.tables ++ r.tables

end Verif.Plan
