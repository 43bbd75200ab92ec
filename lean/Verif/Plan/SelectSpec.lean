import Verif.Plan.Select
import Verif.Exec.SortProps
import Verif.Exec.DistinctProps

/-!
# What a SELECT over one table means

The vocabulary of C73. A name stands for the one column it denotes; an expression is evaluated on the values of the columns it names; the answer is made of the rows on which
WHERE is TRUE.
-/

namespace Verif.Plan

open Verif.Wire Verif.Bytes Verif.Sql Verif.Exec

/-- The name `n` can stand for the column `c`: the last parts are the same, and the tables if both say one. -/
def Denotes (n c : Name) : Prop := n.col = c.col ∧ (n.tbl = none ∨ c.tbl = none ∨ n.tbl = c.tbl)

instance (n c : Name) : Decidable (Denotes n c) := inferInstanceAs (Decidable (_ ∧ _))

/-- The columns a name can stand for. -/
def matching (s : Schema) (n : Name) : List Nat := (List.range s.length).filter fun i => (s[i]?).any fun c => decide (Denotes n c)

/-- The name stands for exactly one column. -/
def Refers (s : Schema) (n : Name) : Prop := ∃ i, matching s n = [i]

/-- All names of the expression do. -/
def Known (s : Schema) (e : NExpr) : Prop := ∀ n ∈ e.cols, Refers s n

/-- The value of the named column in a row. -/
def cell (s : Schema) (row : Row) (n : Name) : Option Value := match matching s n with
  | [i] => row[i]?
  | _ => none

/-- The value of an expression on a row: the expression over the values of its columns. -/
def valueOf (s : Schema) (row : Row) (e : NExpr) : Res := match e.cols.mapM (cell s row) with
  | some vals => eval false (rowEnv vals) e.body
  | none => .err

/-- The predicate is TRUE on the row. -/
def IsTrue (s : Schema) (row : Row) (e : NExpr) : Prop := ∃ v, valueOf s row e = .ok v ∧ truth v = some .t

/-- The predicate has a truth value on the row: TRUE, FALSE or NULL. -/
def HasTruth (s : Schema) (row : Row) (e : NExpr) : Prop := ∃ v t, valueOf s row e = .ok v ∧ truth v = some t

/-- The predicate has a truth value on the row or is an error there. A minus that overflows panics instead. -/
def Settled (s : Schema) (row : Row) (e : NExpr) : Prop := HasTruth s row e ∨ valueOf s row e = .err

/-- A SELECT list without aggregates whose names all stand for a column of the table. -/
def ItemsKnown (s : Schema) : List Item → Prop
  | [] => True
  | .star :: rest => ItemsKnown s rest
  | .expr (.column n) _ :: rest => Refers s n ∧ ItemsKnown s rest
  | .expr (.scalar e _) _ :: rest => Known s e ∧ ItemsKnown s rest
  | .expr (.agg _ _) _ :: _ => False

/-- The SELECT list evaluated on a row. -/
def selected (s : Schema) (row : Row) : List Item → Option Row
  | [] => some []
  | .star :: rest => (selected s row rest).map (row ++ ·)
  | .expr (.column n) _ :: rest => do some ((← cell s row n) :: (← selected s row rest))
  | .expr (.scalar e _) _ :: rest => (match valueOf s row e with
    | .ok v => (selected s row rest).map (v :: ·)
    | _ => none)
  | .expr (.agg _ _) _ :: _ => none

/-- The names of the columns of the answer: the alias, the name of the column, or the text of the expression. -/
def outCols (s : Schema) : List Item → Schema
  | [] => []
  | .star :: rest => s ++ outCols s rest
  | .expr _ (some a) :: rest => ⟨none, a⟩ :: outCols s rest
  | .expr (.column n) none :: rest => n :: outCols s rest
  | .expr (.scalar _ text) none :: rest => ⟨none, text⟩ :: outCols s rest
  | .expr (.agg _ _) none :: rest => outCols s rest

/-- Row `a` may stand before row `b` in the order of the keys. -/
def Before (s : Schema) : List (NExpr × Dir) → Row → Row → Prop
  | [], _, _ => True
  | (e, d) :: rest, a, b => ∃ x y, valueOf s a e = .ok x ∧ valueOf s b e = .ok y ∧
    ((d = .asc ∧ valueCmp x y = some .lt) ∨ (d = .desc ∧ valueCmp x y = some .gt) ∨ (valueEq x y = true ∧ Before s rest a b))

/-- The keys have values on the row, without NaN. -/
def KeysHave (s : Schema) (keys : List (NExpr × Dir)) (row : Row) : Prop := ∀ k ∈ keys, ∃ v, valueOf s row k.1 = .ok v ∧ nanFree v = true

/-- Each different row once if the SELECT is DISTINCT. -/
def Select.once (q : Select) (rows : List Row) : List Row := if q.distinct then firsts [] rows else rows

/-- The part of the list OFFSET and LIMIT ask for. -/
def Select.page (q : Select) (rows : List Row) : List Row :=
  let rest := match q.offset with | some n => rows.drop n | none => rows
  match q.limit with | some n => rest.take n | none => rest

/-- `out` is an answer when the keys of ORDER BY are columns of the answer: a page of an ordering of the selected rows; without ORDER BY in the order of the table. -/
def AnswerByOutput (s : Schema) (q : Select) (kept : List Row) (sel : Row → Row) (out : List Row) : Prop :=
  ∃ l : List Row, l.Perm (q.once (kept.map sel)) ∧ l.Pairwise (Before (outCols s q.items) q.orderBy) ∧ (q.orderBy = [] → l = q.once (kept.map sel)) ∧ out = q.page l

/-- `out` is an answer when the keys of ORDER BY are columns of the table: the rows are ordered first. -/
def AnswerByInput (s : Schema) (q : Select) (kept : List Row) (sel : Row → Row) (out : List Row) : Prop :=
  ∃ l : List Row, l.Perm kept ∧ l.Pairwise (Before s q.orderBy) ∧ out = q.page (q.once (l.map sel))

end Verif.Plan
