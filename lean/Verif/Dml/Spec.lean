import Verif.Dml.Model
import Verif.Exec.Props

/-!
# What the statements mean
-/

namespace Verif.Dml

open Verif.Wire Verif.Bytes Verif.Sql Verif.Exec

/-- The rows of a table with their record ids. -/
def live (l : List (Rid × Slot)) : List (Rid × Row) := l.filterMap fun x => if x.2.info.deleted then none else some (x.1, x.2.row)

/-- The WHERE clause is TRUE on the row, or there is none. -/
def Selected (p : Option Expr) (row : Row) : Prop := match p with
  | none => True
  | some q => EvalsTo false (rowEnv row) q .t

/-- On the row the WHERE clause has a truth value, or its evaluation is an error. -/
def Clear (p : Option Expr) (row : Row) : Prop := match p with
  | none => True
  | some q => Decided q row

/-- `row'` is `row` after the assignments: each column has the value of the last assignment to it, computed on the old row, or its old value. -/
def Assigned (as : List (Nat × Expr)) (row row' : Row) : Prop := row'.length = row.length ∧ ∀ (i : Nat) v, row[i]? = some v →
  (∃ pre e post w, as = pre ++ (i, e) :: post ∧ (∀ a ∈ post, a.1 ≠ i) ∧ eval false (rowEnv row) e = .ok w ∧ row'[i]? = some w) ∨
  ((∀ a ∈ as, a.1 ≠ i) ∧ row'[i]? = some v)

/-- Every page can be read. -/
def Readable (d : Disk) : Prop := ∀ p, d.readable p = true

/-- A slot can be overwritten by one with the same row. -/
def Sane (d : Disk) : Prop := ∀ slots (i : Nat) s s', slots[i]? = some s → s'.row = s.row → d.rewrite slots i s' = true

/-- The columns an INSERT fills: those it lists, or all. -/
def filled (cols : List Column) (into : List String) : List String := if into = [] then cols.map (·.name) else into

/-- What a source row gives for a column: the entry at the place of its name in the column list. -/
def given {α : Type} (cols : List Column) (into : List String) (row : List α) (c : Column) : Option α := ((filled cols into).findIdx? (· == c.name)).bind fun k => row[k]?

/-- The stored value of a column for the value given: a NULL in a primary key is replaced by a number. -/
def Kept (c : Column) (w v : Value) : Prop := if isNull w = true ∧ c.pk = true then ∃ m, v = new (.integer m) else v = w

/-- No two columns have the same name. -/
def Distinct (cols : List Column) : Prop := (cols.map (·.name)).Nodup

end Verif.Dml
