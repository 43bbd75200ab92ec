import Verif.Dml.History
import Verif.Dml.InsertProps

/-!
# What statements outside a transaction mean

A table is a list of rows.
-/

namespace Verif.Dml

open Verif.Wire Verif.Bytes Verif.Sql Verif.Exec

/-- `row` is what INSERT stores for the expressions `es`. -/
def Stored (ext : Value → Nat → Option Value) (cols : List Column) (into : List String) (es : List Expr) (row : Row) : Prop := row.length = cols.length ∧
  ∀ (j : Nat) c, cols[j]? = some c → ∃ v, row[j]? = some v ∧ match given cols into es c with
    | some e => ∃ v0 w, eval false (rowEnv []) e = .ok v0 ∧ cast ext v0 c.ty = some w ∧ Kept c w v
    | none => Kept c (newTyped .null c.ty) v

/-- An INSERT that nothing speaks against: no foreign keys, columns that exist, as many values, which can be computed and cast. -/
def Sound (ext : Value → Nat → Option Value) (cols : List Column) (into : List String) (rows : List (List Expr)) : Prop := (∀ c ∈ cols, c.fk = none) ∧
  ∃ target : List Column, target.map (·.name) = filled cols into ∧ (∀ c ∈ target, c ∈ cols) ∧ (∀ es ∈ rows, es.length = target.length) ∧
    ∀ es ∈ rows, ∀ (k : Nat) e c, es[k]? = some e → target[k]? = some c → ∀ ρ, ∃ v w, eval false ρ e = .ok v ∧ cast ext v c.ty = some w

/-- When a statement may fail: an INSERT something speaks against, or when the table cannot take a row; an UPDATE of which an assignment cannot be computed on a row it is for, or
whose new row does not fit in the place of the old one; a DELETE never. -/
def MayFail (d : Disk) (ext : Value → Nat → Option Value) (cols : List Column) : Stmt → List Row → Prop
  | .insert into vals, _ => ¬Sound ext cols into vals ∨ ∃ h slot h', Heap.insert d h slot = .err h'
  | .delete _, _ => False
  | .update as p, rows => ∃ row ∈ rows, Selected p row ∧ ((∃ a ∈ as, ∀ v, eval false (rowEnv row) a.2 ≠ .ok v) ∨ ∃ row' slots i info, Assigned as row row' ∧ d.rewrite slots i ⟨info, row'⟩ = false)

open Classical in
/-- What a statement does to the rows of its table: the rows before, the reply, the rows after. -/
inductive Effect (d : Disk) (ext : Value → Nat → Option Value) (cols : List Column) : Stmt → List Row → Reply → List Row → Prop where
  | insert {into vals rows new} : new.length = vals.length → (∀ (i : Nat) es row, vals[i]? = some es → new[i]? = some row → Stored ext cols into es row) →
    Effect d ext cols (.insert into vals) rows (.count vals.length) (rows ++ new)
  | delete {p rows} : Effect d ext cols (.delete p) rows (.count (rows.filter fun row => decide (Selected p row)).length) (rows.filter fun row => decide ¬Selected p row)
  | update {as p rows} {upd : Row → Row} : (∀ row ∈ rows, Selected p row → Assigned as row (upd row)) →
    Effect d ext cols (.update as p) rows (.count (rows.filter fun row => decide (Selected p row)).length) (rows.map fun row => if Selected p row then upd row else row)
  | error {s rows} : MayFail d ext cols s rows → Effect d ext cols s rows .error rows

/-- Statements one after another. -/
inductive Follows (d : Disk) (ext : Value → Nat → Option Value) (cols : List Column) : List Row → List Step → List Row → Prop where
  | nil {rows} : Follows d ext cols rows [] rows
  | cons {rows x rows' xs rows''} : Effect d ext cols x.stmt rows x.reply rows' → Follows d ext cols rows' xs rows'' → Follows d ext cols rows (x :: xs) rows''

/-- The WHERE clause of a statement. -/
def Stmt.filter : Stmt → Option Expr
  | .insert _ _ => none
  | .delete p => p
  | .update _ p => p

/-- The values of an INSERT do not depend on a row. -/
def Stmt.Const : Stmt → Prop
  | .insert _ rows => ∀ es ∈ rows, ∀ e ∈ es, ∀ ρ ρ', eval false ρ e = eval false ρ' e
  | _ => True

/-- Each WHERE clause has a truth value, or its evaluation is an error, on each row there is when its statement runs. -/
def Tame (d : Disk) (ext : Value → Nat → Option Value) (cols : List Column) (xs : List Step) : Prop :=
  ∀ pre x post, xs = pre ++ x :: post → ∀ rows, Follows d ext cols [] pre rows → ∀ row ∈ rows, Clear x.stmt.filter row

end Verif.Dml
