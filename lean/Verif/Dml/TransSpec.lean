import Verif.Dml.Trans
import Verif.Dml.HistorySpec

/-!
# What a transaction of several statements means

Outside a transaction a table is a list of rows. In a transaction it is the list at its begin, and the present list, in which the rows the transaction has written are marked.
-/

namespace Verif.Dml

open Verif.Wire Verif.Bytes Verif.Sql Verif.Exec

/-- The assignments cannot be computed on the row, or the new row does not fit in the place of the old one. -/
def NoUpdate (d : Disk) (as : List (Nat × Expr)) (row : Row) : Prop :=
  (∃ a ∈ as, ∀ v, eval false (rowEnv row) a.2 ≠ .ok v) ∨ ∃ row' slots i info, Assigned as row row' ∧ d.rewrite slots i ⟨info, row'⟩ = false

open Classical in
/-- The rows after an UPDATE; the changed ones are marked. -/
noncomputable def changed (p : Option Expr) (upd : Row → Row) (rows : List (Row × Bool)) : List (Row × Bool) := rows.map fun x => if Selected p x.1 then (upd x.1, true) else x

/-- The selected rows are not marked, and `upd` gives what they become. -/
def Updates (as : List (Nat × Expr)) (p : Option Expr) (upd : Row → Row) (rows : List (Row × Bool)) : Prop := ∀ x ∈ rows, Selected p x.1 → x.2 = false ∧ Assigned as x.1 (upd x.1)

open Classical in
/-- What a statement in a transaction does to the rows. One that is answered with a number has done its work. An INSERT or UPDATE that is answered with an error has done it up to
the row on which it failed; an UPDATE fails on a row the transaction has written. -/
inductive Within (d : Disk) (ext : Value → Nat → Option Value) (cols : List Column) : Stmt → List (Row × Bool) → Answer → List (Row × Bool) → Prop where
  | insert {into vals rows} {new : List Row} : new.length = vals.length → (∀ (i : Nat) es row, vals[i]? = some es → new[i]? = some row → Stored ext cols into es row) →
    Within d ext cols (.insert into vals) rows (.count vals.length) (rows ++ new.map (·, true))
  | delete {p rows} : Within d ext cols (.delete p) rows (.count (rows.filter fun x => decide (Selected p x.1)).length) (rows.filter fun x => decide ¬Selected p x.1)
  | update {as p rows upd} : Updates as p upd rows →
    Within d ext cols (.update as p) rows (.count (rows.filter fun x => decide (Selected p x.1)).length) (changed p upd rows)
  | insertError {into vals rows} {new : List Row} : (new = [] ∨ new.length < vals.length) →
    (∀ (i : Nat) es row, vals[i]? = some es → new[i]? = some row → Stored ext cols into es row) →
    (¬Sound ext cols into vals ∨ ∃ h slot h', Heap.insert d h slot = .err h') → Within d ext cols (.insert into vals) rows .error (rows ++ new.map (·, true))
  | updateError {as p a x b upd} : Updates as p upd a → Selected p x.1 → (x.2 = true ∨ NoUpdate d as x.1) →
    Within d ext cols (.update as p) (a ++ x :: b) .error (changed p upd a ++ x :: b)

/-- A table outside and in a transaction. `again`: the transaction has deleted a row it had written before. -/
inductive St where
  | idle (rows : List Row)
  | busy (base : List Row) (rows : List (Row × Bool)) (again : Prop)

/-- What a scan of the client gives. -/
def St.rows : St → List Row
  | .idle rows => rows
  | .busy _ rows _ => rows.map (·.1)

/-- The statement is a DELETE that selects a row the transaction has written. -/
def DeletesOwn (s : Stmt) (rows : List (Row × Bool)) : Prop := ∃ p, s = .delete p ∧ ∃ x ∈ rows, x.2 = true ∧ Selected p x.1

/-- What a request does. -/
inductive Next (d : Disk) (ext : Value → Nat → Option Value) (cols : List Column) : St → Req → Answer → St → Prop where
  | alone {s rows r rows' a} : Effect d ext cols s rows r rows' → a = r.answer → Next d ext cols (.idle rows) (.query s) a (.idle rows')
  | within {base rows again s a rows'} : Within d ext cols s rows a rows' → Next d ext cols (.busy base rows again) (.query s) a (.busy base rows' (again ∨ DeletesOwn s rows))
  | begin {rows} : Next d ext cols (.idle rows) .begin .ok (.busy rows (rows.map (·, false)) False)
  | begun {base rows again} : Next d ext cols (.busy base rows again) .begin .error (.busy base rows again)
  | commit {base rows again} : Next d ext cols (.busy base rows again) .commit .ok (.idle (rows.map (·.1)))
  | rollback {base rows again} : Next d ext cols (.busy base rows again) .rollback .ok (.idle base)
  | noCommit {rows} : Next d ext cols (.idle rows) .commit .error (.idle rows)
  | noRollback {rows} : Next d ext cols (.idle rows) .rollback .error (.idle rows)

/-- Requests one after another. -/
inductive Nexts (d : Disk) (ext : Value → Nat → Option Value) (cols : List Column) : St → List Call → St → Prop where
  | nil {st} : Nexts d ext cols st [] st
  | cons {st x st' xs st''} : Next d ext cols st x.req x.answer st' → Nexts d ext cols st' xs st'' → Nexts d ext cols st (x :: xs) st''

/-- What is asked of a request: the WHERE clause has a truth value, or its evaluation is an error, on each row; the values of an INSERT are constants; a transaction that is rolled
back has not deleted a row it had written before. -/
def Covered : Req → St → Prop
  | .query s, st => s.Const ∧ ∀ row ∈ st.rows, Clear s.filter row
  | .rollback, .busy _ _ again => ¬again
  | _, _ => True

/-- This holds for each request of a history, whatever the rows are that the requests before may leave. -/
def AllCovered (d : Disk) (ext : Value → Nat → Option Value) (cols : List Column) (xs : List Call) : Prop :=
  ∀ pre x post, xs = pre ++ x :: post → ∀ st, Nexts d ext cols (.idle []) pre st → Covered x.req st

end Verif.Dml
