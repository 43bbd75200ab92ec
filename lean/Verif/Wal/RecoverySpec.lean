import Verif.Wal.Recovery

/-!
# What recovery should do

A history of transactions that begin, insert, update and delete rows, and commit.
-/

namespace Verif.Wal

open Verif.Wire

/-- What a user sees of a row: nothing, if it was never inserted or is deleted. -/
abbrev Row := Option (List Value)

/-- A change of one row. -/
inductive Change where
  | insert (new : List Value)
  | update (old new : List Value)
  | delete (old : List Value)

/-- The row before and after the change. -/
def Change.before : Change → Row
  | .insert _ => none
  | .update old _ | .delete old => some old
def Change.after : Change → Row
  | .insert new | .update _ new => some new
  | .delete _ => none

def Change.isInsert : Change → Bool
  | .insert _ => true
  | _ => false

/-- Something a transaction does. -/
inductive Act where
  | begin (t : Nat)
  | change (t : Nat) (rid : Rid) (c : Change)
  | commit (t : Nat)

def Act.txn : Act → Nat
  | .begin t | .change t _ _ | .commit t => t

/-- A change to the row: transaction, row before, row after. -/
def Act.changeTo (rid : Rid) : Act → Option (Nat × Row × Row)
  | .change t rid' c => if rid' = rid then some (t, c.before, c.after) else none
  | _ => none

/-- The changes to a row, in order. -/
def changesTo (acts : List Act) (rid : Rid) : List (Nat × Row × Row) := acts.filterMap (Act.changeTo rid)

/-- The act inserts a row into the page. -/
def Act.insertsInto (p : Nat) : Act → Bool
  | .change _ rid c => c.isInsert && rid.page == p
  | _ => false

/-- The transactions that have committed. -/
def committed (acts : List Act) (t : Nat) : Bool := acts.any fun
  | .commit t' => t' == t
  | _ => false

/-- The row as of the committed transactions: what the last change by a committed transaction made of it. -/
def committedValue (init : Rid → Row) (acts : List Act) (rid : Rid) : Row :=
  match ((changesTo acts rid).filter fun w => committed acts w.1).getLast? with
  | some w => w.2.2
  | none => init rid

/-- The log record of an act, with its LSN and the LSN of the transaction's previous record. -/
def Act.rec_ (lsn prev : Nat) : Act → Rec
  | .begin t => { blank t prev .begin with lsn := lsn }
  | .change t rid c => match c with
    | .insert new => { blank t prev .insert with lsn := lsn, insertRid := some rid, insertTuple := some new }
    | .update old new => { blank t prev .update with lsn := lsn, updateRid := some rid, oldTuple := some old, newTuple := some new }
    | .delete old => { blank t prev .markDelete with lsn := lsn, deleteRid := some rid, deleteTuple := some old }
  | .commit t => { blank t prev .commit with lsn := lsn }

/-- The LSN of a transaction's last record. -/
def lastLsn (log : List Rec) (t : Nat) : Nat := match log.reverse.find? (·.txn == t) with
  | some r => r.lsn
  | none => 2 ^ 64 - 1

/-- The log of a history: LSNs count up from zero (C29), records of a transaction are chained. -/
def logOf (acts : List Act) : List Rec := acts.foldl (fun log a => log ++ [a.rec_ log.length (lastLsn log a.txn)]) []

/-- The running state of a history. -/
structure Run where
  active : List Nat
  finished : List Nat
  cur : Rid → Row
  /-- the number of slots of each page -/
  len : Nat → Nat
  /-- the transaction that has written the row and not yet committed -/
  owner : Rid → Option Nat

/-- A legal next act: transactions begin once, act while active, change a row only if no other active transaction has changed it (two-phase
locking), and log the row as it is before the change: an insert changes nothing to a row, an update or delete meets the row it logs. A row is
inserted into the next slot of its page. -/
def Run.legal (s : Run) : Act → Prop
  | .begin t => t ∉ s.active ∧ t ∉ s.finished
  | .change t rid c => t ∈ s.active ∧ (s.owner rid = none ∨ s.owner rid = some t) ∧ c.before = s.cur rid ∧
      (c.isInsert = true → rid.slot = s.len rid.page)
  | .commit t => t ∈ s.active

def Run.next (s : Run) : Act → Run
  | .begin t => { s with active := t :: s.active }
  | .change t rid c => { s with
      cur := fun r => if r = rid then c.after else s.cur r
      len := fun p => if c.isInsert && rid.page == p then s.len p + 1 else s.len p
      owner := fun r => if r = rid then some t else s.owner r }
  | .commit t => { s with
      active := s.active.filter (· ≠ t)
      finished := t :: s.finished
      owner := fun r => if s.owner r = some t then none else s.owner r }

def Run.start (init : Rid → Row) (len : Nat → Nat) : Run := ⟨[], [], init, len, fun _ => none⟩

/-- All acts are legal. -/
def Run.Legal : Run → List Act → Prop
  | _, [] => True
  | s, a :: as => s.legal a ∧ (s.next a).Legal as

/-- A legal history on pages with `len` slots whose rows are first `init`. -/
def Legal (init : Rid → Row) (len : Nat → Nat) (acts : List Act) : Prop := (Run.start init len).Legal acts

end Verif.Wal
