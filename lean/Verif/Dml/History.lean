import Verif.Dml.Model

/-!
# Statements outside a transaction (`src/common/db_instance.rs`, `src/concurrency/transaction_manager.rs`)

A statement of a client without a transaction is run in a transaction of its own, which is committed when the statement succeeds and aborted when it fails. Here the statements
of one client on one table, one after another. The flush at the end of a commit is modelled in `Verif.Session`, old versions in `Verif.Mvcc`.
-/

namespace Verif.Dml

open Verif.Wire Verif.Bytes Verif.Sql Verif.Exec

/-- What a transaction notes of its writes: the record id, and for a changed row the undo log entry, which is the row and whether it was committed
(transactional_table_heap.rs:383, 528-579, 785-824). An inserted row has none. The undo log entry of a change that then fails is left out: its record id is not in the write set,
so an abort does not look for it. -/
abbrev Trace := List (Rid × Option (Row × Bool))

/-- `get_undo_link` and `get_undo_log` (transaction_manager.rs:893-898, 990-1052) for a row the transaction has written: the newest entry. -/
def Trace.undo (tr : Trace) (r : Rid) : Option (Row × Bool) := tr.reverse.findSome? fun w => if w.1 = r then w.2 else none

/-- `changeStep` with the notes of the transaction (transactional_table_heap.rs:528-579, 785-824). -/
def changeStepL (d : Disk) (p : Option Expr) (change : Heap → Rid → Row → Except End Heap) (s : Run × Trace) : (Run × Trace) ⊕ End := match s.1.heap.look d (s.1.heap.get d) s.1.pos with
  | .ended => .inr .done
  | .moved q => .inl ({ s.1 with pos := q }, s.2)
  | .found _ r slot q => match keep p slot.row with
    | none => .inr .panic
    | some false => .inl ({ s.1 with pos := q }, s.2)
    | some true => match change s.1.heap r slot.row with
      | .ok h => .inl (⟨h, q, s.1.count + 1⟩, s.2 ++ [(r, some (slot.row, slot.info.committed))])
      | .error e => .inr e

/-- What a DELETE does with a row (delete_executor.rs:301-319). -/
def deleteRow (d : Disk) (txn : Nat) (h : Heap) (r : Rid) (_ : Row) : Except End Heap := match h.delete d txn r with
  | some h' => .ok h'
  | none => .error .err

/-- What an UPDATE does with a row (update_executor.rs:119-177). -/
def updateRow (d : Disk) (txn : Nat) (as : List (Nat × Expr)) (h : Heap) (r : Rid) (row : Row) : Except End Heap := match assign row as row with
  | .error e => .error e
  | .ok row' => match h.update d txn r row' with
    | some h' => .ok h'
    | none => .error .err

/-- `insertRows` with the notes of the transaction (transactional_table_heap.rs:383). -/
def insertRowsL (d : Disk) (ext : Value → Nat → Option Value) (seen : Seen) (txn : Nat) (names : List String) (cols : List Column) : List Row → Ins → Trace → (Ins × Trace) × End
  | [], s, tr => ((s, tr), .done)
  | row :: rows, s, tr =>
    let row := mapRow ext names cols row
    if fkOk (seen s.heap) cols row then match expand cols row s.next with
      | none => ((s, tr), .err)
      | some (row, n) => match s.heap.insert d ⟨⟨txn, false, false⟩, row⟩ with
        | .ok h r => insertRowsL d ext seen txn names cols rows ⟨h, n, s.count + 1⟩ (tr ++ [(r, none)])
        | .err h => (({ s with heap := h, next := n }, tr), .err)
    else ((s, tr), .err)

/-- `insertStmt` with the notes of the transaction. -/
def insertStmtL (d : Disk) (ext : Value → Nat → Option Value) (seen : Seen) (txn : Nat) (cols : List Column) (into : List String) (src : Source) (s : Ins) : (Ins × Trace) × End :=
  match sourceRows ext cols into src with
  | .error e => ((s, []), e)
  | .ok (names, rows) => insertRowsL d ext seen txn names cols rows s []

/-- `TablePage::update_tuple_meta` (table_page.rs:382-457) of a slot, deleted or not. -/
def Heap.setInfo (d : Disk) (h : Heap) (r : Rid) (i : Info) : Option Heap := match h.getPage d r.page with
  | none => none
  | some pg => match pg.slots[r.slot]? with
    | none => none
    | some s => some (h.set r.page { pg with slots := pg.slots.set r.slot ⟨i, s.row⟩ })

/-- One round of the loop of `TransactionManager::commit` (transaction_manager.rs:529-574). -/
def commitRow (d : Disk) (txn : Nat) (h : Heap) (r : Rid) : Heap := match h.getPage d r.page with
  | none => h
  | some pg => match pg.slots[r.slot]? with
    | none => h
    | some s => if s.info.creator = txn then (h.setInfo d r { s.info with committed := true }).getD h else h

/-- One round of the loop of `TransactionManager::abort` (transaction_manager.rs:633-793) with `rollback_tuple` (transactional_table_heap.rs:294-303, table_heap.rs:419-504). What
fails is only logged: the flag says whether nothing failed. -/
def abortRow (d : Disk) (txn : Nat) (tr : Trace) (x : Heap × Bool) (r : Rid) : Heap × Bool := match tr.undo r with
  | some (row, c) => (match x.1.setInfo d r ⟨txn, c, false⟩ with
    | none => (x.1, false)
    | some h => match h.write d r ⟨⟨txn, c, false⟩, row⟩ with
      | none => (h, false)
      | some h' => (h', x.2))
  | none => (match x.1.setInfo d r ⟨txn, false, true⟩ with
    | none => (x.1, false)
    | some h => (h, x.2))

/-- A statement. -/
inductive Stmt where
  | insert (into : List String) (rows : List (List Expr))
  | delete (p : Option Expr)
  | update (as : List (Nat × Expr)) (p : Option Expr)

/-- How a statement ends: with a number of rows, which the executor counts (of it the client learns only that there was no error, execution_engine.rs:404-432), or with an error. -/
inductive Reply where
  | count (n : Nat)
  | error
  deriving DecidableEq

/-- A table, the counter for keys, the next transaction, and whether the transaction manager knows the table: `create_table` registers it (database.rs:386-391), but the tables that
are read back at a restart are not registered (database.rs:584-592, catalog_impl.rs:659-733). -/
structure Db where
  heap : Heap
  next : Int
  txn : Nat
  registered : Bool

/-- `TableHeap::new` (table_heap.rs:315-342): a table with one empty page, or without pages if the buffer pool had no frame for one. -/
def Heap.new (first : Option Nat) : Heap where
  page p := if first = some p then some ⟨none, []⟩ else none
  first := first
  last := first

/-- The table after CREATE TABLE. -/
def Db.new (first : Option Nat) (next : Int) (txn : Nat) : Db := ⟨.new first, next, txn, true⟩

/-- A statement runs in transaction `txn`: the table, the counter, the number of rows and the notes at the end. -/
inductive Stmt.Runs (d : Disk) (ext : Value → Nat → Option Value) (seen : Seen) (cols : List Column) (db : Db) : Stmt → Ins → Trace → End → Prop where
  | insert {into rows s tr e} : insertStmtL d ext seen db.txn cols into (.values rows) ⟨db.heap, db.next, 0⟩ = ((s, tr), e) → Stmt.Runs d ext seen cols db (.insert into rows) s tr e
  | delete {p u tr e} : Ran (changeStepL d p (deleteRow d db.txn)) (⟨db.heap, db.heap.start, 0⟩, []) (u, tr) e → Stmt.Runs d ext seen cols db (.delete p) ⟨u.heap, db.next, u.count⟩ tr e
  | update {as p u tr e} : Ran (changeStepL d p (updateRow d db.txn as)) (⟨db.heap, db.heap.start, 0⟩, []) (u, tr) e →
    Stmt.Runs d ext seen cols db (.update as p) ⟨u.heap, db.next, u.count⟩ tr e

/-- A statement with its reply, and whether its rollback, if there was one, did all it had to. -/
structure Step where
  stmt : Stmt
  reply : Reply
  complete : Bool

/-- The order in which the hash sets yield the write set (transaction.rs:628-643). -/
def Order (tr : Trace) (order : List Rid) : Prop := order.Nodup ∧ ∀ r, r ∈ order ↔ ∃ w ∈ tr, w.1 = r

/-- `DBInstance::execute_sql` (db_instance.rs:588-647) with `TransactionManager::commit` and `abort` (transaction_manager.rs:481-580, 586-807). A statement that panics or does not
end gives no reply. -/
inductive Db.Step (d : Disk) (ext : Value → Nat → Option Value) (seen : Seen) (cols : List Column) (db : Db) : Dml.Step → Db → Prop where
  | ok {s i tr order} : Stmt.Runs d ext seen cols db s i tr .done → Order tr order →
    Db.Step d ext seen cols db ⟨s, .count i.count, true⟩ ⟨if db.registered then order.foldl (commitRow d db.txn) i.heap else i.heap, i.next, db.txn + 1, db.registered⟩
  | err {s i tr order} : Stmt.Runs d ext seen cols db s i tr .err → Order tr order →
    Db.Step d ext seen cols db ⟨s, .error, if db.registered then (order.foldl (abortRow d db.txn tr) (i.heap, true)).2 else true⟩
      ⟨if db.registered then (order.foldl (abortRow d db.txn tr) (i.heap, true)).1 else i.heap, i.next, db.txn + 1, db.registered⟩

/-- Statements one after another. -/
inductive Db.Run (d : Disk) (ext : Value → Nat → Option Value) (seen : Seen) (cols : List Column) : Db → List Dml.Step → Db → Prop where
  | nil {db} : Db.Run d ext seen cols db [] db
  | cons {db x db' xs db''} : Db.Step d ext seen cols db x db' → Db.Run d ext seen cols db' xs db'' → Db.Run d ext seen cols db (x :: xs) db''

end Verif.Dml
