import Verif.Dml.History

/-!
# Transactions of several statements (`src/common/db_instance.rs`)

The requests of one client on one table: statements, which run in the transaction of the client or, if there is none, in one of their own, and the begin and end of transactions.
The table was created by CREATE TABLE before. What a commit writes to the disk and to the log is modelled in `Verif.Session`.
-/

namespace Verif.Dml

open Verif.Wire Verif.Bytes Verif.Sql Verif.Exec

/-- `DatabaseRequest` (protocol.rs) without prepared statements. -/
inductive Req where
  | query (s : Stmt)
  | begin
  | commit
  | rollback

/-- How a request ends: with an empty result, with a number of rows (which the executor counts; the client learns that there was no error), or with an error. -/
inductive Answer where
  | ok
  | count (n : Nat)
  | error
  deriving DecidableEq

def Reply.answer : Reply → Answer
  | .count n => .count n
  | .error => .error

/-- A request with its answer, and whether its rollback, if there was one, did all it had to. -/
structure Call where
  req : Req
  answer : Answer
  complete : Bool

/-- The table, the counter for keys, the next transaction, and the transaction of the client with its notes (`ClientSession::current_transaction`, client_impl.rs:233-240). -/
structure Conn where
  heap : Heap
  next : Int
  txn : Nat
  active : Option (Nat × Trace)

/-- The table after CREATE TABLE. -/
def Conn.new (first : Option Nat) (next : Int) (txn : Nat) : Conn := ⟨.new first, next, txn, none⟩

/-- `DBInstance::handle_network_query` (db_instance.rs:853-967) with `handle_begin_transaction`, `handle_commit` and `handle_rollback` (1010-1075). A statement that fails in the
transaction of the client leaves what it did, and the transaction goes on (936-941). A flush that fails at the end of a commit is left out. A statement that panics or does not end
gives no answer. -/
inductive Conn.Step (d : Disk) (ext : Value → Nat → Option Value) (seen : Seen) (cols : List Column) (c : Conn) : Call → Conn → Prop where
  | alone {x db} : c.active = none → Db.Step d ext seen cols ⟨c.heap, c.next, c.txn, true⟩ x db →
    Conn.Step d ext seen cols c ⟨.query x.stmt, x.reply.answer, x.complete⟩ ⟨db.heap, db.next, db.txn, none⟩
  | within {t tr s i tr'} : c.active = some (t, tr) → Stmt.Runs d ext seen cols ⟨c.heap, c.next, t, true⟩ s i tr' .done →
    Conn.Step d ext seen cols c ⟨.query s, .count i.count, true⟩ ⟨i.heap, i.next, c.txn, some (t, tr ++ tr')⟩
  | failed {t tr s i tr'} : c.active = some (t, tr) → Stmt.Runs d ext seen cols ⟨c.heap, c.next, t, true⟩ s i tr' .err →
    Conn.Step d ext seen cols c ⟨.query s, .error, true⟩ ⟨i.heap, i.next, c.txn, some (t, tr ++ tr')⟩
  | begin : c.active = none → Conn.Step d ext seen cols c ⟨.begin, .ok, true⟩ ⟨c.heap, c.next, c.txn + 1, some (c.txn, [])⟩
  | begun {a} : c.active = some a → Conn.Step d ext seen cols c ⟨.begin, .error, true⟩ c
  | commit {t tr order} : c.active = some (t, tr) → Order tr order → Conn.Step d ext seen cols c ⟨.commit, .ok, true⟩ ⟨order.foldl (commitRow d t) c.heap, c.next, c.txn, none⟩
  | rollback {t tr order} : c.active = some (t, tr) → Order tr order →
    Conn.Step d ext seen cols c ⟨.rollback, .ok, (order.foldl (abortRow d t tr) (c.heap, true)).2⟩ ⟨(order.foldl (abortRow d t tr) (c.heap, true)).1, c.next, c.txn, none⟩
  | noCommit : c.active = none → Conn.Step d ext seen cols c ⟨.commit, .error, true⟩ c
  | noRollback : c.active = none → Conn.Step d ext seen cols c ⟨.rollback, .error, true⟩ c

/-- Requests one after another. -/
inductive Conn.Run (d : Disk) (ext : Value → Nat → Option Value) (seen : Seen) (cols : List Column) : Conn → List Call → Conn → Prop where
  | nil {c} : Conn.Run d ext seen cols c [] c
  | cons {c x c' xs c''} : Conn.Step d ext seen cols c x c' → Conn.Run d ext seen cols c' xs c'' → Conn.Run d ext seen cols c (x :: xs) c''

end Verif.Dml
