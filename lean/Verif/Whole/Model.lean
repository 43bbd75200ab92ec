import Verif.Dml.Trans
import Verif.Plan.FromSpec

/-!
# Requests of a client on a database of several tables

The parts are modelled elsewhere: statements and transactions on one table in `Verif.Dml`, planner, optimizer and executors of a SELECT in `Verif.Plan`. Here they are put together:
the tables of a database, the requests of one client, and a SELECT whose sequential scans read the tables as the statements have left them. There are no indexes, the tables were
created by CREATE TABLE before, and the names in a FROM clause have been looked up in the catalog.
-/

namespace Verif.Whole

open Verif.Wire Verif.Bytes Verif.Sql Verif.Exec Verif.Dml

/-- The catalog: the columns of each table, and which tables there are. -/
structure Catalog where
  cols : Nat → List Column
  known : Nat → Bool

/-- What the standard library decides: the text of a value for DISTINCT, the order in which a hash map is drained, and a binary heap; and the expressions the optimizer takes for
constants. -/
structure Choices where
  debug : Value → List Byte
  drain : List Group → List Group
  heap : Exec.Heap Entry
  isConst : Expr → Bool

/-- Tables with these rows, without indexes. -/
def Choices.world (ch : Choices) (rows : Nat → List Row) : Plan.World := ⟨rows, fun _ => [], fun _ _ => none, ch.debug, ch.drain, ch.heap⟩

/-- The rows of the tuples a table scan reads. -/
def rowsOnly {σ β γ : Type} (m : Machine σ (β × γ × Slot)) : Machine σ Row := fun s => match m s with
  | .emit a s' => .emit a.2.2.row s'
  | .cont s' => .cont s'
  | .stop e => .stop e

/-- `SeqScanExecutor` (seq_scan_executor.rs) on the table as it is. -/
def seqScan (d : Disk) (h : Dml.Heap) : Plan.Exe := ⟨_, rowsOnly (h.scan d (h.get d)), h.start⟩

/-- `DatabaseRequest` (protocol.rs) without prepared statements. -/
inductive Req where
  | query (t : Nat) (s : Stmt)
  | select (f : Plan.From) (q : Plan.Select)
  | begin
  | commit
  | rollback

/-- How a request ends. A number of rows is counted by the executor; the client learns that there was no error. -/
inductive Reply where
  | ok
  | count (n : Nat)
  | rows (out : List Row)
  | error

def answered : Answer → Reply
  | .ok => .ok
  | .count n => .count n
  | .error => .error

/-- A request with its reply, and whether its rollback, if there was one, did all it had to on each table. -/
structure Call where
  req : Req
  reply : Reply
  complete : Nat → Bool

/-- The tables, the counters for keys, the next transaction, and the transaction of the client with its notes for each table. -/
structure Server where
  heap : Nat → Dml.Heap
  next : Nat → Int
  txn : Nat
  active : Option (Nat × (Nat → Trace))

/-- The tables after CREATE TABLE. -/
def Server.new (first : Nat → Option Nat) (next : Nat → Int) (txn : Nat) : Server := ⟨fun t => .new (first t), next, txn, none⟩

/-- What a statement on one table sees of the server. -/
def Server.conn (v : Server) (t : Nat) : Conn := ⟨v.heap t, v.next t, v.txn, v.active.map fun a => (a.1, a.2 t)⟩

/-- The server after a statement on one table. -/
def Server.put (v : Server) (t : Nat) (c : Conn) : Server where
  heap u := if u = t then c.heap else v.heap u
  next u := if u = t then c.next else v.next u
  txn := c.txn
  active := match c.active, v.active with
    | some a, some b => some (a.1, fun u => if u = t then a.2 else b.2 u)
    | _, _ => none

/-- A SELECT (`ExecutionEngine::execute_sql`, execution_engine.rs:147-240, 590-690): it is planned, optimized and run; each table of the FROM clause is in the catalog. One that
panics gives no reply. -/
inductive Selects (d : Disk) (cat : Catalog) (ch : Choices) (heaps : Nat → Dml.Heap) (f : Plan.From) (q : Plan.Select) : Reply → Prop where
  | rows {p p' out} : Plan.planSelect f [] q = some p → Plan.optimize (fun _ => none) ch.isConst cat.known p = some p' →
    Yields (Plan.compileOn (ch.world fun _ => []) (fun t => seqScan d (heaps t)) p').m (Plan.compileOn (ch.world fun _ => []) (fun t => seqScan d (heaps t)) p').s out .done →
    Selects d cat ch heaps f q (.rows out)
  | failed {p p' out} : Plan.planSelect f [] q = some p → Plan.optimize (fun _ => none) ch.isConst cat.known p = some p' →
    Yields (Plan.compileOn (ch.world fun _ => []) (fun t => seqScan d (heaps t)) p').m (Plan.compileOn (ch.world fun _ => []) (fun t => seqScan d (heaps t)) p').s out .err →
    Selects d cat ch heaps f q .error
  | unplanned : Plan.planSelect f [] q = none → Selects d cat ch heaps f q .error
  | refused {p} : Plan.planSelect f [] q = some p → Plan.optimize (fun _ => none) ch.isConst cat.known p = none → Selects d cat ch heaps f q .error

/-- The tables of the FROM clause are those of the catalog (`process_table_factor`, plan_builder.rs:1585-1640). -/
def LookedUp (cat : Catalog) (f : Plan.From) : Prop := ∀ T ∈ f.tables, cat.known T.oid = true ∧ T.cols = (cat.cols T.oid).map (·.name)

/-- `DBInstance::handle_network_query` (db_instance.rs:853-967) with `handle_begin_transaction`, `handle_commit` and `handle_rollback` (1010-1075). A SELECT outside a transaction runs
in one of its own, which has written nothing. `seen` is what the check of foreign keys sees of the other tables. -/
inductive Server.Step (d : Disk) (ext : Value → Nat → Option Value) (seen : Server → Nat → Seen) (cat : Catalog) (ch : Choices) (v : Server) : Call → Server → Prop where
  | query {t s a b c} : Conn.Step d ext (seen v t) (cat.cols t) (v.conn t) ⟨.query s, a, b⟩ c → Server.Step d ext seen cat ch v ⟨.query t s, answered a, fun _ => b⟩ (v.put t c)
  | select {f q r} : LookedUp cat f → Selects d cat ch v.heap f q r →
    Server.Step d ext seen cat ch v ⟨.select f q, r, fun _ => true⟩ { v with txn := if v.active = none then v.txn + 1 else v.txn }
  | begin : v.active = none → Server.Step d ext seen cat ch v ⟨.begin, .ok, fun _ => true⟩ { v with txn := v.txn + 1, active := some (v.txn, fun _ => []) }
  | begun {a} : v.active = some a → Server.Step d ext seen cat ch v ⟨.begin, .error, fun _ => true⟩ v
  | commit {n trs} {order : Nat → List Rid} : v.active = some (n, trs) → (∀ t, Order (trs t) (order t)) →
    Server.Step d ext seen cat ch v ⟨.commit, .ok, fun _ => true⟩ { v with heap := fun t => (order t).foldl (commitRow d n) (v.heap t), active := none }
  | rollback {n trs} {order : Nat → List Rid} : v.active = some (n, trs) → (∀ t, Order (trs t) (order t)) →
    Server.Step d ext seen cat ch v ⟨.rollback, .ok, fun t => ((order t).foldl (abortRow d n (trs t)) (v.heap t, true)).2⟩
      { v with heap := fun t => ((order t).foldl (abortRow d n (trs t)) (v.heap t, true)).1, active := none }
  | noCommit : v.active = none → Server.Step d ext seen cat ch v ⟨.commit, .error, fun _ => true⟩ v
  | noRollback : v.active = none → Server.Step d ext seen cat ch v ⟨.rollback, .error, fun _ => true⟩ v

/-- Requests one after another. -/
inductive Server.Run (d : Disk) (ext : Value → Nat → Option Value) (seen : Server → Nat → Seen) (cat : Catalog) (ch : Choices) : Server → List Call → Server → Prop where
  | nil {v} : Server.Run d ext seen cat ch v [] v
  | cons {v x v' xs v''} : Server.Step d ext seen cat ch v x v' → Server.Run d ext seen cat ch v' xs v'' → Server.Run d ext seen cat ch v (x :: xs) v''

end Verif.Whole
