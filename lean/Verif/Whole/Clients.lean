import Verif.Whole.Model

/-!
# Several clients

Each client has a session with its own transaction (`ClientSession`, db_instance.rs:380-400); the tables, the counters for keys and the numbers of transactions are shared. A request is
handled as in `Verif.Whole.Model` with the transaction of its session. The requests are handled one after another: what happens while the statements of two clients run at the same time
is not modelled here.
-/

namespace Verif.Whole

open Verif.Wire Verif.Bytes Verif.Sql Verif.Exec Verif.Dml

/-- The tables and the sessions of all clients. -/
structure Host where
  heap : Nat → Dml.Heap
  next : Nat → Int
  txn : Nat
  active : Nat → Option (Nat × (Nat → Trace))

/-- The tables after CREATE TABLE; no client is in a transaction. -/
def Host.new (first : Nat → Option Nat) (next : Nat → Int) (txn : Nat) : Host := ⟨fun t => .new (first t), next, txn, fun _ => none⟩

/-- What a request of the client sees: the session of the client (`handle_network_query`, db_instance.rs:853-880). -/
def Host.view (v : Host) (c : Nat) : Server := ⟨v.heap, v.next, v.txn, v.active c⟩

/-- What a request of the client leaves. -/
def Host.put (v : Host) (c : Nat) (s : Server) : Host := ⟨s.heap, s.next, s.txn, fun u => if u = c then s.active else v.active u⟩

/-- What a client does: it sends a request and gets a reply, or its connection ends. -/
inductive Event where
  | ask (x : Call)
  | leave (complete : Nat → Bool)

/-- `handle_network_query`, and `remove_client_session` (db_instance.rs:1105-1118) when the connection ends (connection.rs:321-340), which rolls an open transaction back. -/
inductive Host.Step (d : Disk) (ext : Value → Nat → Option Value) (seen : Server → Nat → Seen) (cat : Catalog) (ch : Choices) (v : Host) (c : Nat) : Event → Host → Prop where
  | ask {x s} : Server.Step d ext seen cat ch (v.view c) x s → Host.Step d ext seen cat ch v c (.ask x) (v.put c s)
  | leave {r b s} : Server.Step d ext seen cat ch (v.view c) ⟨.rollback, r, b⟩ s → Host.Step d ext seen cat ch v c (.leave b) (v.put c s)

/-- Events one after another, each of some client. -/
inductive Host.Run (d : Disk) (ext : Value → Nat → Option Value) (seen : Server → Nat → Seen) (cat : Catalog) (ch : Choices) : Host → List (Nat × Event) → Host → Prop where
  | nil {v} : Host.Run d ext seen cat ch v [] v
  | cons {v c x v' xs v''} : Host.Step d ext seen cat ch v c x v' → Host.Run d ext seen cat ch v' xs v'' → Host.Run d ext seen cat ch v ((c, x) :: xs) v''

end Verif.Whole
