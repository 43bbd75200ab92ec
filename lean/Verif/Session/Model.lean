import Verif.Locks.Manager

/-!
# Client sessions (`src/common/db_instance.rs`, `src/sql/execution/execution_engine.rs`, `src/concurrency/transaction_manager_factory.rs`)

Which transaction each statement of each client runs in, and which transactions are committed. What a statement does to the tables is modelled in `Verif.Dml` and `Verif.Mvcc`; here it
is an entry in a log. A statement is one step: the engine is locked while it runs (db_instance.rs:887-890). Locks, the write-ahead log and the transaction map are left out.
-/

namespace Verif.Session

open Verif.Locks (Iso)

/-- `TransactionState`, as far as statements and the transaction manager distinguish it. -/
inductive St where
  | running
  | committed
  | aborted
  deriving DecidableEq, Repr

/-- A parsed statement. ROLLBACK TO SAVEPOINT is a ROLLBACK (rollback_transaction_executor.rs:321-332). -/
inductive Stmt (D : Type) where
  | data (d : D)
  | begin (iso : Iso)
  | commit (chain : Bool)
  | rollback (chain : Bool)

/-- What has happened: a statement ran in a transaction (`did`), a transaction was committed, or rolled back. -/
inductive Event (D : Type) where
  | did (t : Nat) (d : D)
  | committed (t : Nat)
  | aborted (t : Nat)
  deriving DecidableEq

/-- `ClientSession` (client_impl.rs:233-240). -/
structure Client where
  current : Option Nat
  iso : Iso

/-- The database instance, as far as sessions go. `nextClient` is `NEXT_CLIENT_ID` (connection.rs:226). -/
structure World (D : Type) where
  next : Nat
  txn : Nat → Option (Iso × St)
  log : List (Event D)
  nextClient : Nat
  client : Nat → Option Client
  /-- `prepared_statements` (db_instance.rs:387). -/
  prepared : Nat → Option D

/-- What the layers below decide, given what has happened: how a statement ends (`none` is an error, `some false` that UPDATE or DELETE found no row, execution_engine.rs:456-475), and
whether the pages of a committed transaction can be flushed. `writes` says whether a statement needs a running transaction (transactional_table_heap.rs:346, 489, 741). -/
structure Env (D : Type) where
  writes : D → Bool
  result : List (Event D) → Nat → D → Option Bool
  flush : List (Event D) → Nat → Bool

variable {D : Type}

/-- A new instance. -/
def World.new : World D := ⟨0, fun _ => none, [], 1, fun _ => none, fun _ => none⟩

def World.setTxn (w : World D) (t : Nat) (x : Iso × St) : World D := { w with txn := fun t' => if t' = t then some x else w.txn t' }

def World.setClient (w : World D) (c : Nat) (x : Option Client) : World D := { w with client := fun c' => if c' = c then x else w.client c' }

/-- `TransactionManager::begin` (transaction_manager.rs:444-469); the shutdown flag is left out. -/
def World.begin (w : World D) (iso : Iso) : World D × Nat := ({ w.setTxn w.next (iso, .running) with next := w.next + 1 }, w.next)

/-- `TransactionManager::commit` (transaction_manager.rs:481-580). -/
def World.commit (w : World D) (t : Nat) : World D × Bool := match w.txn t with
  | some (iso, .running) => ({ w.setTxn t (iso, .committed) with log := w.log ++ [.committed t] }, true)
  | some (_, .committed) => (w, true)
  | _ => (w, false)

/-- `TransactionManager::abort` (transaction_manager.rs:586-807). -/
def World.abort (w : World D) (t : Nat) : World D := match w.txn t with
  | some (iso, .running) => { w.setTxn t (iso, .aborted) with log := w.log ++ [.aborted t] }
  | _ => w

/-- `TransactionManagerFactory::commit_transaction` (transaction_manager_factory.rs:305-360): after the commit the pages of the write set are flushed; if that fails, so does the call. -/
def World.factoryCommit (env : Env D) (w : World D) (t : Nat) : World D × Bool :=
  let x := w.commit t
  if x.2 then (x.1, env.flush x.1.log t) else (x.1, false)

/-- `ExecutionEngine::execute_plan` (execution_engine.rs:397-687) with `commit_transaction`, `abort_transaction` and `chain_transaction` (866-1073) in transaction `t`. The transaction that
BEGIN and AND CHAIN begin is known only to the execution context, which is dropped. -/
def World.execute (env : Env D) (w : World D) (t : Nat) : Stmt D → World D × Option Bool
  | .data d => match w.txn t with
    | some (_, .running) => ({ w with log := w.log ++ [.did t d] }, env.result w.log t d)
    | _ => (w, if env.writes d then none else env.result w.log t d)
  | .begin iso => ((w.begin iso).1, some true)
  | .commit chain =>
    let x := w.commit t
    if x.2 && !env.flush x.1.log t then (x.1, none)
    else (if chain then (x.1.begin ((w.txn t).map (·.1) |>.getD .readCommitted)).1 else x.1, some x.2)
  | .rollback chain =>
    let w' := w.abort t
    (if chain then (w'.begin ((w.txn t).map (·.1) |>.getD .readCommitted)).1 else w', some true)

/-- What the client is told: results (which ones is left out) or an error. -/
inductive Reply where
  | results
  | error
  deriving DecidableEq, Repr

/-- `handle_network_query` of a `Query` (db_instance.rs:859-917). -/
def World.query (env : Env D) (w : World D) (c : Nat) (s : Stmt D) : World D × Reply := match w.client c with
  | none => (w, .error)
  | some ⟨some t, _⟩ => match w.execute env t s with
    | (w, some _) => (w, .results)
    | (w, none) => (w, .error)
  | some ⟨none, iso⟩ =>
    let (w, t) := w.begin iso
    match w.execute env t s with
    | (w, some _) => (match w.factoryCommit env t with
      | (w, true) => (w, .results)
      | (w, false) => (w.abort t, .error))
    | (w, none) => (w.abort t, .error)

/-- `handle_begin_transaction` (db_instance.rs:1010-1032). -/
def World.startTxn (w : World D) (c : Nat) (iso : Iso) : World D × Reply := match w.client c with
  | some ⟨none, _⟩ => let (w, t) := w.begin iso; (w.setClient c (some ⟨some t, iso⟩), .results)
  | _ => (w, .error)

/-- `handle_commit` (db_instance.rs:1035-1057). -/
def World.commitTxn (env : Env D) (w : World D) (c : Nat) : World D × Reply := match w.client c with
  | some ⟨some t, iso⟩ => match (w.setClient c (some ⟨none, iso⟩)).factoryCommit env t with
    | (w, true) => (w, .results)
    | (w, false) => (w, .error)
  | _ => (w, .error)

/-- `handle_rollback` (db_instance.rs:1060-1072). -/
def World.rollbackTxn (w : World D) (c : Nat) : World D × Reply := match w.client c with
  | some ⟨some t, iso⟩ => ((w.setClient c (some ⟨none, iso⟩)).abort t, .results)
  | _ => (w, .error)

/-- `handle_sql_query`, which is what `Prepare` does (db_instance.rs:941-947, 970-1007), with `execute_sql` and `execute_transaction` (588-647, 663-677). -/
def World.prepare (env : Env D) (w : World D) (c : Nat) (s : Stmt D) : World D × Reply := match w.client c with
  | none => (w, .error)
  | some ⟨some t, _⟩ => match w.execute env t s with
    | (w, some true) => (w, .results)
    | (w, _) => (w, .error)
  | some ⟨none, iso⟩ =>
    let (w, t) := w.begin iso
    match w.execute env t s with
    | (w, some true) => (match s with
      | .rollback _ => (w, .results)
      | _ => match w.factoryCommit env t with
        | (w, true) => (w, .results)
        | (w, false) => (w.abort t, .error))
    | (w, _) => (w.abort t, .error)

/-- `handle_execute_statement` (db_instance.rs:1121-1199) with `execute_prepared_statement` and `execute_prepared_statement_autocommit` (1224-1275); the parameters are not used
(execution_engine.rs:837-846), and that their number and types must fit is left out. -/
def World.runPrepared (env : Env D) (w : World D) (c n : Nat) : World D × Reply := match w.client c, w.prepared n with
  | some ⟨some t, _⟩, some d => (match w.execute env t (.data d) with
    | (w, some true) => (w, .results)
    | (w, _) => (w, .error))
  | some ⟨none, iso⟩, some d =>
    let (w, t) := w.begin iso
    (match w.execute env t (.data d) with
    | (w, some true) => (match w.factoryCommit env t with
      | (w, true) => (w, .results)
      | (w, false) => (w, .error))
    | (w, _) => (w.abort t, .error))
  | _, _ => (w, .error)

/-- `handle_close_statement` (db_instance.rs:1202-1221). -/
def World.closeStmt (w : World D) (c n : Nat) : World D × Reply := match w.client c with
  | none => (w, .error)
  | some _ => ({ w with prepared := fun m => if m = n then none else w.prepared m }, .results)

/-- What happens to the server. -/
inductive Call (D : Type) where
  | connect
  | query (c : Nat) (s : Stmt D)
  | begin (c : Nat) (iso : Iso)
  | commit (c : Nat)
  | rollback (c : Nat)
  | prepare (c : Nat) (s : Stmt D)
  | execute (c n : Nat)
  | close (c n : Nat)
  | disconnect (c : Nat)

/-- One call: `handle_network_query` (db_instance.rs:853-965), `handle_connection` with `create_client_session` and `remove_client_session` (connection.rs:321-340,
db_instance.rs:1086-1116). -/
def World.step (env : Env D) (w : World D) : Call D → World D × Reply
  | .connect => ({ w.setClient w.nextClient (some ⟨none, .readCommitted⟩) with nextClient := w.nextClient + 1 }, .results)
  | .query c s => w.query env c s
  | .begin c iso => w.startTxn c iso
  | .commit c => w.commitTxn env c
  | .rollback c => w.rollbackTxn c
  | .prepare c s => w.prepare env c s
  | .execute c n => w.runPrepared env c n
  | .close c n => w.closeStmt c n
  | .disconnect c => match w.client c with
    | none => (w, .results)
    | some ⟨none, _⟩ => (w.setClient c none, .results)
    | some ⟨some t, _⟩ => ((w.setClient c none).abort t, .results)

/-- A history of calls with their replies. -/
def World.run (env : Env D) (w : World D) : List (Call D) → World D × List (Call D × Reply)
  | [] => (w, [])
  | x :: xs =>
    let r := w.step env x
    let rest := r.1.run env xs
    (rest.1, (x, r.2) :: rest.2)

end Verif.Session
