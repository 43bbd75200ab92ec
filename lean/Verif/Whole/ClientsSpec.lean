import Verif.Whole.Clients
import Verif.Whole.Spec

/-!
# What the requests of several clients mean

A table is a list of rows, and, when the open transaction of a client has changed it, the list before that transaction too. Nothing is said about requests to a table that the open
transaction of another client has changed.
-/

namespace Verif.Whole

open Verif.Wire Verif.Bytes Verif.Sql Verif.Exec Verif.Dml Verif.Plan

/-- A table: not in use by a transaction, or changed by the open transaction of the client `c`. As in `Verif.Dml.TransSpec`, the rows the transaction has written are marked, and
`again` says that it has deleted a row it had written. -/
inductive Tab where
  | free (rows : List Row)
  | held (c : Nat) (base : List Row) (rows : List (Row × Bool)) (again : Prop)

/-- The rows the client sees: those of its own transaction, else those last committed. -/
def Tab.seen (c : Nat) : Tab → List Row
  | .free rows => rows
  | .held c' base rows _ => if c' = c then rows.map (·.1) else base

/-- After the COMMIT of the client. -/
def Tab.kept (c : Nat) : Tab → Tab
  | .free rows => .free rows
  | .held c' base rows again => if c' = c then .free (rows.map (·.1)) else .held c' base rows again

/-- After the ROLLBACK of the client. -/
def Tab.undone (c : Nat) : Tab → Tab
  | .free rows => .free rows
  | .held c' base rows again => if c' = c then .free base else .held c' base rows again

/-- The tables, and the clients that are in a transaction. -/
structure Db where
  tab : Nat → Tab
  busy : Nat → Bool

def Db.empty : Db := ⟨fun _ => .free [], fun _ => false⟩

def Db.set (σ : Db) (t : Nat) (x : Tab) : Db := { σ with tab := fun u => if u = t then x else σ.tab u }

def Db.mark (σ : Db) (c : Nat) (b : Bool) : Db := { σ with busy := fun u => if u = c then b else σ.busy u }

/-- What a request of the client `c` does. -/
inductive Turn (d : Disk) (ext : Value → Nat → Option Value) (cat : Catalog) (ch : Choices) (σ : Db) (c : Nat) : Req → Reply → Db → Prop where
  | alone {t s rows r rows'} : σ.busy c = false → σ.tab t = .free rows → Effect d ext (cat.cols t) s rows r rows' →
    Turn d ext cat ch σ c (.query t s) (answered r.answer) (σ.set t (.free rows'))
  | first {t s rows a rows'} : σ.busy c = true → σ.tab t = .free rows → Within d ext (cat.cols t) s (rows.map (·, false)) a rows' →
    Turn d ext cat ch σ c (.query t s) (answered a) (σ.set t (.held c rows rows' False))
  | more {t s base rows again a rows'} : σ.busy c = true → σ.tab t = .held c base rows again → Within d ext (cat.cols t) s rows a rows' →
    Turn d ext cat ch σ c (.query t s) (answered a) (σ.set t (.held c base rows' (again ∨ DeletesOwn s rows)))
  | select {f q r} : Says (ch.world fun t => (σ.tab t).seen c) f q r → Turn d ext cat ch σ c (.select f q) r σ
  | begin : σ.busy c = false → Turn d ext cat ch σ c .begin .ok (σ.mark c true)
  | begun : σ.busy c = true → Turn d ext cat ch σ c .begin .error σ
  | commit : σ.busy c = true → Turn d ext cat ch σ c .commit .ok ((⟨fun t => (σ.tab t).kept c, σ.busy⟩ : Db).mark c false)
  | rollback : σ.busy c = true → Turn d ext cat ch σ c .rollback .ok ((⟨fun t => (σ.tab t).undone c, σ.busy⟩ : Db).mark c false)
  | noCommit : σ.busy c = false → Turn d ext cat ch σ c .commit .error σ
  | noRollback : σ.busy c = false → Turn d ext cat ch σ c .rollback .error σ

/-- What an event does. A client that leaves takes its open transaction back. -/
inductive Happens (d : Disk) (ext : Value → Nat → Option Value) (cat : Catalog) (ch : Choices) (σ : Db) (c : Nat) : Event → Db → Prop where
  | ask {x σ'} : Turn d ext cat ch σ c x.req x.reply σ' → Happens d ext cat ch σ c (.ask x) σ'
  | leave {b} : Happens d ext cat ch σ c (.leave b) ((⟨fun t => (σ.tab t).undone c, σ.busy⟩ : Db).mark c false)

/-- Events one after another. -/
inductive Happened (d : Disk) (ext : Value → Nat → Option Value) (cat : Catalog) (ch : Choices) : Db → List (Nat × Event) → Db → Prop where
  | nil {σ} : Happened d ext cat ch σ [] σ
  | cons {σ c x σ' xs σ''} : Happens d ext cat ch σ c x σ' → Happened d ext cat ch σ' xs σ'' → Happened d ext cat ch σ ((c, x) :: xs) σ''

/-! ## Clients that keep apart -/

/-- Who is in a transaction, and whose open transaction has had a statement on the table. -/
structure Marks where
  busy : Nat → Bool
  holder : Nat → Option Nat

/-- The marks after the end of the transaction of the client, if there is one. -/
def Marks.free (m : Marks) (c : Nat) : Marks := ⟨fun u => if u = c then false else m.busy u, fun t => if m.holder t = some c then none else m.holder t⟩

def Marks.after (m : Marks) (c : Nat) : Req → Marks
  | .query t _ => if m.busy c then { m with holder := fun u => if u = t then some c else m.holder u } else m
  | .select _ _ => m
  | .begin => { m with busy := fun u => if u = c then true else m.busy u }
  | .commit => m.free c
  | .rollback => m.free c

/-- The request of the client is to tables on which no open transaction of another client has had a statement. -/
def Marks.Ok (m : Marks) (c : Nat) : Req → Prop
  | .query t _ => m.holder t = none ∨ m.holder t = some c
  | .select f _ => ∀ T ∈ f.tables, m.holder T.oid = none ∨ m.holder T.oid = some c
  | _ => True

/-- No client sends a request to a table on which the open transaction of another client has had a statement. This depends on the requests alone, not on the replies. -/
def Apart (m : Marks) : List (Nat × Event) → Prop
  | [] => True
  | (c, .ask x) :: xs => m.Ok c x.req ∧ Apart (m.after c x.req) xs
  | (c, .leave _) :: xs => Apart (m.free c) xs

def Marks.none : Marks := ⟨fun _ => false, fun _ => .none⟩

/-- What is asked of an event besides, see `Verif.Dml.Covered`. -/
def Regular (c : Nat) : Event → Db → Prop
  | .ask ⟨.query t s, _, _⟩, σ => s.Const ∧ ∀ row ∈ (σ.tab t).seen c, Clear s.filter row
  | .ask ⟨.rollback, _, _⟩, σ => ∀ t base rows again, σ.tab t = .held c base rows again → ¬again
  | .leave _, σ => ∀ t base rows again, σ.tab t = .held c base rows again → ¬again
  | _, _ => True

/-- This holds for each event of a history, whatever the rows are that the events before may leave. -/
def AllRegular (d : Disk) (ext : Value → Nat → Option Value) (cat : Catalog) (ch : Choices) (xs : List (Nat × Event)) : Prop :=
  ∀ pre c x post, xs = pre ++ (c, x) :: post → ∀ σ, Happened d ext cat ch .empty pre σ → Regular c x σ

/-- Whether the rollback of the event, if there was one, did all it had to. -/
def Event.complete : Event → Nat → Bool
  | .ask x => x.complete
  | .leave b => b

end Verif.Whole
