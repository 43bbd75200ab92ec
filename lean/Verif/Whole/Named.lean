import Verif.Whole.Model
import Verif.Catalog.Model

/-!
# Requests with the names of tables, from an empty database on

Here the catalog of `Verif.Catalog` and the tables of `Verif.Whole` are put together: a client creates tables, and its statements name them. There is one database and no index; names of
columns in statements are resolved as in `Verif.Dml` and `Verif.Plan`.
-/

namespace Verif.Whole

open Verif.Wire Verif.Bytes Verif.Sql Verif.Exec Verif.Dml
open Verif.Catalog (Cat Tab Col ColDef FkDef ObjName)

/-- `String` as the other models have it. -/
def str (n : Catalog.Name) : String := String.ofList n

/-- What planner, optimizer and executors learn from the catalog about the table of a number: `get_table_by_oid` (database.rs:472-474). `decl` stands for the types and options of
columns, which `Verif.Catalog` keeps as a number. -/
def view (decl : Col → Column) (c : Cat) : Catalog where
  cols t := match c.current.bind (·.tabs.get t) with
    | some tab => tab.cols.map decl
    | none => []
  known t := (c.current.bind (·.tabs.get t)).isSome

/-- A FROM clause as it is written. -/
inductive NFrom where
  | table (n : ObjName) (alias_ : Option String)
  | join (op : Plan.JoinOp) (l r : NFrom) (c : Plan.Constraint)

/-- `process_table_factor` (plan_builder.rs:1618-1640): the name of a table is looked up. `none` is the error that there is no such table. -/
def NFrom.lookup (c : Cat) : NFrom → Option Plan.From
  | .table n a => (c.selectTable n).map fun t => .table ⟨t.oid, str t.name, t.cols.map fun x => str x.name, a⟩
  | .join op l r k => match l.lookup c, r.lookup c with
    | some l, some r => some (.join op l r k)
    | _, _ => none

/-- The table a statement means: INSERT as SELECT (plan_builder.rs:3079-3098), UPDATE and DELETE by the printed name (2580-2612, 3187-3199). -/
def target (c : Cat) (n : ObjName) : Stmt → Option Tab
  | .insert _ _ => c.selectTable n
  | .delete _ => c.updateTable n
  | .update _ _ => c.updateTable n

/-- A request. -/
inductive NReq where
  | create (n : ObjName) (cols : List ColDef) (fks : List FkDef) (ifNotExists : Bool)
  | query (n : ObjName) (s : Stmt)
  | select (f : NFrom) (q : Plan.Select)
  | begin
  | commit
  | rollback

/-- A request with its reply, and whether its rollback, if there was one, did all it had to on each table. -/
structure NCall where
  req : NReq
  reply : Reply
  complete : Nat → Bool

/-- The catalog, and the tables by their numbers. -/
structure Session where
  cat : Cat
  srv : Server

/-- A server with an empty working directory. -/
def Session.new (next : Nat → Int) (txn : Nat) : Session := ⟨Cat.boot none, .new (fun _ => none) next txn⟩

/-- A statement outside a transaction has used up a transaction number. -/
def Server.tick (v : Server) : Server := { v with txn := if v.active = none then v.txn + 1 else v.txn }

/-- The new table and the rows of the others: `Database::create_table` (database.rs:373-410). A number that was in the catalog before is no new table. -/
def Server.create (v : Server) (old new : Cat) : Server where
  heap t := match old.current.bind (·.tabs.get t), new.current.bind (·.tabs.get t) with
    | none, some tab => .new tab.first
    | _, _ => v.heap t
  next := v.next
  txn := v.txn
  active := v.active

/-- The reply to a CREATE TABLE. -/
def outReply : Catalog.Out → Reply
  | .ok _ => .ok
  | .error => .error

/-- `DBInstance::handle_network_query` (db_instance.rs:853-967) with CREATE TABLE. `p` is the next page id of the buffer pool, which grows with every page of a table. -/
inductive Session.Step (d : Disk) (ext : Value → Nat → Option Value) (seen : Cat → Server → Nat → Seen) (decl : Col → Column) (ch : Choices) (s : Session) : NCall → Session → Prop where
  | create {n cols fks ine} {e : Catalog.Env} {p : Nat} : s.cat.page ≤ p →
    Session.Step d ext seen decl ch s ⟨.create n cols fks ine, outReply (Cat.execCreateTable { s.cat with page := p } e n cols fks ine).1, fun _ => true⟩
      ⟨(Cat.execCreateTable { s.cat with page := p } e n cols fks ine).2, (s.srv.create s.cat (Cat.execCreateTable { s.cat with page := p } e n cols fks ine).2).tick⟩
  | query {n st t a b v} : target s.cat n st = some t → Server.Step d ext (seen s.cat) (view decl s.cat) ch s.srv ⟨.query t.oid st, a, b⟩ v →
    Session.Step d ext seen decl ch s ⟨.query n st, a, b⟩ ⟨s.cat, v⟩
  | noTable {n st} : target s.cat n st = none → Session.Step d ext seen decl ch s ⟨.query n st, .error, fun _ => true⟩ ⟨s.cat, s.srv.tick⟩
  | select {nf f q a b v} : nf.lookup s.cat = some f → Server.Step d ext (seen s.cat) (view decl s.cat) ch s.srv ⟨.select f q, a, b⟩ v →
    Session.Step d ext seen decl ch s ⟨.select nf q, a, b⟩ ⟨s.cat, v⟩
  | noFrom {nf q} : nf.lookup s.cat = none → Session.Step d ext seen decl ch s ⟨.select nf q, .error, fun _ => true⟩ ⟨s.cat, s.srv.tick⟩
  | begin {a b v} : Server.Step d ext (seen s.cat) (view decl s.cat) ch s.srv ⟨.begin, a, b⟩ v → Session.Step d ext seen decl ch s ⟨.begin, a, b⟩ ⟨s.cat, v⟩
  | commit {a b v} : Server.Step d ext (seen s.cat) (view decl s.cat) ch s.srv ⟨.commit, a, b⟩ v → Session.Step d ext seen decl ch s ⟨.commit, a, b⟩ ⟨s.cat, v⟩
  | rollback {a b v} : Server.Step d ext (seen s.cat) (view decl s.cat) ch s.srv ⟨.rollback, a, b⟩ v → Session.Step d ext seen decl ch s ⟨.rollback, a, b⟩ ⟨s.cat, v⟩

/-- Requests one after another. -/
inductive Session.Run (d : Disk) (ext : Value → Nat → Option Value) (seen : Cat → Server → Nat → Seen) (decl : Col → Column) (ch : Choices) : Session → List NCall → Session → Prop where
  | nil {s} : Session.Run d ext seen decl ch s [] s
  | cons {s x s' xs s''} : Session.Step d ext seen decl ch s x s' → Session.Run d ext seen decl ch s' xs s'' → Session.Run d ext seen decl ch s (x :: xs) s''

end Verif.Whole
