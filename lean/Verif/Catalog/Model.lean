import Verif.Base.AMap

/-!
# The catalog (`src/catalog/{catalog_impl,database,system_catalog}.rs`) and the statements that change it

Databases, tables, indexes and their names; what CREATE TABLE, CREATE INDEX, CREATE DATABASE, USE and the statements the engine only echoes do to them
(`plan_builder.rs`, `create_table_executor.rs`, `create_index_executor.rs`, `command_executor.rs`); and what is left of them when the server is started again (`db_instance.rs:445-544`).

Rows are not modelled here (see `Verif.Dml`), nor is the content of an index (`Verif.BTree`, `Verif.Plan`). Executors that cannot get the catalog lock at once give up with an error
(create_table_executor.rs:204-233); here statements run one after the other.
-/

namespace Verif.Catalog

open Verif (AMap)

/-- `String`. -/
abbrev Name := List Char

/-- sqlparser's `Ident`: the text between the quotes, and the quote character if there was one. -/
structure Ident where
  value : Name
  quote : Option Char
  deriving DecidableEq, Repr

/-- `Ident::to_string` of sqlparser. Simplified: a quote character inside the text is not doubled. -/
def Ident.show (i : Ident) : Name :=
  match i.quote with
  | none => i.value
  | some q => q :: i.value ++ [q]

/-- sqlparser's `ObjectName`: parts separated by dots. Parts that are function calls are left out. -/
abbrev ObjName := List Ident

/-- `ObjectName::to_string`: the parts joined by dots. -/
def ObjName.show : ObjName → Name
  | [] => []
  | [i] => i.show
  | i :: is => i.show ++ '.' :: ObjName.show is

/-- `Column`, as far as the catalog looks at it: its name, its type and options (`ty` stands for them), and the table and column of its foreign key. -/
structure Col where
  name : Name
  ty : Nat
  fk : Option (Name × Name)
  deriving DecidableEq, Repr

/-- `Schema::get_column_index` (schema.rs:304-311): the first column of that name. -/
def columnIndex : List Col → Name → Option Nat
  | [], _ => none
  | c :: cs, n => if c.name = n then some 0 else (columnIndex cs n).map (· + 1)

/-- `TableInfo` (table_heap.rs:282-291) with the heap's first and last page (`none` is `INVALID_PAGE_ID`). -/
structure Tab where
  name : Name
  cols : List Col
  oid : Nat
  first : Option Nat
  last : Option Nat
  deriving DecidableEq, Repr

/-- `IndexInfo` (index/types): name, table and the positions of the key columns. -/
structure Idx where
  name : Name
  table : Name
  attrs : List Nat
  oid : Nat
  deriving DecidableEq, Repr

/-- `Database` (database.rs:235-246). -/
structure Db where
  tabs : AMap Nat Tab
  names : AMap Name Nat
  nextTab : Nat
  idxs : AMap Nat Idx
  idxNames : AMap Name Nat
  nextIdx : Nat
  deriving DecidableEq, Repr

/-- `Database::new` (database.rs:255-275), and `with_existing_data` with nothing in it (323-353): the first table gets id `SYS_COLUMNS_OID + 1`. -/
def Db.new : Db := ⟨[], [], 5, [], [], 0⟩

/-- `Database::get_table` (database.rs:459-463). -/
def Db.getTable (d : Db) (n : Name) : Option Tab := (d.names.get n).bind d.tabs.get

/-- `Database::validate_foreign_key_constraints` (database.rs:419-450). -/
def Db.fkOk (d : Db) : List Col → Bool
  | [] => true
  | c :: cs =>
    match c.fk with
    | none => d.fkOk cs
    | some (t, rc) =>
      if d.names.has t then
        match d.getTable t with
        | some info => if (columnIndex info.cols rc).isSome then d.fkOk cs else false
        | none => false
      else false

/-- `Database::create_table` (database.rs:373-410). `page` is the page the new heap got: `TableHeap::new` (table_heap.rs:315-342), `none` when the buffer pool is full of pinned pages. -/
def Db.createTable (d : Db) (n : Name) (cols : List Col) (page : Option Nat) : Option (Tab × Db) :=
  if d.names.has n then none
  else if d.fkOk cols then
    let t : Tab := ⟨n, cols, d.nextTab, page, page⟩
    some (t, { d with nextTab := d.nextTab + 1, names := d.names.set n d.nextTab, tabs := d.tabs.set d.nextTab t })
  else none

/-- `Database::create_index` (database.rs:478-537), with `add_index` (561-568) which `Catalog::create_index` calls afterwards and which stores the same entry again. Building the
index from the rows is not modelled here. -/
def Db.createIndex (d : Db) (iname tname : Name) (attrs : List Nat) : Option (Idx × Db) :=
  if d.names.has tname = false then none
  else if d.idxNames.has iname then none
  else
    let i : Idx := ⟨iname, tname, attrs, d.nextIdx⟩
    some (i, { d with idxNames := d.idxNames.set iname d.nextIdx, idxs := d.idxs.set d.nextIdx i, nextIdx := d.nextIdx + 1 })

/-- `Database::get_table_indexes` (database.rs:540-550). -/
def Db.tableIndexes (d : Db) (tname : Name) : List Idx :=
  if d.names.has tname then (d.idxs.map (·.2)).filter (fun i => i.table = tname) else []

/-- A row of the system table `__tables`: `TableCatalogRow` (system_catalog.rs:266-277). The schema is kept as it is: encoding it (`postcard`) is a library. -/
structure Row where
  oid : Nat
  name : Name
  first : Option Nat
  last : Option Nat
  cols : List Col
  deriving DecidableEq, Repr

/-- `Catalog` (catalog_impl.rs:261-274), the page counter of the buffer pool it shares with everything else (`next_page_id`), and the file `catalog.snapshot` of the working directory. -/
structure Cat where
  dbs : AMap Name Db
  cur : Name
  sys : List Row
  page : Nat
  file : Option (List Row)
  deriving DecidableEq, Repr

/-- The name of the database every catalog starts with. -/
def defaultDb : Name := ['d', 'e', 'f', 'a', 'u', 'l', 't']

/-- `Catalog::new` (catalog_impl.rs:282-356) over a new buffer pool, whose page ids start at 0 (buffer_pool_manager_async.rs:332): `SystemCatalogTables::bootstrap` (system_catalog.rs:432-475)
makes four new, empty heaps, of one page each. -/
def Cat.new (file : Option (List Row)) : Cat := ⟨[(defaultDb, Db.new)], defaultDb, [], 4, file⟩

/-- `TableHeap::reopen` and `row_to_table_info` (table_heap.rs:351-370, catalog_impl.rs:708-733). -/
def Row.tab (r : Row) : Tab := ⟨r.name, r.cols, r.oid, r.first, match r.last with | none => r.first | some l => some l⟩

/-- `Database::load_tables_from_catalog` (database.rs:584-592). -/
def Db.load (d : Db) : List Tab → Db
  | [] => d
  | t :: ts => Db.load { d with nextTab := max d.nextTab (t.oid + 1), names := d.names.set t.name t.oid, tabs := d.tabs.set t.oid t } ts

/-- `Catalog::get_current_database` (catalog_impl.rs:407-411). -/
def Cat.current (c : Cat) : Option Db := c.dbs.get c.cur

/-- Writes back the current database (`get_current_database_mut`, catalog_impl.rs:417-423). -/
def Cat.put (c : Cat) (d : Db) : Cat := { c with dbs := c.dbs.set c.cur d }

/-- `Catalog::rebuild_from_system_catalog` (catalog_impl.rs:659-703): the snapshot's rows first, then the rows of `__tables`, all into the current database; the snapshot is written only when
`__tables` had rows. Every modelled snapshot decodes. -/
def Cat.rebuild (c : Cat) : Cat :=
  let user : List Row → List Row := List.filter (fun r => 1 < r.oid)
  let rows := user c.sys
  let c' := match c.current with
    | some d => c.put (d.load ((user (c.file.getD []) ++ rows).map Row.tab))
    | none => c
  if rows.isEmpty then c' else { c' with file := some rows }

/-- `DBInstance::new` (db_instance.rs:445-544): a new buffer pool and a new catalog, then `rebuild_from_system_catalog`. Recovery, in between, adds no row to `__tables` (`Verif.Wal`). -/
def Cat.boot (file : Option (List Row)) : Cat := (Cat.new file).rebuild

/-- The server is stopped (cleanly or not) and started again: memory is gone, the snapshot file stays. -/
def Cat.restart (c : Cat) : Cat := Cat.boot c.file

/-- `Catalog::create_database` (catalog_impl.rs:365-375). -/
def Cat.createDatabase (c : Cat) (n : Name) : Bool × Cat :=
  if c.dbs.has n then (false, c) else (true, { c with dbs := c.dbs.set n Db.new })

/-- `Catalog::use_database` (catalog_impl.rs:384-393). -/
def Cat.useDatabase (c : Cat) (n : Name) : Bool × Cat :=
  if c.dbs.has n then (true, { c with cur := n }) else (false, c)

/-- `Catalog::get_table` (catalog_impl.rs:480-482). -/
def Cat.getTable (c : Cat) (n : Name) : Option Tab := c.current.bind (·.getTable n)

/-- What the buffer pool and the system table answer to one CREATE TABLE: whether there was a frame for the new heap's page (`room`), and whether the row of `__tables` could be stored
(`kept`; the result is ignored, catalog_impl.rs:756). -/
structure Env where
  room : Bool
  kept : Bool
  deriving DecidableEq, Repr

/-- `record_system_table` (catalog_impl.rs:741-763). -/
def Cat.record (c : Cat) (t : Tab) (kept : Bool) : Cat :=
  if kept then { c with sys := c.sys ++ [⟨t.oid, t.name, t.first, t.last, t.cols⟩] } else c

/-- `Catalog::create_table` (catalog_impl.rs:463-471). -/
def Cat.createTable (c : Cat) (n : Name) (cols : List Col) (e : Env) : Option Tab × Cat :=
  match c.current with
  | none => (none, c)
  | some d =>
    match d.createTable n cols (if e.room then some c.page else none) with
    | none => (none, c)
    | some (t, d') => (some t, ({ c.put d' with page := if e.room then c.page + 1 else c.page }).record t e.kept)

/-- `Catalog::create_index` (catalog_impl.rs:512-550). The row written to `__indexes` is never read back and left out. -/
def Cat.createIndex (c : Cat) (iname tname : Name) (attrs : List Nat) : Option Idx × Cat :=
  match c.current with
  | none => (none, c)
  | some d =>
    match d.createIndex iname tname attrs with
    | none => (none, c)
    | some (i, d') => (some i, c.put d')

/-! ## Statements -/

/-- A column of CREATE TABLE: `ColumnDef` with the REFERENCES option. -/
structure ColDef where
  name : Ident
  ty : Nat
  ref : Option (ObjName × List Ident)
  deriving DecidableEq, Repr

/-- A FOREIGN KEY clause of CREATE TABLE. The other clauses (PRIMARY KEY, UNIQUE, CHECK) set flags of columns or nothing, and are left out. -/
structure FkDef where
  cols : List Ident
  table : ObjName
  refs : List Ident
  deriving DecidableEq, Repr

/-- The statements. `echo` stands for those the planner turns into text that is sent back (logical_plan.rs:3403-3489): SAVEPOINT, RELEASE SAVEPOINT, CREATE SCHEMA, ALTER TABLE,
CREATE VIEW, ALTER VIEW; `rollback` for ROLLBACK, which touches rows only (transaction_manager.rs:605-800). Other statements are not planned: they are errors (query_planner.rs:513). -/
inductive Stmt where
  | createTable (name : ObjName) (cols : List ColDef) (fks : List FkDef) (ifNotExists : Bool)
  | createIndex (name : Option ObjName) (table : ObjName) (cols : List Ident) (ifNotExists : Bool)
  | createDatabase (name : ObjName) (ifNotExists : Bool)
  | use (name : ObjName)
  | echo
  | rollback
  | other
  deriving DecidableEq, Repr

/-- What `execute_sql` returns: `Ok(true)`, `Ok(false)` or an error. -/
inductive Out where
  | ok (b : Bool)
  | error
  deriving DecidableEq, Repr

/-- `SchemaManager::convert_column_defs`, `parse_column_options` (schema_manager.rs:415-553). `none` is the error for a REFERENCES clause with not exactly one column. -/
def convertCols : List ColDef → Option (List Col)
  | [] => some []
  | d :: ds =>
    match d.ref with
    | none => (convertCols ds).map (⟨d.name.show, d.ty, none⟩ :: ·)
    | some (t, [c]) => (convertCols ds).map (⟨d.name.show, d.ty, some (t.show, c.value)⟩ :: ·)
    | some _ => none

/-- `columns.iter_mut().find(..)` and `set_foreign_key`. -/
def setFk (n : Name) (fk : Name × Name) : List Col → Option (List Col)
  | [] => none
  | c :: cs => if c.name = n then some ({ c with fk := some fk } :: cs) else (setFk n fk cs).map (c :: ·)

/-- `process_table_constraints` (plan_builder.rs:1263-1375), FOREIGN KEY clauses: those of more than one column are skipped. -/
def addFks (cols : List Col) : List FkDef → Option (List Col)
  | [] => some cols
  | f :: fs =>
    match f.cols, f.refs with
    | [a], [b] =>
      match setFk a.value (f.table.show, b.value) cols with
      | some cols' => addFks cols' fs
      | none => none
    | _, _ => addFks cols fs

/-- `build_create_table_plan` (plan_builder.rs:1183-1244) and `CreateTableExecutor::next` (create_table_executor.rs:193-270). -/
def Cat.execCreateTable (c : Cat) (e : Env) (name : ObjName) (defs : List ColDef) (fks : List FkDef) (ine : Bool) : Out × Cat :=
  let n := name.show
  if n = [] then (.error, c)
  else if defs = [] then (.error, c)
  else
    match c.getTable n with
    | some _ =>
      if ine then
        match convertCols defs with
        | some _ => (.ok true, c)
        | none => (.error, c)
      else (.error, c)
    | none =>
      match (convertCols defs).bind (addFks · fks) with
      | none => (.error, c)
      | some cols =>
        match c.createTable n cols e with
        | (some _, c') => (.ok true, c')
        | (none, c') => (.error, c')

/-- The key columns of CREATE INDEX: their positions in the table (plan_builder.rs:1428-1437). -/
def keyAttrs (cols : List Col) : List Ident → Option (List Nat)
  | [] => some []
  | i :: is => (columnIndex cols i.show).bind fun a => (keyAttrs cols is).map (a :: ·)

/-- Names joined by underscores. -/
def joinUnder : List Name → Name
  | [] => []
  | [n] => n
  | n :: ns => n ++ '_' :: joinUnder ns

/-- `build_create_index_plan` (plan_builder.rs:1396-1450) and `CreateIndexExecutor::next` (create_index_executor.rs:192-276). -/
def Cat.execCreateIndex (c : Cat) (name : Option ObjName) (table : ObjName) (cols : List Ident) : Out × Cat :=
  match table with
  | [t] =>
    let tname := t.show
    let iname := match name with
      | some n => n.show
      | none => tname ++ '_' :: joinUnder (cols.map Ident.show) ++ ['_', 'i', 'd', 'x']
    match c.getTable tname with
    | none => (.error, c)
    | some info =>
      match keyAttrs info.cols cols with
      | none => (.error, c)
      | some attrs =>
        if (c.current.elim [] (·.tableIndexes tname)).any (fun i => i.name = iname) then (.ok true, c)
        else (.ok true, (c.createIndex iname tname attrs).2)
  | _ => (.error, c)

/-- `str::split_whitespace`: the words of a text. Characters that count as white space are those of `Char.isWhitespace`; Rust's set is larger. -/
def words : List Char → List Name
  | [] => []
  | ch :: cs =>
    if ch.isWhitespace then words cs
    else
      match cs with
      | [] => [[ch]]
      | ch' :: _ =>
        if ch'.isWhitespace then [ch] :: words cs
        else
          match words cs with
          | [] => [[ch]]
          | w :: ws => (ch :: w) :: ws

def wCreate : Name := ['C', 'R', 'E', 'A', 'T', 'E']
def wDatabase : Name := ['D', 'A', 'T', 'A', 'B', 'A', 'S', 'E']
def wIf : Name := ['I', 'F']
def wNot : Name := ['N', 'O', 'T']
def wExists : Name := ['E', 'X', 'I', 'S', 'T', 'S']
def wUse : Name := ['U', 'S', 'E']

/-- The text of CREATE DATABASE (logical_plan.rs:3449-3453). -/
def createDatabaseText (n : Name) (ine : Bool) : Name :=
  wCreate ++ ' ' :: wDatabase ++ ' ' :: ((if ine then wIf ++ ' ' :: wNot ++ ' ' :: wExists ++ [' '] else []) ++ n)

/-- The text of USE (logical_plan.rs:3546). -/
def useText (n : Name) : Name := wUse ++ ' ' :: n

/-- `execute_create_database` (command_executor.rs:174-214): the name the text is about. -/
def createDatabaseName (text : Name) : Option Name :=
  let ps := words text
  if ps.length < 3 then none
  else if 5 ≤ ps.length ∧ ps[2]? = some wIf ∧ ps[3]? = some wNot ∧ ps[4]? = some wExists then ps[5]?
  else ps[2]?

/-- `execute_use_database` (command_executor.rs:238-267): the name the text is about. -/
def useName (text : Name) : Option Name := (words text)[1]?

/-- `build_create_database_plan` (plan_builder.rs:2001-2030) and `CommandExecutor`: the outcome is whether a message was sent back (execution_engine.rs:616-640), not whether the database
was created. -/
def Cat.execCreateDatabase (c : Cat) (name : ObjName) (ine : Bool) : Out × Cat :=
  match name with
  | [] => (.error, c)
  | i :: _ =>
    match createDatabaseName (createDatabaseText i.value ine) with
    | none => (.ok false, c)
    | some n => (.ok true, (c.createDatabase n).2)

/-- `build_use_plan` (plan_builder.rs:2959-2998) and `CommandExecutor`. -/
def Cat.execUse (c : Cat) (name : ObjName) : Out × Cat :=
  match name with
  | [] => (.error, c)
  | i :: _ =>
    match useName (useText i.value) with
    | none => (.ok false, c)
    | some n => (.ok true, (c.useDatabase n).2)

/-- `execute_sql` (execution_engine.rs:287-298, 397-640) on the catalog. -/
def Cat.exec (c : Cat) (e : Env) : Stmt → Out × Cat
  | .createTable n cols fks ine => c.execCreateTable e n cols fks ine
  | .createIndex n t cols _ => c.execCreateIndex n t cols
  | .createDatabase n ine => c.execCreateDatabase n ine
  | .use n => c.execUse n
  | .echo => (.ok true, c)
  | .rollback => (.ok true, c)
  | .other => (.error, c)

/-- The table SELECT and INSERT mean by a name: `extract_table_name` (expression_parser.rs:2718-2727), then the catalog (plan_builder.rs:1618-1640, 3079-3098). -/
def Cat.selectTable (c : Cat) : ObjName → Option Tab
  | [i] => c.getTable i.value
  | _ => none

/-- The table UPDATE and DELETE mean by a name: `name.to_string()` (plan_builder.rs:2580-2612, 3187-3199). -/
def Cat.updateTable (c : Cat) (n : ObjName) : Option Tab := c.getTable n.show

/-- What happens to the catalog while the server runs: statements of any client, and pages that others take (a heap that grows, a system table, an index). -/
inductive Ev where
  | stmt (s : Stmt) (e : Env)
  | page
  deriving DecidableEq, Repr

def Cat.step (c : Cat) : Ev → Cat
  | .stmt s e => (c.exec e s).2
  | .page => { c with page := c.page + 1 }

def Cat.run (c : Cat) (evs : List Ev) : Cat := evs.foldl Cat.step c

end Verif.Catalog
