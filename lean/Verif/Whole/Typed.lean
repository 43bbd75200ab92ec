import Verif.Whole.Named
import Verif.Sql.Parse

/-!
# Statements as they are parsed

Here the last step is added before the requests of `Verif.Whole.Named`: the expressions of a statement are syntax trees, which the planner turns into expressions by the types of the
columns. A SELECT has one table or joins of tables on equal columns, a WHERE clause, an ORDER BY of columns, LIMIT and OFFSET; or GROUP BY columns and aggregates; or it is a SELECT DISTINCT without ORDER BY. A column is given by its place in the table (in a join, after the columns of the tables before), see `Verif.Plan.Select` for names, and a table by a name without quotes.
-/

namespace Verif.Whole

open Verif.Wire Verif.Bytes Verif.Sql Verif.Exec Verif.Dml
open Verif.Catalog (Cat Tab Col ColDef FkDef ObjName)

/-- The declaration of a column that has a type and nothing more: the number of `Verif.Catalog` is the number of the type. -/
def typed (c : Col) : Column := { name := str c.name, ty := c.ty }

/-- INSERT without a list of columns, INSERT with one (by the places of the columns in the table), DELETE, and UPDATE. -/
inductive TStmt where
  | insert (vals : List (List Ast))
  | insertInto (into : List Nat) (vals : List (List Ast))
  | delete (p : Option Ast)
  | update (as : List (Nat × Ast)) (p : Option Ast)

/-- An aggregate of a column. -/
inductive TAgg where
  | countStar
  | count (i : Nat)
  | sum (i : Nat)
  | min (i : Nat)
  | max (i : Nat)

/-- A kind of join. -/
inductive TJoin where
  | inner
  | left
  | right
  | full

/-- What stands after FROM: a table, or `l JOIN n ON x = y AND …`, or a LEFT, RIGHT or FULL JOIN, where `x` is the column of `l` at the place `on.1` and `y` the one of `n` at
the place `on.2`; `more` are the further such pairs. -/
inductive TFrom where
  | table (n : Catalog.Name)
  | join (kind : TJoin) (l : TFrom) (n : Catalog.Name) (on : Nat × Nat) (more : List (Nat × Nat))

instance : Coe Catalog.Name TFrom := ⟨.table⟩

/-- A request. A SELECT item comes with the text the code prints for it. `group` is `SELECT gs, fs FROM f WHERE p GROUP BY gs ORDER BY order LIMIT … OFFSET …`, where a column of ORDER BY is
given by its place among the GROUP BY columns. `distinct` is `SELECT DISTINCT items FROM f WHERE p ORDER BY … LIMIT … OFFSET …`, with a
column of ORDER BY given by its place among the items. -/
inductive TReq where
  | create (n : Catalog.Name) (cols : List (Catalog.Name × Nat)) (ifNotExists : Bool := false)
  | query (n : Catalog.Name) (s : TStmt)
  | select (f : TFrom) (items : List (Ast × String)) (p : Option Ast) (order : List (Nat × Dir)) (limit offset : Option Nat)
  | group (f : TFrom) (gs : List Nat) (fs : List TAgg) (p : Option Ast) (order : List (Nat × Dir)) (limit offset : Option Nat)
  | distinct (f : TFrom) (items : List (Ast × String)) (p : Option Ast) (order : List (Nat × Dir)) (limit offset : Option Nat)
  | begin
  | commit
  | rollback

/-- `f` on each element of a list, up to the first error. -/
def PR.list {α β : Type} (f : α → PR β) : List α → PR (List β)
  | [] => .ok []
  | x :: xs => (f x).bind fun y => (PR.list f xs).bind fun ys => .ok (y :: ys)

/-- A WHERE clause if there is one. -/
def planWhere (ts : List Nat) : Option Ast → PR (Option Expr)
  | none => .ok none
  | some a => (parse ts a).bind fun x => .ok (some x.1)

/-- One row of VALUES (plan_builder.rs:3297-3310): as many values as columns. -/
def planRow (ts : List Nat) (es : List Ast) : PR (List Expr) :=
  if es.length ≠ ts.length then .err else PR.list (fun a => (parse ts a).bind fun x => .ok x.1) es

/-- One assignment of an UPDATE (plan_builder.rs:3223-3262). -/
def planAssign (ts : List Nat) (x : Nat × Ast) : PR (Nat × Expr) :=
  if x.1 < ts.length then (parse ts x.2).bind fun e => .ok (x.1, e.1) else .err

/-- The types of the columns. -/
def typesOf (cols : List Col) : List Nat := cols.map Col.ty

/-- The columns that an INSERT lists (plan_builder.rs:3100-3118). -/
def colsAt (cols : List Col) (into : List Nat) : List Col := into.filterMap (cols[·]?)

/-- `build_insert_plan` with `build_values_plan` (plan_builder.rs:3079-3150, 3291-3316), `build_delete_plan` (2549-2644), `build_update_plan` (3177-3272). A column in the list of an
INSERT that the table does not have is an error; the values are planned with the schema of the listed columns. -/
def TStmt.plan (cols : List Col) : TStmt → PR Stmt
  | .insert vals => (PR.list (planRow (typesOf cols)) vals).bind fun rows => .ok (.insert [] rows)
  | .insertInto into vals => if into.all (· < cols.length) then
      (PR.list (planRow (typesOf (colsAt cols into))) vals).bind fun rows => .ok (.insert ((colsAt cols into).map fun c => str c.name) rows) else .err
  | .delete p => (planWhere (typesOf cols) p).bind fun q => .ok (.delete q)
  | .update as p => (planWhere (typesOf cols) p).bind fun q => (PR.list (planAssign (typesOf cols)) as).bind fun es => .ok (.update es q)

/-- The column at a place. -/
def nameAt (cols : List Col) (i : Nat) : Plan.Name := ⟨none, ((cols[i]?).map fun c => str c.name).getD ""⟩

/-- A parsed expression with the names of the columns of the table. -/
def named (cols : List Col) (e : Expr) : Plan.NExpr := ⟨cols.map fun c => ⟨none, str c.name⟩, e⟩

/-- A SELECT item. -/
def planItem (cols : List Col) (x : Ast × String) : PR Plan.Item := (parse (typesOf cols) x.1).bind fun e => .ok (.expr (match x.1 with
  | .col i => .column (nameAt cols i)
  | _ => .scalar (named cols e.1) x.2) none)

/-- A column of ORDER BY, by its name. Which schema the name is looked up in is decided in `Verif.Plan.Select`; one that the table does not have is in neither. -/
def planKey (cols : List Col) (k : Nat × Dir) : PR (Plan.NExpr × Dir) := if k.1 < cols.length then .ok (⟨[nameAt cols k.1], .col 0 0⟩, k.2) else .err

/-- A SELECT (plan_builder.rs:466-640, 909-1136): its expressions are parsed with the schema of its tables. -/
def planSel (cols : List Col) (items : List (Ast × String)) (p : Option Ast) (order : List (Nat × Dir)) (limit offset : Option Nat) : PR Plan.Select :=
  (planWhere (typesOf cols) p).bind fun q => (PR.list (planItem cols) items).bind fun is => (PR.list (planKey cols) order).bind fun ks =>
    .ok ⟨is, q.map (named cols), [], none, false, ks, limit, offset⟩

/-- A column of ORDER BY in a SELECT DISTINCT. A place that is none of an item that is a column stands for nothing. -/
def planItemKey (cols : List Col) (items : List (Ast × String)) (k : Nat × Dir) : PR (Plan.NExpr × Dir) := match items[k.1]? with
  | some (.col i, _) => planKey cols (i, k.2)
  | _ => .out

/-- A SELECT DISTINCT (plan_builder.rs:466-640, 909-1136). -/
def planDistinct (cols : List Col) (items : List (Ast × String)) (p : Option Ast) (order : List (Nat × Dir)) (limit offset : Option Nat) : PR Plan.Select :=
  (planSel cols items p [] limit offset).bind fun q => (PR.list (planItemKey cols items) order).bind fun ks => .ok { q with distinct := true, orderBy := ks }

/-- A column of GROUP BY or the argument of an aggregate, by its name. -/
def planCol (cols : List Col) (i : Nat) : PR Plan.Name := if i < cols.length then .ok (nameAt cols i) else .err

/-- The function of an aggregate. -/
def TAgg.fn : TAgg → Plan.Fn
  | .countStar => .countStar
  | .count _ => .count
  | .sum _ => .sum
  | .min _ => .min
  | .max _ => .max

/-- The argument of an aggregate; `Verif.Plan.Select` has one for `COUNT(*)` too, which is not used. -/
def TAgg.arg : TAgg → Nat
  | .countStar => 0
  | .count i | .sum i | .min i | .max i => i

/-- An aggregate. -/
def planAgg (cols : List Col) (a : TAgg) : PR (Plan.Fn × Plan.Name) := (planCol cols a.arg).bind fun n => .ok (a.fn, n)

/-- A column of ORDER BY in a SELECT with GROUP BY. A place that is none of a GROUP BY column stands for nothing. -/
def planGroupKey (cols : List Col) (gs : List Nat) (k : Nat × Dir) : PR (Plan.NExpr × Dir) := match gs[k.1]? with
  | some i => planKey cols (i, k.2)
  | none => .out

/-- A SELECT with GROUP BY (plan_builder.rs:488-802): see `Verif.Plan.Select` for what is planned for it. -/
def planGroup (cols : List Col) (gs : List Nat) (fs : List TAgg) (p : Option Ast) (order : List (Nat × Dir)) (limit offset : Option Nat) : PR Plan.Select :=
  (planWhere (typesOf cols) p).bind fun q => (PR.list (planCol cols) gs).bind fun ns => (PR.list (planAgg cols) fs).bind fun as => (PR.list (planGroupKey cols gs) order).bind fun ks =>
    .ok ⟨ns.map (fun n => .expr (.column n) none) ++ as.map (fun a => .expr (.agg a.1 a.2) none), q.map (named cols), ns, none, false, ks, limit, offset⟩

/-- The name of a table as it is written. -/
def plainName (n : Catalog.Name) : ObjName := [⟨n, none⟩]

/-- The condition of a join, as it is written: a column of the left side, which has `n`, is compared with one of the right side. -/
def onEq (n : Nat) (x : Nat × Nat) : Ast := .cmp .eq (.col x.1) (.col (n + x.2))

/-- AND associates to the left. -/
def onAst (n : Nat) (on : Nat × Nat) (more : List (Nat × Nat)) : Ast := more.foldl (fun e x => .and e (onEq n x)) (onEq n on)

/-- The condition of a join (plan_builder.rs:1544-1569): it is parsed with the columns of both sides. -/
def planOn (ls rs : List Col) (on : Nat × Nat) (more : List (Nat × Nat)) : PR Plan.NExpr :=
  if ∀ x ∈ on :: more, x.1 < ls.length then (parse (typesOf (ls ++ rs)) (onAst ls.length on more)).bind fun e => .ok (named (ls ++ rs) e.1) else .err

/-- The operator of a join. -/
def TJoin.op : TJoin → Plan.JoinOp
  | .inner => .inner
  | .left => .left
  | .right => .right
  | .full => .full

/-- `process_table_with_joins` (plan_builder.rs:1534-1597): the columns and what is looked up. -/
def TFrom.plan (c : Cat) : TFrom → PR (List Col × NFrom)
  | .table n => match c.selectTable (plainName n) with
    | some t => .ok (t.cols, .table (plainName n) none)
    | none => .err
  | .join kind l n on more => (l.plan c).bind fun x => match c.selectTable (plainName n) with
    | some t => (planOn x.1 t.cols on more).bind fun e => .ok (x.1 ++ t.cols, .join kind.op x.2 (.table (plainName n) none) (.on e))
    | none => .err

/-- Planning a request: the table is looked up first (`target` and `NFrom.lookup` do it in the same way). -/
def TReq.plan (c : Cat) : TReq → PR NReq
  | .create n cols ine => .ok (.create (plainName n) (cols.map fun x => ⟨⟨x.1, none⟩, x.2, none⟩) [] ine)
  | .query n s => match c.selectTable (plainName n) with
    | some t => (s.plan t.cols).bind fun q => .ok (.query (plainName n) q)
    | none => .err
  | .select f items p order limit offset => (f.plan c).bind fun x => (planSel x.1 items p order limit offset).bind fun q => .ok (.select x.2 q)
  | .group f gs fs p order limit offset => (f.plan c).bind fun x => (planGroup x.1 gs fs p order limit offset).bind fun q => .ok (.select x.2 q)
  | .distinct f items p order limit offset => (f.plan c).bind fun x => (planDistinct x.1 items p order limit offset).bind fun q => .ok (.select x.2 q)
  | .begin => .ok .begin
  | .commit => .ok .commit
  | .rollback => .ok .rollback

/-- A request with its reply, and whether its rollback, if there was one, did all it had to on each table. -/
structure TCall where
  req : TReq
  reply : Reply
  complete : Nat → Bool

/-- A request is planned and run; the error of the planner goes to the client (execution_engine.rs:147-240). -/
inductive Session.TStep (d : Disk) (ext : Value → Nat → Option Value) (seen : Cat → Server → Nat → Seen) (ch : Choices) (s : Session) : TCall → Session → Prop where
  | ran {r q a b s'} : r.plan s.cat = .ok q → Session.Step d ext seen typed ch s ⟨q, a, b⟩ s' → Session.TStep d ext seen ch s ⟨r, a, b⟩ s'
  | refused {r} : r.plan s.cat = .err → Session.TStep d ext seen ch s ⟨r, .error, fun _ => true⟩ ⟨s.cat, s.srv.tick⟩

/-- Requests one after another. -/
inductive Session.TRun (d : Disk) (ext : Value → Nat → Option Value) (seen : Cat → Server → Nat → Seen) (ch : Choices) : Session → List TCall → Session → Prop where
  | nil {s} : Session.TRun d ext seen ch s [] s
  | cons {s x s' xs s''} : Session.TStep d ext seen ch s x s' → Session.TRun d ext seen ch s' xs s'' → Session.TRun d ext seen ch s (x :: xs) s''

end Verif.Whole
