import Verif.Catalog.Model

/-!
# What the statements of the catalog mean

An independent reading of CREATE TABLE, CREATE DATABASE and USE: a set of databases, in each a partial function from table names to columns. A name means its text, whether it is quoted or not.
-/

namespace Verif.Catalog

/-- The databases that exist, the tables in them and their columns, and the database in use. -/
structure Spec where
  cur : Name
  db : Name → Bool
  tab : Name → Name → Option (List Col)

/-- A new server: one database, no tables. -/
def Spec.new : Spec := ⟨defaultDb, fun n => n = defaultDb, fun _ _ => none⟩

/-- The text of a name of one part. -/
def text : ObjName → Name
  | [i] => i.value
  | _ => []

/-- What the FOREIGN KEY clauses say about a column: the last one that names it counts. -/
def declared (fks : List FkDef) (n : Name) : Option (Name × Name) :=
  ((fks.filter (fun f => f.cols.map Ident.value = [n])).getLast?).map fun f => (text f.table, text f.refs)

/-- The columns a CREATE TABLE declares. -/
def columns (defs : List ColDef) (fks : List FkDef) : List Col :=
  defs.map fun d => ⟨d.name.value, d.ty,
    match declared fks d.name.value with
    | some r => some r
    | none => d.ref.map fun r => (text r.1, text r.2)⟩

/-- Every foreign key of the columns refers to a column of a table. -/
def refersIn (tab : Name → Option (List Col)) (cols : List Col) : Prop :=
  ∀ c ∈ cols, ∀ r, c.fk = some r → ∃ cols', tab r.1 = some cols' ∧ r.2 ∈ cols'.map Col.name

/-- A CREATE TABLE that makes sense here: there is no table of that name, its FOREIGN KEY clauses name columns of the table, its foreign keys refer to columns that exist. -/
def Spec.creatable (s : Spec) (n : Name) (defs : List ColDef) (fks : List FkDef) : Prop :=
  s.tab s.cur n = none ∧ (∀ f ∈ fks, text f.cols ∈ defs.map (·.name.value)) ∧ refersIn (s.tab s.cur) (columns defs fks)

open Classical in
/-- What a statement does. -/
noncomputable def Spec.step (s : Spec) : Stmt → Spec
  | .createTable n defs fks _ =>
    if s.creatable (text n) defs fks then
      { s with tab := fun d t => if d = s.cur ∧ t = text n then some (columns defs fks) else s.tab d t }
    else s
  | .createDatabase n _ => { s with db := fun d => s.db d || d = text n }
  | .use n => if s.db (text n) then { s with cur := text n } else s
  | _ => s

/-- What a run does. -/
noncomputable def Spec.run (s : Spec) : List Ev → Spec
  | [] => s
  | .stmt st _ :: evs => Spec.run (s.step st) evs
  | .page :: evs => Spec.run s evs

/-- A name of one part, without quotes and not empty. -/
def PlainName (n : ObjName) : Prop := ∃ v, n = [⟨v, none⟩] ∧ v ≠ []

/-- A name of one part, without white space and not empty. -/
def DbName (n : ObjName) : Prop := ∃ i, n = [i] ∧ i.value ≠ [] ∧ ∀ ch ∈ i.value, ch.isWhitespace = false

/-- The statements the first property speaks about: names of one part, tables and columns without quotes, foreign keys of one column, no column named twice. -/
def Plain : Stmt → Prop
  | .createTable n defs fks _ =>
    PlainName n ∧ defs ≠ [] ∧ (defs.map (·.name.value)).Nodup ∧ (∀ d ∈ defs, d.name.quote = none) ∧
    (∀ d ∈ defs, ∀ r, d.ref = some r → PlainName r.1 ∧ ∃ i, r.2 = [i]) ∧
    (∀ f ∈ fks, (∃ i, f.cols = [i]) ∧ PlainName f.table ∧ ∃ i, f.refs = [i])
  | .createDatabase n _ => DbName n
  | .use n => DbName n
  | _ => True

/-- `Plain` statements, and pages taken. -/
def PlainEv : Ev → Prop
  | .stmt s _ => Plain s
  | .page => True

/-- The events of a run that take place in one database. -/
def OneDb : Ev → Prop
  | .stmt (.use _) _ => False
  | _ => True

/-- Every CREATE TABLE got its row into the system table. -/
def Kept : Ev → Prop
  | .stmt _ e => e.kept = true
  | .page => True

end Verif.Catalog
