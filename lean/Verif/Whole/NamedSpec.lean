import Verif.Whole.Named
import Verif.Whole.Spec
import Verif.Catalog.Spec

/-!
# What requests with names mean

A database is, for each name, the columns declared under it and a list of rows.
-/

namespace Verif.Whole

open Verif.Wire Verif.Bytes Verif.Sql Verif.Exec Verif.Dml Verif.Plan
open Verif.Catalog (Cat Tab Col ColDef FkDef ObjName)

/-- The tables with their columns, see `Verif.Catalog.Spec`, and the state of each table by its name. -/
structure NDb where
  sch : Catalog.Spec
  st : Catalog.Name → St

/-- Nothing has been created. -/
def NDb.new : NDb := ⟨.new, fun _ => .idle []⟩

/-- The columns of a table. -/
def NDb.tab (σ : NDb) (n : Catalog.Name) : Option (List Col) := σ.sch.tab σ.sch.cur n

/-- No rows, neither now nor at the begin of the transaction. -/
def Blank : St → Prop
  | .idle rows => rows = []
  | .busy base rows again => base = [] ∧ rows = [] ∧ ¬again

/-- A FROM clause over the tables of the database, of which `num` makes numbers. -/
def NFrom.over (tab : Catalog.Name → Option (List Col)) (num : Catalog.Name → Nat) : NFrom → Option From
  | .table n a => (tab (Catalog.text n)).map fun cols => .table ⟨num (Catalog.text n), str (Catalog.text n), cols.map fun x => str x.name, a⟩
  | .join op l r k => match l.over tab num, r.over tab num with
    | some l, some r => some (.join op l r k)
    | _, _ => none

/-- What a request does. -/
inductive NextN (d : Disk) (ext : Value → Nat → Option Value) (decl : Col → Column) (ch : Choices) : NDb → NReq → Reply → NDb → Prop where
  /-- The table is there, with the columns declared and without rows. -/
  | created {σ n cols fks ine} : σ.sch.creatable (Catalog.text n) cols fks → Blank (σ.st (Catalog.text n)) →
    NextN d ext decl ch σ (.create n cols fks ine) .ok ⟨σ.sch.step (.createTable n cols fks ine), σ.st⟩
  | exists_ {σ n cols fks} : (σ.tab (Catalog.text n)).isSome = true → NextN d ext decl ch σ (.create n cols fks true) .ok σ
  | refused {σ n cols fks ine} : ¬σ.sch.creatable (Catalog.text n) cols fks → ¬((σ.tab (Catalog.text n)).isSome = true ∧ ine = true) →
    NextN d ext decl ch σ (.create n cols fks ine) .error σ
  | query {σ n s cols a st} : σ.tab (Catalog.text n) = some cols → Next d ext (cols.map decl) (σ.st (Catalog.text n)) (.query s) a st →
    NextN d ext decl ch σ (.query n s) (answered a) ⟨σ.sch, fun m => if m = Catalog.text n then st else σ.st m⟩
  | noTable {σ n s} : σ.tab (Catalog.text n) = none → NextN d ext decl ch σ (.query n s) .error σ
  /-- Different tables have different numbers, and `rows` are the rows of the tables by their numbers. -/
  | select {σ nf f q r} {num : Catalog.Name → Nat} {rows : Nat → List Row} :
    (∀ m m', (σ.tab m).isSome = true → (σ.tab m').isSome = true → num m = num m' → m = m') → (∀ m, (σ.tab m).isSome = true → rows (num m) = (σ.st m).rows) →
    nf.over σ.tab num = some f → Says (ch.world rows) f q r → NextN d ext decl ch σ (.select nf q) r σ
  | noFrom {σ nf q} : (∀ num, nf.over σ.tab num = none) → NextN d ext decl ch σ (.select nf q) .error σ
  | begin {σ st a} : (∀ m, Next d ext (((σ.tab m).getD []).map decl) (σ.st m) .begin a (st m)) → NextN d ext decl ch σ .begin (answered a) ⟨σ.sch, st⟩
  | commit {σ st a} : (∀ m, Next d ext (((σ.tab m).getD []).map decl) (σ.st m) .commit a (st m)) → NextN d ext decl ch σ .commit (answered a) ⟨σ.sch, st⟩
  | rollback {σ st a} : (∀ m, Next d ext (((σ.tab m).getD []).map decl) (σ.st m) .rollback a (st m)) → NextN d ext decl ch σ .rollback (answered a) ⟨σ.sch, st⟩

/-- Requests one after another. -/
inductive NextsN (d : Disk) (ext : Value → Nat → Option Value) (decl : Col → Column) (ch : Choices) : NDb → List NCall → NDb → Prop where
  | nil {σ} : NextsN d ext decl ch σ [] σ
  | cons {σ x σ' xs σ''} : NextN d ext decl ch σ x.req x.reply σ' → NextsN d ext decl ch σ' xs σ'' → NextsN d ext decl ch σ (x :: xs) σ''

/-- The names of a FROM clause have one part and no quotes. -/
def NFrom.Plain : NFrom → Prop
  | .table n _ => Catalog.PlainName n
  | .join _ l r _ => l.Plain ∧ r.Plain

/-- The names of a request have one part and no quotes; of a CREATE TABLE see `Verif.Catalog.Plain`. -/
def NReq.Plain : NReq → Prop
  | .create n cols fks ine => Catalog.Plain (.createTable n cols fks ine)
  | .query n _ => Catalog.PlainName n
  | .select f _ => f.Plain
  | _ => True

/-- What is asked of a request, see `Verif.Dml.Covered`. -/
def CoveredN : NReq → NDb → Prop
  | .query n s, σ => Covered (.query s) (σ.st (Catalog.text n))
  | .rollback, σ => ∀ m, Covered .rollback (σ.st m)
  | _, _ => True

/-- This holds for each request of a history, whatever the rows are that the requests before may leave. -/
def AllCoveredN (d : Disk) (ext : Value → Nat → Option Value) (decl : Col → Column) (ch : Choices) (xs : List NCall) : Prop :=
  ∀ pre x post, xs = pre ++ x :: post → ∀ σ, NextsN d ext decl ch .new pre σ → CoveredN x.req σ

end Verif.Whole
