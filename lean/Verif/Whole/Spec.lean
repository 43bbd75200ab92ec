import Verif.Whole.Model
import Verif.Dml.TransSpec
import Verif.Plan.FromSpec
import Verif.Plan.GroupProps

/-!
# What the requests of a client mean

A database is a list of rows for each table; in a transaction, as in `Verif.Dml.TransSpec`, it is the lists at its begin and the present ones. What a SELECT means is written down in
`Verif.Plan.SelectSpec` and `Verif.Plan.FromSpec` over lists of rows.
-/

namespace Verif.Whole

open Verif.Wire Verif.Bytes Verif.Sql Verif.Exec Verif.Dml Verif.Plan

/-- The state of each table. -/
abbrev Tables := Nat → St

/-- The rows a client sees. -/
def Tables.rows (σ : Tables) (t : Nat) : List Row := (σ t).rows

section
variable (w : World) (f : From) (q : Select)

/-- A SELECT without aggregates, ordered by columns of its answer or not at all, for which the theorems C109 speak. `keep` says which rows WHERE keeps, `sel` what the SELECT list
makes of a row. -/
structure ByOutput (keep : Row → Bool) (sel : Row → Row) : Prop where
  fine : f.Fine w
  plain : Plain (f.rows w) f.scope q keep sel
  filter : ∀ e, q.where_ = some e → ∀ n ∈ e.cols, Plan.Clear f.schema n
  items : ∀ n ∈ namesOf q.items, Plan.Clear f.schema n
  keys : ∀ k ∈ q.orderBy, Known (outCols f.scope q.items) k.1 ∧ ∀ n ∈ k.1.cols, Plan.Clear (outCols f.schema q.items) n
  have_ : ∀ r ∈ f.rows w, keep r = true → KeysHave (outCols f.scope q.items) q.orderBy (sel r)

/-- The same with an ORDER BY key that is not a column of the answer. -/
structure ByInput (keep : Row → Bool) (sel : Row → Row) : Prop where
  fine : f.Fine w
  plain : Plain (f.rows w) f.scope q keep sel
  filter : ∀ e, q.where_ = some e → ∀ n ∈ e.cols, Plan.Clear f.schema n
  items : ∀ n ∈ namesOf q.items, Plan.Clear f.schema n
  outside : ∃ k ∈ q.orderBy, ∃ n ∈ k.1.cols, matching (outCols f.scope q.items) n = [] ∧ matching (outCols f.schema q.items) n = []
  keys : ∀ k ∈ q.orderBy, Known f.scope k.1 ∧ ∀ n ∈ k.1.cols, Plan.Clear f.schema n
  have_ : ∀ r ∈ f.rows w, keep r = true → KeysHave f.scope q.orderBy r

/-- A SELECT with GROUP BY the columns `gs`, or without GROUP BY, and the aggregates `fs`. -/
structure ByGroups (gs : List Name) (fs : List (Fn × Name)) (typ : Expr → Nat) (num : Expr → Row → Option Int) (keep : Row → Bool) : Prop where
  fine : f.Fine w
  grouped : Grouped f.scope q gs fs
  items : ∀ n ∈ namesOf q.items, Plan.Clear f.schema n
  filter : match q.where_ with
    | none => ∀ r ∈ f.rows w, keep r = true
    | some e => (∀ n ∈ e.cols, Plan.Clear f.schema n) ∧ Known f.scope e ∧ ∀ r ∈ f.rows w, Settled f.scope r e ∧ (keep r = true ↔ IsTrue f.scope r e)
  args : ∀ a ∈ fs, ∀ k, Exec.Fine typ num (sqlAgg a.1 (.col 0 (theColumn f.scope a.2))) (rowsOf (keyOf f.scope gs) ((f.rows w).filter keep) k)
  /-- The sum of no rows is 0 in Ferrite (C45). -/
  sums : gs = [] → (f.rows w).filter keep = [] → ∀ a ∈ fs, a.1 ≠ .sum
  keys : ∀ k ∈ q.orderBy, Known (groupCols gs fs) k.1
  have_ : ∀ k ∈ keysOf f.scope gs ((f.rows w).filter keep), ∀ vals : List Value, vals.length = fs.length → (∀ (i : Nat) a v, fs[i]? = some a → vals[i]? = some v →
    Meets typ num (sqlAgg a.1 (.col 0 (theColumn f.scope a.2))) (rowsOf (keyOf f.scope gs) ((f.rows w).filter keep) k) v) → KeysHave (groupCols gs fs) q.orderBy (k ++ vals)

/-- The reply to a SELECT is what SQL says about the rows of the tables. -/
structure Says (r : Reply) : Prop where
  output : ∀ keep sel, ByOutput w f q keep sel → ∃ out, r = .rows out ∧ AnswerByOutput f.scope q ((f.rows w).filter keep) sel out
  input : ∀ keep sel, ByInput w f q keep sel → ∃ out, r = .rows out ∧ AnswerByInput f.scope q ((f.rows w).filter keep) sel out
  groups : ∀ gs fs typ num keep, ByGroups w f q gs fs typ num keep → ∃ out, r = .rows out ∧ AnswerGrouped f.scope q gs fs typ num ((f.rows w).filter keep) out

end

/-- What a request does. -/
inductive NextDb (d : Disk) (ext : Value → Nat → Option Value) (cat : Catalog) (ch : Choices) : Tables → Req → Reply → Tables → Prop where
  | query {σ t s a st} : Next d ext (cat.cols t) (σ t) (.query s) a st → NextDb d ext cat ch σ (.query t s) (answered a) (fun u => if u = t then st else σ u)
  | select {σ f q r} : Says (ch.world σ.rows) f q r → NextDb d ext cat ch σ (.select f q) r σ
  | begin {σ σ' a} : (∀ t, Next d ext (cat.cols t) (σ t) .begin a (σ' t)) → NextDb d ext cat ch σ .begin (answered a) σ'
  | commit {σ σ' a} : (∀ t, Next d ext (cat.cols t) (σ t) .commit a (σ' t)) → NextDb d ext cat ch σ .commit (answered a) σ'
  | rollback {σ σ' a} : (∀ t, Next d ext (cat.cols t) (σ t) .rollback a (σ' t)) → NextDb d ext cat ch σ .rollback (answered a) σ'

/-- Requests one after another. -/
inductive NextsDb (d : Disk) (ext : Value → Nat → Option Value) (cat : Catalog) (ch : Choices) : Tables → List Call → Tables → Prop where
  | nil {σ} : NextsDb d ext cat ch σ [] σ
  | cons {σ x σ' xs σ''} : NextDb d ext cat ch σ x.req x.reply σ' → NextsDb d ext cat ch σ' xs σ'' → NextsDb d ext cat ch σ (x :: xs) σ''

/-- What is asked of a request, see `Verif.Dml.Covered`. Nothing is asked of a SELECT. -/
def CoveredDb : Req → Tables → Prop
  | .query t s, σ => Covered (.query s) (σ t)
  | .rollback, σ => ∀ t, Covered .rollback (σ t)
  | _, _ => True

/-- This holds for each request of a history, whatever the rows are that the requests before may leave. -/
def AllCoveredDb (d : Disk) (ext : Value → Nat → Option Value) (cat : Catalog) (ch : Choices) (xs : List Call) : Prop :=
  ∀ pre x post, xs = pre ++ x :: post → ∀ σ, NextsDb d ext cat ch (fun _ => .idle []) pre σ → CoveredDb x.req σ

end Verif.Whole
