import Verif.HeapConc.Model
import Verif.Dml.HeapLemmas

/-!
# What a table used by several threads should do

`Effects` says what a history of calls and answers does to the rows of a table, each call having its effect at once; it knows nothing of pages and latches.
-/

namespace Verif.HeapConc

open Verif.Wire Verif.Bytes Verif.Sql Verif.Exec Verif.Dml

/-- The rows of a table with their record ids, in the order of a scan. -/
def Contents (σ : Sys) (c : List (Rid × Slot)) : Prop :=
  ∃ ids, Chain σ.heap.page σ.heap.first ids ∧ ids.Nodup ∧ c = slotsOf σ.heap.page ids

/-- A table with rows `c` that nobody uses yet. -/
structure Ready (σ : Sys) (c : List (Rid × Slot)) : Prop where
  table : Table σ.heap c
  all : ∀ r s, σ.heap.slot? r = some s → (r, s) ∈ c
  writer : σ.writer = none
  readers : σ.readers = []
  idle : ∀ t, σ.pc t = .idle

/-- `Run d σ l σ'`: from `σ`, the things in `l` happen, with the states after each, and lead to `σ'`. -/
inductive Run (d : Disk) : Sys → List (Label × Sys) → Sys → Prop where
  | nil (σ : Sys) : Run d σ [] σ
  | snoc {σ σ' σ'' : Sys} {l : List (Label × Sys)} {e : Label} : Run d σ l σ' → Step d σ' e σ'' → Run d σ (l ++ [(e, σ'')]) σ''

/-- The rows, and what each thread has asked and has looked at since. -/
structure Sheet where
  rows : List (Rid × Slot)
  asked : Nat → Option Op
  noted : Nat → Option Slot

def Sheet.start (c : List (Rid × Slot)) : Sheet := ⟨c, fun _ => none, fun _ => none⟩

/-- The row at `r` is replaced. -/
def overwrite (c : List (Rid × Slot)) (r : Rid) (s : Slot) : List (Rid × Slot) := c.map fun x => if x.1 = r then (r, s) else x

/-- Transaction `txn` may change a row this way: the row is committed, or of the transaction the caller names. -/
def Allowed (txn : Nat) (how : How) (s : Slot) : Prop := match how with
  | .update as _ => s.info.creator = as ∨ s.info.committed = true
  | .delete => s.info.creator = txn ∨ s.info.committed = true

/-- The row after the change. -/
def After (txn : Nat) (how : How) (s : Slot) : Slot := match how with
  | .update _ row => ⟨⟨txn, false, false⟩, row⟩
  | .delete => ⟨⟨txn, false, true⟩, s.row⟩

/-- Some page cannot be read. -/
def Broken (d : Disk) : Prop := ∃ p, d.readable p = false

/-- Why a call may fail, in a table with rows `c`: the row does not fit on an empty page, no page is to be had, the record id has no row or one that may not be changed, the new
row does not fit in the place of the old one. -/
inductive Excuse (d : Disk) (S : Sheet) (t : Nat) : Op → Prop where
  | broken {op : Op} : Broken d → Excuse d S t op
  | large {s : Slot} : d.tooLarge s.row = true → Excuse d S t (.insert s)
  | noPage {s : Slot} {h : Heap} : d.fresh h = none → Excuse d S t (.insert s)
  | noSpace {s : Slot} : (d.space [] s && d.put [] s) = false → Excuse d S t (.insert s)
  | noRow {txn : Nat} {r : Rid} {how : How} : (∀ s, (r, s) ∈ S.rows → s.info.deleted = true) → Excuse d S t (.change txn r how)
  | notAllowed {txn : Nat} {r : Rid} {how : How} {s : Slot} : (r, s) ∈ S.rows → ¬ Allowed txn how s → Excuse d S t (.change txn r how)
  | noFit {txn : Nat} {r : Rid} {how : How} {s : Slot} {slots : List Slot} : S.noted t = some s → d.rewrite slots r.slot (After txn how s) = false →
      Excuse d S t (.change txn r how)
  | notOurs {txn : Nat} {r : Rid} : (∀ s, (r, s) ∈ S.rows → s.info.creator ≠ txn) → Excuse d S t (.commit txn r)
  | nothing {r : Rid} {s : Slot} : (∀ s', (r, s') ∉ S.rows) → Excuse d S t (.restore r s)
  | noFitBack {r : Rid} {s : Slot} {slots : List Slot} : d.rewrite slots r.slot s = false → Excuse d S t (.restore r s)

def Sheet.ask (S : Sheet) (t : Nat) (op : Op) : Sheet := { S with asked := fun u => if u = t then some op else S.asked u, noted := fun u => if u = t then none else S.noted u }
def Sheet.note (S : Sheet) (t : Nat) (s : Slot) : Sheet := { S with noted := fun u => if u = t then some s else S.noted u }

/-- What one thing that happens does to the rows. -/
inductive Effect (d : Disk) : Sheet → Label → Sheet → Prop where
  | call {S : Sheet} (t : Nat) (op : Op) : Effect d S (.call t op) (S.ask t op)
  | work {S : Sheet} (t : Nat) : Effect d S (.work t) S
  /-- A thread that is to change a row looks at it, and may change it as it stands. -/
  | look {S : Sheet} {t txn : Nat} {r : Rid} {how : How} {s : Slot} : S.asked t = some (.change txn r how) → (r, s) ∈ S.rows → s.info.deleted = false → Allowed txn how s →
      Effect d S (.work t) (S.note t s)
  | insert {S : Sheet} {t : Nat} {s : Slot} {r : Rid} : S.asked t = some (.insert s) → r ∉ S.rows.map (·.1) →
      Effect d S (.answer t (.placed r)) { S with rows := S.rows ++ [(r, s)] }
  | change {S : Sheet} {t txn : Nat} {r : Rid} {how : How} {s : Slot} : S.asked t = some (.change txn r how) → S.noted t = some s → r ∈ S.rows.map (·.1) →
      Effect d S (.answer t .changed) { S with rows := overwrite S.rows r (After txn how s) }
  | commit {S : Sheet} {t txn : Nat} {r : Rid} {s : Slot} : S.asked t = some (.commit txn r) → (r, s) ∈ S.rows → s.info.creator = txn →
      Effect d S (.answer t .changed) { S with rows := overwrite S.rows r { s with info := { s.info with committed := true } } }
  | restore {S : Sheet} {t : Nat} {r : Rid} {s : Slot} : S.asked t = some (.restore r s) → r ∈ S.rows.map (·.1) →
      Effect d S (.answer t .changed) { S with rows := overwrite S.rows r s }
  | fail {S : Sheet} {t : Nat} {op : Op} : S.asked t = some op → Excuse d S t op → Effect d S (.answer t .failed) S
  | rows {S : Sheet} {t : Nat} (out : List (Rid × Slot)) : S.asked t = some .scan → Effect d S (.answer t (.rows out)) S

/-- What a history does. -/
inductive Effects (d : Disk) : Sheet → List Label → Sheet → Prop where
  | nil (S : Sheet) : Effects d S [] S
  | snoc {S S' S'' : Sheet} {l : List Label} {e : Label} : Effects d S l S' → Effect d S' e S'' → Effects d S (l ++ [e]) S''

/-- The record ids that inserting threads were told, in the order in which they were told. -/
def placed : List (Label × Sys) → List Rid
  | [] => []
  | (.answer _ (.placed r), _) :: l => r :: placed l
  | _ :: l => placed l

/-- Row `r` stands in the table and is not deleted. -/
def Live (σ : Sys) (r : Rid) : Prop := ∃ c s, Contents σ c ∧ (r, s) ∈ c ∧ s.info.deleted = false

/-- The moments of a run. -/
def moments (σ : Sys) (l : List (Label × Sys)) : List Sys := σ :: l.map (·.2)

/-- What a scan that asked in state `σ` and was answered `out` at the end of `l`, in state `σ'`, owes: the rows come in the order of the table and none twice; each was in the
table, not deleted, as it is given, at some moment of the scan; and a row that was there throughout is among them. -/
structure Scanned (σ : Sys) (l : List (Label × Sys)) (σ' : Sys) (out : List (Rid × Slot)) : Prop where
  order : ∃ c, Contents σ' c ∧ (out.map (·.1)).Sublist (c.map (·.1)) ∧ (c.map (·.1)).Nodup
  true : ∀ x ∈ out, x.2.info.deleted = false ∧ ∃ m ∈ moments σ l, ∃ c, Contents m c ∧ x ∈ c
  whole : ∀ r, (∀ m ∈ moments σ l, Live m r) → r ∈ out.map (·.1)

end Verif.HeapConc
