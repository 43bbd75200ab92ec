import Verif.Locks.Manager

/-!
# Visibility of one tuple version (`TupleMeta`, `Transaction::is_tuple_visible`)
-/

namespace Verif.Mvcc

open Verif.Locks (Iso TState)

/-- `struct TupleMeta` (tuple.rs:219-234). -/
structure Meta where
  creator : Nat
  cts : Option Nat
  deleted : Bool
  undo : Option Nat
  deriving DecidableEq, Repr

/-- `enum TupleVisibility` (tuple.rs:208-216). -/
inductive Vis where
  | invisible | visible | deleted
  deriving DecidableEq, Repr

/-- `visibility_status` (tuple.rs:303-331). -/
def visibilityStatus (m : Meta) (t rts : Nat) : Vis :=
  if m.creator = t then (if m.deleted then .deleted else .visible)
  else match m.cts with
    | none => .invisible
    | some c => if c > rts then .invisible else if m.deleted then .deleted else .visible

/-- `is_applicable_to` (tuple.rs:339-344). -/
def isApplicableTo (m : Meta) (t rts : Nat) : Bool := visibilityStatus m t rts != .invisible

/-- `is_visible_to` (tuple.rs:349-354). -/
def isVisibleTo (m : Meta) (t rts : Nat) : Bool := visibilityStatus m t rts == .visible

/-- `Transaction::is_tuple_visible` (transaction.rs:811-852). -/
def isTupleVisible (iso : Iso) (t rts : Nat) (m : Meta) : Bool :=
  match iso with
  | .readUncommitted => !m.deleted
  | .readCommitted => (m.cts.isSome || m.creator == t) && !m.deleted
  | .repeatableRead | .serializable =>
    !m.deleted && (m.creator == t || (m.cts.isSome && (match m.cts with | some ts => decide (ts ≤ rts) | none => false)))
  | .snapshot => isVisibleTo m t rts

/-! ## Property -/

/-- A version belongs to what a transaction with this id and read timestamp can see: its own write, or
committed no later than the read timestamp. -/
def InSnapshot (m : Meta) (t rts : Nat) : Prop := m.creator = t ∨ ∃ c, m.cts = some c ∧ c ≤ rts

/-- C14. A version is visible exactly if it is in the snapshot and not a deletion, a deletion exactly if it is in the
snapshot and one, invisible exactly if it is not in the snapshot. -/
theorem C14_visibility_status (m : Meta) (t rts : Nat) :
    (visibilityStatus m t rts = .visible ↔ InSnapshot m t rts ∧ m.deleted = false) ∧
    (visibilityStatus m t rts = .deleted ↔ InSnapshot m t rts ∧ m.deleted = true) ∧
    (visibilityStatus m t rts = .invisible ↔ ¬ InSnapshot m t rts) := by
  obtain ⟨c, ct, d, u⟩ := m
  unfold visibilityStatus InSnapshot
  by_cases h1 : c = t
  · cases d <;> simp [h1]
  · cases ct with
    | none => cases d <;> simp [h1]
    | some k =>
      by_cases h2 : k > rts
      · cases d <;> simp [h1, h2]
      · have : k ≤ rts := by omega
        cases d <;> simp [h1, h2, this]

/-- C14, per isolation level: what the level documents. -/
theorem C14_is_tuple_visible (iso : Iso) (t rts : Nat) (m : Meta) :
    isTupleVisible iso t rts m = true ↔ m.deleted = false ∧
      match iso with
      | .readUncommitted => True
      | .readCommitted => m.creator = t ∨ m.cts.isSome
      | .repeatableRead | .serializable | .snapshot => InSnapshot m t rts := by
  have hs := (C14_visibility_status m t rts).1
  unfold isTupleVisible
  cases iso with
  | readUncommitted => simp
  | readCommitted => simp [and_comm, or_comm]
  | snapshot => simp only [isVisibleTo, beq_iff_eq]; rw [hs, and_comm]
  | repeatableRead =>
    unfold InSnapshot
    cases hc : m.cts <;> simp
  | serializable =>
    unfold InSnapshot
    cases hc : m.cts <;> simp

/-- A version committed at 5 is visible at read timestamp 7, not at 3; one's own uncommitted write is visible. -/
example : isTupleVisible .snapshot 1 7 { creator := 2, cts := some 5, deleted := false, undo := none } = true ∧
    isTupleVisible .snapshot 1 3 { creator := 2, cts := some 5, deleted := false, undo := none } = false ∧
    isTupleVisible .snapshot 2 3 { creator := 2, cts := none, deleted := false, undo := none } = true := by decide

end Verif.Mvcc
