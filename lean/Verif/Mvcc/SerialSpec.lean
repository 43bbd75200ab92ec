import Verif.Mvcc.Model

/-!
# Specification: serializability

What clients see of a history is a log of calls with their results and of reads with the values read. It is serializable if the committed
transactions, run one after the other on a plain map, read the same values and leave the same rows.
-/

namespace Verif.Mvcc

variable {V : Type}

/-- An entry of the log. -/
inductive Ev (V : Type) where
  | call (o : Op V) (r : Res)
  | read (t : Nat) (rid : Rid) (v : Option V)
  deriving DecidableEq

/-- What a transaction did to a row; `none` is an absent row. -/
inductive Act (V : Type) where
  | saw (rid : Rid) (v : Option V)
  | wrote (rid : Rid) (v : Option V)
  deriving DecidableEq

def actOf (t : Nat) : Ev V → Option (Act V)
  | .read t' rid v => if t' = t then some (.saw rid v) else none
  | .call (.insert t' v rid) .ok => if t' = t then some (.wrote rid (some v)) else none
  | .call (.update t' _ v rid) .ok => if t' = t then some (.wrote rid (some v)) else none
  | .call (.delete t' rid) .ok => if t' = t then some (.wrote rid none) else none
  | _ => none

/-- What transaction `t` did, in order. -/
def acts (t : Nat) (H : List (Ev V)) : List (Act V) := H.filterMap (actOf t)

/-- Transaction `t` was told that it is committed. -/
def Committed (H : List (Ev V)) (t : Nat) : Prop := ∃ o, Ev.call (.commit t o) (.committed true) ∈ H

/-- A plain map goes through the acts; `none` if a value read is not the one in the map. -/
def play [DecidableEq V] (σ : Rid → Option V) : List (Act V) → Option (Rid → Option V)
  | [] => some σ
  | .saw rid v :: l => if σ rid = v then play σ l else none
  | .wrote rid v :: l => play (fun r => if r = rid then v else σ r) l

/-- The committed transactions of the log, in some order, one after the other, read what they read and leave the rows `final`. -/
def Serializable [DecidableEq V] (H : List (Ev V)) (final : Rid → Option V) : Prop :=
  ∃ order : List Nat, order.Nodup ∧ (∀ t, t ∈ order ↔ Committed H t) ∧
    play (fun _ => none) (order.flatMap fun t => acts t H) = some final

end Verif.Mvcc
