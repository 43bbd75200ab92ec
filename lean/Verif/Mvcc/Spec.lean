import Verif.Mvcc.Model

/-!
# Specification: snapshot isolation without versions or timestamps

The database is one committed state. A transaction copies it when it begins and keeps its own writes on the side; commit
applies them, abort forgets them.
-/

namespace Verif.Mvcc.Spec

variable {V : Type}

/-- `none` is an absent row. -/
structure Abs (V : Type) where
  committed : Rid → Option V
  snap : Nat → Rid → Option V
  wrote : Nat → Rid → Option (Option V)

def init : Abs V := { committed := fun _ => none, snap := fun _ _ => none, wrote := fun _ _ => none }

/-- Transaction `t` writes `w` to `rid`. -/
def write (a : Abs V) (t : Nat) (rid : Rid) (w : Option V) : Abs V :=
  { a with wrote := fun t' rid' => if t' = t ∧ rid' = rid then some w else a.wrote t' rid' }

/-- The writes of `t` are forgotten. -/
def clear (a : Abs V) (t : Nat) : Abs V := { a with wrote := fun t' => if t' = t then fun _ => none else a.wrote t' }

/-- What a call that returned this result does to the database. -/
def step (a : Abs V) : Op V × Res → Abs V
  | (.begin _, .begun t) => { clear a t with snap := fun t' => if t' = t then a.committed else a.snap t' }
  | (.insert t v rid, .ok) => write a t rid (some v)
  | (.update t _ v rid, .ok) => write a t rid (some v)
  | (.delete t rid, .ok) => write a t rid none
  | (.commit t _, .committed true) =>
    { clear a t with committed := fun rid => (a.wrote t rid).getD (a.committed rid) }
  | (.abort t _, .ok) => clear a t
  | _ => a

def run (a : Abs V) : List (Op V × Res) → Abs V
  | [] => a
  | e :: es => run (step a e) es

/-- A read sees the transaction's own write, otherwise the state it copied. -/
def read (a : Abs V) (t : Nat) (rid : Rid) : Option V := (a.wrote t rid).getD (a.snap t rid)

end Verif.Mvcc.Spec
