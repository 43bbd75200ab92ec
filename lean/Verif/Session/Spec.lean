import Verif.Session.Model

/-!
# What sessions mean, without transaction ids
-/

namespace Verif.Session

open Verif.Locks (Iso)

variable {D : Type}

/-- The statements that ran in a transaction, in order. -/
def didBy (t : Nat) (log : List (Event D)) : List D := log.filterMap fun
  | .did t' d => if t' = t then some d else none
  | _ => none

/-- What has been committed: for each commit, in the order of the commits, the statements that ran in the transaction. -/
def groups (log : List (Event D)) : List (List D) := log.filterMap fun
  | .committed t => some (didBy t log)
  | _ => none

namespace Spec

/-- A client is connected or not; if it is, it has a transaction open or not; if it has, the transaction has statements. -/
structure Abs (D : Type) where
  count : Nat
  client : Nat → Option (Option (List D))
  durable : List (List D)

def init : Abs D := ⟨1, fun _ => none, []⟩

def set (a : Abs D) (c : Nat) (x : Option (Option (List D))) : Abs D := { a with client := fun c' => if c' = c then x else a.client c' }

/-- What a call with this reply means. A statement outside a transaction is durable if it did not fail and without effect if it did. Preparing a statement has no effect. -/
def step (a : Abs D) : Call D × Reply → Abs D
  | (.connect, _) => { set a a.count (some none) with count := a.count + 1 }
  | (.query c (.data d), r) => match a.client c with
    | some (some ds) => set a c (some (some (ds ++ [d])))
    | some none => if r = .results then { a with durable := a.durable ++ [[d]] } else a
    | none => a
  | (.query c (.begin _), .results) | (.begin c _, .results) => set a c (some (some []))
  | (.query c (.commit _), .results) | (.commit c, .results) => match a.client c with
    | some (some ds) => { set a c (some none) with durable := a.durable ++ [ds] }
    | _ => a
  | (.query c (.rollback _), .results) | (.rollback c, .results) => match a.client c with
    | some (some _) => set a c (some none)
    | _ => a
  | (.disconnect c, _) => set a c none
  | _ => a

def run (a : Abs D) : List (Call D × Reply) → Abs D
  | [] => a
  | x :: xs => run (step a x) xs

end Spec

/-- Calls with which the sessions do what they mean: transactions are begun and ended by requests and not by SQL statements, and nothing is prepared. -/
def Plain : Call D → Prop
  | .query _ (.data _) => True
  | .query _ _ => False
  | .prepare _ _ => False
  | _ => True

end Verif.Session
