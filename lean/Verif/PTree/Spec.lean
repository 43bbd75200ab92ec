import Verif.PTree.Model

/-!
# Paged B+ tree: what an index user expects
-/

namespace Verif.PTree

/-- A call that changes the index; the second one of each kind goes through the latched traversal. -/
inductive Op (V : Type) where
  | insert (key : Int) (v : V)
  | insertLatched (key : Int) (v : V)
  | remove (key : Int)
  | removeLatched (key : Int)
  deriving DecidableEq, Repr

variable {V : Type}

/-- An index is a partial map. -/
abbrev Map (V : Type) := Int → Option V

/-- What a call should do to the map. -/
def Op.effect : Op V → Map V → Map V
  | .insert k v, m => fun j => if j = k then some v else m j
  | .insertLatched k v, m => fun j => if j = k then some v else m j
  | .remove k, m => fun j => if j = k then none else m j
  | .removeLatched k, m => fun j => if j = k then none else m j

/-- What a call should answer: an insert always succeeds, a removal says whether the key was there. -/
def Op.answer : Op V → Map V → Bool
  | .insert _ _, _ => true
  | .insertLatched _ _, _ => true
  | .remove k, m => (m k).isSome
  | .removeLatched k, m => (m k).isSome

/-- The map after a history, and the answers on the way. -/
def expect (m : Map V) : List (Op V) → Map V × List Bool
  | [] => (m, [])
  | op :: ops => ((expect (op.effect m) ops).1, op.answer m :: (expect (op.effect m) ops).2)

/-- The call is an insert. -/
def Op.isInsert : Op V → Bool
  | .insert _ _ => true
  | .insertLatched _ _ => true
  | _ => false

/-- The call on the index. -/
def step (s : State V) : Op V → State V × Res Bool
  | .insert k v => match PTree.insert s k v with
    | (s, .ok ()) => (s, .ok true)
    | (s, .err) => (s, .err)
    | (s, .panic) => (s, .panic)
    | (s, .hang) => (s, .hang)
  | .insertLatched k v => match insertC s k v with
    | (s, .ok ()) => (s, .ok true)
    | (s, .err) => (s, .err)
    | (s, .panic) => (s, .panic)
    | (s, .hang) => (s, .hang)
  | .remove k => PTree.remove s k
  | .removeLatched k => removeC s k

/-- A history on the index, with the answers. -/
def run (s : State V) : List (Op V) → State V × List (Res Bool)
  | [] => (s, [])
  | op :: ops => ((run (step s op).1 ops).1, (step s op).2 :: (run (step s op).1 ops).2)

/-- A list holds a map in a range: in order of the keys, with exactly the entries of the map. -/
def Lists (m : Map V) (inside : Int → Prop) (r : List (Int × V)) : Prop :=
  r.Pairwise (fun a b => a.1 < b.1) ∧ ∀ k v, (k, v) ∈ r ↔ inside k ∧ m k = some v

end Verif.PTree
