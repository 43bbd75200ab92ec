import Verif.BTree.Model

/-!
# B+ tree: what the properties say
-/

namespace Verif.BTree

variable {K V : Type}

section
variable [LT K] [LE K] [DecidableEq K] [DecidableLT K] [DecidableLE K]

/-- In the scanned range: `start <= key` and `key < end`, or `key = end` for an inclusive scan. -/
def inRange (s e : K) (incl : Bool) (k : K) : Bool := decide (s ≤ k) && (decide (k < e) || (incl && decide (k = e)))

/-- `r` lists exactly the pairs of `content` in ascending key order. -/
def Lists (r content : List (K × V)) : Prop := r.Perm content ∧ r.Pairwise (fun a b => a.1 < b.1)

/-- The same when keys may repeat. -/
def ListsDup (r content : List (K × V)) : Prop := r.Perm content ∧ r.Pairwise (fun a b => a.1 ≤ b.1)

end

/-- `x` is a node of `t`. -/
inductive Node : Tree K V → Tree K V → Prop where
  | self (t) : Node t t
  | child {x c : Tree K V} {ks : List K} {cs : List (Tree K V)} : c ∈ cs → Node x c → Node x (.node ks cs)

mutual
/-- The depth of each leaf. -/
def Tree.depths : Tree K V → List Nat
  | .leaf _ _ _ => [0]
  | .node _ cs => depthsL cs
/-- For a list of children. -/
def depthsL : List (Tree K V) → List Nat
  | [] => []
  | c :: cs => c.depths.map (· + 1) ++ depthsL cs
end

/-- Calls that change the index. -/
inductive Op (K V : Type) where
  | ins (k : K) (v : V)
  | del (k : K) (v : V)

/-- A sequence of calls with the answers; `none` is a panic. -/
def run [DecidableEq V] (o : KeyOps K) : BTree K V → List (Op K V) → Option (BTree K V × List Bool)
  | t, [] => some (t, [])
  | t, op :: ops =>
    match (match op with | .ins k v => t.insert o k v | .del k v => t.delete o k v) with
    | none => none
    | some (t', b) => (run o t' ops).map fun r => (r.1, b :: r.2)

/-- What the index should hold after one call, and the answer. -/
def ideal [DecidableEq K] [DecidableEq V] (c : List (K × V)) : Op K V → List (K × V) × Bool
  | .ins k v => (c ++ [(k, v)], true)
  | .del k v => (c.erase (k, v), decide ((k, v) ∈ c))

/-- What it should hold after a sequence of calls, and the answers. -/
def idealRun [DecidableEq K] [DecidableEq V] : List (K × V) → List (Op K V) → List (K × V) × List Bool
  | c, [] => (c, [])
  | c, op :: ops =>
    let r := idealRun (ideal c op).1 ops
    (r.1, (ideal c op).2 :: r.2)

/-- Every insert uses a key that the index does not hold at that time. -/
def Fresh [DecidableEq K] [DecidableEq V] : List (K × V) → List (Op K V) → Prop
  | _, [] => True
  | c, op :: ops => (match op with | .ins k _ => k ∉ c.map (·.1) | .del _ _ => True) ∧ Fresh (ideal c op).1 ops

/-- The inserts of a history. -/
def inserts (l : List (K × V)) : List (Op K V) := l.map fun e => .ins e.1 e.2

end Verif.BTree
