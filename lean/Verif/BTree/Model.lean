/-!
# The in-memory B+ tree index (`src/storage/index/b_plus_tree.rs`): model

A node that is reached through the children vectors is a value of `Tree`. The only other references between nodes are the
`next_leaf` pointers, so each leaf carries an identity and the identity of its next leaf. A leaf that is dropped from the
tree can still be alive through such a pointer; it is kept in `orphans`.

The keys and values vectors of a leaf are changed together and always have the same length; they are one list of pairs.
A result `none` is a panic (an index out of range). Each call runs to its end before the next one.
-/

namespace Verif.BTree

/-- The comparisons of `Value` the tree uses, each as the test `== CmpBool::CmpTrue`. -/
structure KeyOps (K : Type) where
  lt : K → K → Bool
  gt : K → K → Bool
  eq : K → K → Bool
  ge : K → K → Bool

/-- Comparisons of a totally ordered type (non-null values of one SQL type). -/
def KeyOps.linear (K : Type) [LT K] [LE K] [DecidableEq K] [DecidableLT K] [DecidableLE K] : KeyOps K :=
  { lt := fun a b => decide (a < b), gt := fun a b => decide (b < a), eq := fun a b => decide (a = b),
    ge := fun a b => decide (b ≤ a) }

/-- `struct BPlusTreeNode` (b_plus_tree.rs:139-146) with its children. -/
inductive Tree (K V : Type) where
  | leaf (id : Nat) (es : List (K × V)) (next : Option Nat)
  | node (keys : List K) (children : List (Tree K V))

/-- A leaf, out of the tree. -/
structure Leaf (K V : Type) where
  id : Nat
  es : List (K × V)
  next : Option Nat
  deriving DecidableEq, Repr

/-- `struct BPlusTree` (b_plus_tree.rs:148-153); `fresh` is the next unused identity. -/
structure BTree (K V : Type) where
  root : Tree K V
  order : Nat
  fresh : Nat
  orphans : List (Leaf K V)

variable {K V : Type}

/-- `new` (b_plus_tree.rs:168-174). -/
def BTree.new (order : Nat) : BTree K V := { root := .leaf 0 [] none, order, fresh := 1, orphans := [] }

/-- `keys.len()` of a node. -/
def Tree.size : Tree K V → Nat
  | .leaf _ es _ => es.length
  | .node ks _ => ks.length

/-- `find_insert_position` (b_plus_tree.rs:606-624). -/
def findPos (o : KeyOps K) (keys : List K) (key : K) : Nat :=
  keys.findIdx (fun k => if o.eq k key then false else o.gt k key)

/-- `split_child` (b_plus_tree.rs:742-818) on a parent's keys and children. `insert_pos.min(parent.keys.len())` is the
position itself because it is never larger. -/
def splitChild (o : KeyOps K) (fresh : Nat) (keys : List K) (cs : List (Tree K V)) (i : Nat) :
    Option (List K × List (Tree K V)) :=
  match cs[i]? with
  | none => none
  | some (.leaf id es next) =>
    let sp := es.length / 2
    match (es.drop sp).head? with
    | none => none
    | some (s, _) =>
      let pos := findPos o keys s
      if pos + 1 ≤ cs.length then
        some (keys.insertIdx pos s,
          (cs.set i (.leaf id (es.take sp) (some fresh))).insertIdx (pos + 1) (.leaf fresh (es.drop sp) next))
      else none
  | some (.node ks ch) =>
    let sp := ks.length / 2
    match ks[sp]? with
    | none => none
    | some m =>
      let pos := findPos o keys m
      if sp + 1 ≤ ch.length ∧ pos + 1 ≤ cs.length then
        some (keys.insertIdx pos m,
          (cs.set i (.node (ks.take sp) (ch.take (sp + 1)))).insertIdx (pos + 1) (.node (ks.drop (sp + 1)) (ch.drop (sp + 1))))
      else none

/-- The two loops that look for the same pair around the position (b_plus_tree.rs:640-667): backwards from the position over
equal keys, then forwards. -/
def hasPair [DecidableEq V] (o : KeyOps K) (es : List (K × V)) (pos : Nat) (key : K) (v : V) : Bool :=
  ((es.take pos).reverse.takeWhile (fun e => o.eq e.1 key)).any (fun e => e.2 = v) ||
  ((es.drop pos).takeWhile (fun e => o.eq e.1 key)).any (fun e => e.2 = v)

/-- `insert_non_full` (b_plus_tree.rs:627-739): the node, the answer and the next unused identity. The first argument bounds
the depth of the recursion. -/
def insertNonFull [DecidableEq V] (o : KeyOps K) (order : Nat) : Nat → Tree K V → K → V → Nat → Option (Tree K V × Bool × Nat)
  | _, .leaf id es next, key, v, fresh =>
    let pos := findPos o (es.map (·.1)) key
    if hasPair o es pos key v then some (.leaf id es next, false, fresh)
    else some (.leaf id (es.insertIdx pos (key, v)) next, true, fresh)
  | 0, .node _ _, _, _, _ => none
  | n + 1, .node keys cs, key, v, fresh =>
    let pos := findPos o keys key
    let idx := if pos ≥ cs.length then cs.length - 1 else pos
    match cs[idx]? with
    | none => none
    | some c =>
      if c.size = order - 1 then
        match splitChild o fresh keys cs idx with
        | none => none
        | some (keys', cs') =>
          let pos' := findPos o keys' key
          let idx' := if pos' ≥ cs'.length then cs'.length - 1 else pos'
          match cs'[idx']? with
          | none => none
          | some c' =>
            match insertNonFull o order n c' key v (fresh + 1) with
            | none => none
            | some (c'', r, f) => some (.node keys' (cs'.set idx' c''), r, f)
      else
        match insertNonFull o order n c key v fresh with
        | none => none
        | some (c', r, f) => some (.node keys (cs.set idx c'), r, f)

/-- The height of the leftmost branch, to bound recursions: all branches are equally long (C23). -/
def Tree.height : Tree K V → Nat
  | .leaf _ _ _ => 0
  | .node _ [] => 1
  | .node _ (c :: _) => c.height + 1

/-- `insert` (b_plus_tree.rs:180-221). The old root moves to a new allocation, but no leaf points to the root, so its
identity can be kept. -/
def BTree.insert [DecidableEq V] (o : KeyOps K) (t : BTree K V) (key : K) (v : V) : Option (BTree K V × Bool) :=
  if t.root.size = t.order - 1 then
    match splitChild o t.fresh [] [t.root] 0 with
    | none => none
    | some (keys, cs) =>
      match insertNonFull o t.order (t.root.height + 1) (.node keys cs) key v (t.fresh + 1) with
      | none => none
      | some (r, b, f) => some ({ t with root := r, fresh := f }, b)
  else
    match insertNonFull o t.order t.root.height t.root key v t.fresh with
    | none => none
    | some (r, b, f) => some ({ t with root := r, fresh := f }, b)

mutual
/-- The leaves reached through the children, from left to right. -/
def Tree.leaves : Tree K V → List (Leaf K V)
  | .leaf id es next => [⟨id, es, next⟩]
  | .node _ cs => leavesL cs
/-- The leaves of a list of nodes. -/
def leavesL : List (Tree K V) → List (Leaf K V)
  | [] => []
  | c :: cs => c.leaves ++ leavesL cs
end

/-- Following a `next_leaf` pointer. -/
def deref (ls : List (Leaf K V)) (id : Nat) : Option (Leaf K V) := ls.find? (fun l => l.id = id)

/-- The entries of one leaf in `scan_range` (b_plus_tree.rs:346-359); the boolean says that the scan is over. -/
def takeRange (o : KeyOps K) (s e : K) (incl : Bool) : List (K × V) → List (K × V) × Bool
  | [] => ([], false)
  | (k, v) :: es =>
    if o.lt k s then takeRange o s e incl es
    else if o.gt k e || (!incl && o.eq k e) then ([], true)
    else
      let r := takeRange o s e incl es
      ((k, v) :: r.1, r.2)

/-- The second loop of `scan_range` and of `scan_full` (b_plus_tree.rs:341-377, 413-436), with the work on one leaf as a
parameter; the first argument bounds the number of leaves, and `none` stands for a cycle of leaves. -/
def walk (f : List (K × V) → List (K × V) × Bool) (ls : List (Leaf K V)) : Nat → Leaf K V → Option (List (K × V))
  | 0, _ => none
  | n + 1, l =>
    let r := f l.es
    if r.2 then some r.1
    else
      match l.next with
      | none => some r.1
      | some id =>
        match deref ls id with
        | none => none
        | some l' => (walk f ls n l').map (r.1 ++ ·)

/-- The first loop of `scan_range` (b_plus_tree.rs:320-339). -/
def descend (o : KeyOps K) (s : K) : Nat → Tree K V → Option (Leaf K V)
  | _, .leaf id es next => some ⟨id, es, next⟩
  | 0, .node _ _ => none
  | n + 1, .node keys cs =>
    let i := (keys.findIdx? (fun k => o.ge k s)).getD 0
    match cs[i]? with
    | none => none
    | some c => descend o s n c

/-- The first loop of `scan_full` (b_plus_tree.rs:394-410). -/
def leftmost : Nat → Tree K V → Option (Leaf K V)
  | _, .leaf id es next => some ⟨id, es, next⟩
  | 0, .node _ _ => none
  | n + 1, .node _ cs =>
    match cs[0]? with
    | none => none
    | some c => leftmost n c

/-- All leaves that can be alive. -/
def BTree.alive (t : BTree K V) : List (Leaf K V) := t.root.leaves ++ t.orphans

/-- `scan_range` (b_plus_tree.rs:309-384), on the extracted keys. -/
def BTree.scanRange (o : KeyOps K) (t : BTree K V) (s e : K) (incl : Bool) : Option (List (K × V)) :=
  match descend o s t.root.height t.root with
  | none => none
  | some l => walk (takeRange o s e incl) t.alive t.alive.length l

/-- `scan_full` (b_plus_tree.rs:386-440). -/
def BTree.scanFull (t : BTree K V) : Option (List (K × V)) :=
  match leftmost t.root.height t.root with
  | none => none
  | some l => walk (fun es => (es, false)) t.alive t.alive.length l

/-- `scan_key` (b_plus_tree.rs:1104-1112). -/
def BTree.scanKey (o : KeyOps K) (t : BTree K V) (k : K) : Option (List (K × V)) := t.scanRange o k k true

/-! ### Delete -/

/-- The children `delete` looks into (b_plus_tree.rs:236-256). -/
def candidates (o : KeyOps K) (keys : List K) (n : Nat) (key : K) : List Nat :=
  let l := (keys.zipIdx).flatMap fun (k, i) => if o.gt k key then [i] else if o.eq k key then [i, i + 1] else []
  if l.contains (n - 1) then l else l ++ [n - 1]

/-- The loop over the remaining candidates: it stops at the first find. -/
def tryAll {A : Type} (f : Nat → Option (Option A)) : List Nat → Option (Option A)
  | [] => some none
  | i :: is =>
    match f i with
    | none => none
    | some (some r) => some (some r)
    | some none => tryAll f is

/-- The search of `delete` (b_plus_tree.rs:229-301): the work list is a stack, so the children are tried from the last
candidate to the first, each with everything below it. The result is the path of child indices and the position in the leaf;
the outer `none` is a panic. -/
def search [DecidableEq V] (o : KeyOps K) (key : K) (v : V) : Nat → Tree K V → Option (Option (List Nat × Nat))
  | _, .leaf _ es _ => some ((es.findIdx? fun e => o.eq e.1 key && decide (e.2 = v)).map fun i => ([], i))
  | 0, .node _ _ => none
  | n + 1, .node keys cs =>
    tryAll (fun i => match cs[i]? with
      | none => none
      | some c => (search o key v n c).map (·.map fun r => (i :: r.1, r.2)))
      (candidates o keys cs.length key).reverse

/-- A parent's keys and children after one step of the rebalancing, whether nodes were merged (or nothing could be done), and
the leaf that was dropped. -/
structure Rebalanced (K V : Type) where
  keys : List K
  cs : List (Tree K V)
  again : Bool
  dropped : List (Leaf K V)

/-- `borrow_from_left_sibling` (b_plus_tree.rs:921-953). Siblings of different kinds do not occur. -/
def borrowLeft (keys : List K) (cs : List (Tree K V)) (i : Nat) : Option (List K × List (Tree K V)) :=
  match cs[i - 1]?, cs[i]? with
  | some (.leaf lid les ln), some (.leaf rid res rn) =>
    match les.getLast? with
    | none => none
    | some e =>
      if i - 1 < keys.length then
        some (keys.set (i - 1) e.1, (cs.set (i - 1) (.leaf lid les.dropLast ln)).set i (.leaf rid (e :: res) rn))
      else none
  | some (.node lk lc), some (.node rk rc) =>
    match keys[i - 1]?, lk.getLast? with
    | some s, some k =>
      let moved := match lc.getLast? with | some c => [c] | none => []
      some (keys.set (i - 1) k, (cs.set (i - 1) (.node lk.dropLast lc.dropLast)).set i (.node (s :: rk) (moved ++ rc)))
    | _, _ => none
  | _, _ => none

/-- `borrow_from_right_sibling` (b_plus_tree.rs:955-989). -/
def borrowRight (keys : List K) (cs : List (Tree K V)) (i : Nat) : Option (List K × List (Tree K V)) :=
  match cs[i]?, cs[i + 1]? with
  | some (.leaf lid les ln), some (.leaf rid res rn) =>
    match res with
    | e :: e' :: res' =>
      if i < keys.length then
        some (keys.set i e'.1, (cs.set i (.leaf lid (les ++ [e]) ln)).set (i + 1) (.leaf rid (e' :: res') rn))
      else none
    | _ => none
  | some (.node lk lc), some (.node rk rc) =>
    match keys[i]?, rk with
    | some s, k :: rk' =>
      let moved := match rc with | c :: _ => [c] | [] => []
      some (keys.set i k, (cs.set i (.node (lk ++ [s]) (lc ++ moved))).set (i + 1) (.node rk' rc.tail))
    | _, _ => none
  | _, _ => none

/-- `merge_with_left_sibling` and `merge_with_right_sibling` (b_plus_tree.rs:991-1065) for the children `j` and `j + 1`: for
internal nodes the separator is removed when it moves down and then, if there is another key at its place, that one is
removed too. -/
def mergeAt (keys : List K) (cs : List (Tree K V)) (j : Nat) : Option (List K × List (Tree K V) × List (Leaf K V)) :=
  match cs[j]?, cs[j + 1]? with
  | some (.leaf lid les _), some (.leaf rid res rn) =>
    some (keys.eraseIdx j, (cs.set j (.leaf lid (les ++ res) rn)).eraseIdx (j + 1), [⟨rid, [], none⟩])
  | some (.node lk lc), some (.node rk rc) =>
    match keys[j]? with
    | none => none
    | some s =>
      let keys := keys.eraseIdx j
      some (keys.eraseIdx j, (cs.set j (.node (lk ++ s :: rk) (lc ++ rc))).eraseIdx (j + 1), [])
  | _, _ => none

/-- The sibling test `keys.len() > min_keys` (b_plus_tree.rs:847, 864). -/
def richer (min : Nat) : Option (Tree K V) → Bool
  | some l => decide (l.size > min)
  | none => false

/-- The body of the loop of `rebalance_after_delete` (b_plus_tree.rs:823-886) for one parent, except for the root case. -/
def rebalanceStep (order : Nat) (keys : List K) (cs : List (Tree K V)) (i : Nat) : Option (Rebalanced K V) :=
  let min := (order - 1) / 2
  match cs[i]? with
  | none => none
  | some c =>
    if c.size ≥ min then some ⟨keys, cs, false, []⟩
    else if 0 < i ∧ richer min cs[i - 1]? then
      (borrowLeft keys cs i).map fun r => ⟨r.1, r.2, false, []⟩
    else if i < cs.length - 1 ∧ richer min cs[i + 1]? then
      (borrowRight keys cs i).map fun r => ⟨r.1, r.2, false, []⟩
    else if 0 < i then (mergeAt keys cs (i - 1)).map fun r => ⟨r.1, r.2.1, true, r.2.2⟩
    else if i < cs.length - 1 then (mergeAt keys cs i).map fun r => ⟨r.1, r.2.1, true, r.2.2⟩
    else some ⟨keys, cs, true, []⟩

/-- `rebalance_after_delete` (b_plus_tree.rs:820-919) below the root: the path is followed down to the changed leaf and the
loop's iterations are done on the way back. The boolean says whether the loop goes on with the next parent. -/
def rebalance (order : Nat) : List Nat → Tree K V → Option (Tree K V × Bool × List (Leaf K V))
  | [], t => some (t, true, [])
  | _ :: _, .leaf _ _ _ => none
  | i :: p, .node keys cs =>
    match cs[i]? with
    | none => none
    | some c =>
      match rebalance order p c with
      | none => none
      | some (c', false, d) => some (.node keys (cs.set i c'), false, d)
      | some (c', true, d) =>
        match rebalanceStep order keys (cs.set i c') i with
        | none => none
        | some r => some (.node r.keys r.cs, r.again && decide (r.keys.length < (order - 1) / 2), d ++ r.dropped)

/-- The root case of `rebalance_after_delete` (b_plus_tree.rs:888-909): when the root was the parent of a merge and has no
keys left, the root becomes a copy of its first child. A copied leaf gets a new identity and the old one stays alive for
those who point to it. -/
def collapse (fresh : Nat) : Tree K V → Tree K V × Nat × List (Leaf K V)
  | .node [] (.leaf id es next :: cs) => (.leaf fresh es next, fresh + 1, ⟨id, es, next⟩ :: leavesL cs)
  | .node [] (c :: cs) => (c, fresh, leavesL cs)
  | t => (t, fresh, [])

/-- The top of the path, where the parent is the root. -/
def rebalanceRoot (order : Nat) (fresh : Nat) : List Nat → Tree K V → Option (Tree K V × Nat × List (Leaf K V))
  | [], t => some (t, fresh, [])
  | _ :: _, .leaf _ _ _ => none
  | i :: p, .node keys cs =>
    match cs[i]? with
    | none => none
    | some c =>
      match rebalance order p c with
      | none => none
      | some (c', false, d) => some (.node keys (cs.set i c'), fresh, d)
      | some (c', true, d) =>
        match rebalanceStep order keys (cs.set i c') i with
        | none => none
        | some r =>
          if r.again then
            let x := collapse fresh (.node r.keys r.cs)
            some (x.1, x.2.1, d ++ r.dropped ++ x.2.2)
          else some (.node r.keys r.cs, fresh, d ++ r.dropped)

/-- Removing position `j` of the leaf at the end of a path (b_plus_tree.rs:275-277); also the number of keys left. -/
def removeAt : List Nat → Nat → Tree K V → Option (Tree K V × Nat)
  | [], j, .leaf id es next => some (.leaf id (es.eraseIdx j) next, (es.eraseIdx j).length)
  | [], _, .node _ _ => none
  | _ :: _, _, .leaf _ _ _ => none
  | i :: p, j, .node keys cs =>
    match cs[i]? with
    | none => none
    | some c => (removeAt p j c).map fun r => (.node keys (cs.set i r.1), r.2)

/-- `delete` (b_plus_tree.rs:223-307). -/
def BTree.delete [DecidableEq V] (o : KeyOps K) (t : BTree K V) (key : K) (v : V) : Option (BTree K V × Bool) :=
  match search o key v t.root.height t.root with
  | none => none
  | some none => some (t, false)
  | some (some (p, j)) =>
    match removeAt p j t.root with
    | none => none
    | some (r, n) =>
      if n < (t.order - 1) / 2 ∧ p ≠ [] then
        match rebalanceRoot t.order t.fresh p r with
        | none => none
        | some (r', f, d) => some ({ t with root := r', fresh := f, orphans := t.orphans ++ d }, true)
      else some ({ t with root := r }, true)

end Verif.BTree
