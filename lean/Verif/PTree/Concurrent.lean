import Verif.PTree.Spec

/-!
# Paged B+ tree: calls of several threads

Each call is cut where it holds no latch between finding its leaf and working on it. The way down is one step: the pages it
reads are read one after another by the code.
-/

namespace Verif.PTree

variable {V : Type}

/-- A call of a thread. -/
inductive Call (V : Type) where
  | insert (key : Int) (v : V)
  | insertLatched (key : Int) (v : V)
  | remove (key : Int)
  | removeLatched (key : Int)
  | search (key : Int)
  deriving DecidableEq, Repr

/-- The key of a call. -/
def Call.key : Call V → Int
  | .insert k _ => k
  | .insertLatched k _ => k
  | .remove k => k
  | .removeLatched k => k
  | .search k => k

/-- What a call gives back. -/
inductive Ans (V : Type) where
  | done
  | removed (b : Bool)
  | value (v : Option V)
  deriving DecidableEq, Repr

/-- What a call should do to the map. -/
def Call.effect : Call V → Map V → Map V
  | .insert k v, m => fun j => if j = k then some v else m j
  | .insertLatched k v, m => fun j => if j = k then some v else m j
  | .remove k, m => fun j => if j = k then none else m j
  | .removeLatched k, m => fun j => if j = k then none else m j
  | .search _, m => m

/-- What a call should give back. -/
def Call.answer : Call V → Map V → Ans V
  | .insert _ _, _ => .done
  | .insertLatched _ _, _ => .done
  | .remove k, m => .removed (m k).isSome
  | .removeLatched k, m => .removed (m k).isSome
  | .search k, m => .value (m k)

/-- The map after calls made one after another, and the answers on the way. -/
def expectCalls (m : Map V) : List (Call V) → Map V × List (Ans V)
  | [] => (m, [])
  | c :: cs => ((expectCalls (c.effect m) cs).1, c.answer m :: (expectCalls (c.effect m) cs).2)

/-- The root, the height and the count of the header page. -/
def State.header (s : State V) : Option Nat × Nat × Nat := (s.root, s.height, s.num)

/-- What a call holds on to between its steps: the leaf with the path to it (none: the index is empty), whether the leaf was safe
(latch_crabbing.rs:632-648, b_plus_tree_index.rs:899-902, 951-954), and the header as `remove` read it
(b_plus_tree_index.rs:592-602). -/
structure Found where
  loc : Option (Nat × List Nat)
  safe : Bool
  header : Option Nat × Nat × Nat
  deriving DecidableEq, Repr

/-- `is_safe` of the traversal (b_plus_tree_index.rs:899-902, 951-954). -/
def isSafe (s : State V) (c : Call V) : Option (Nat × List Nat) → Bool
  | none => true
  | some (id, _) =>
    match s.leaf id with
    | .ok l => (match c with
      | .insertLatched _ _ => safeInsert s.order l
      | .removeLatched _ => safeRemove s.order l
      | _ => true)
    | _ => false

/-- `remove` behind `find_leaf_page_with_path` (b_plus_tree_index.rs:617-658); the header is written back as it was read, with the count
lower by one. -/
def removeAt (s : State V) (id : Nat) (path : List Nat) (h : Option Nat × Nat × Nat) (key : Int) : State V × Res Bool :=
  match s.leaf id with
  | .ok l =>
    match leafGet l.es key with
    | none => (s, .ok false)
    | some _ =>
      let l := { l with es := leafRemove (leafIdx l.es key) l.es }
      let s := { s.set id (.leaf l) with root := h.1, height := h.2.1, num := h.2.2 - 1 }
      if l.isRoot ∧ l.es.length = 0 then ({ s with root := none, height := 0, num := 0 }, .ok true)
      else if !l.isRoot ∧ l.es.length < s.order / 2 then
        match underflow s id true path with
        | (s, .ok ()) => (s, .ok true)
        | (s, .err) => (s, .err)
        | (s, .panic) => (s, .panic)
        | (s, .hang) => (s, .hang)
      else (s, .ok true)
  | .err => (s, .err)
  | .panic => (s, .panic)
  | .hang => (s, .hang)

/-- A call ends, or starts again as another call. -/
inductive Out (V : Type) where
  | ends (r : Res (Ans V))
  | again (c : Call V)
  deriving DecidableEq, Repr

/-- The answer of a call from what its last part gives. -/
def Res.out {α : Type} (f : α → Ans V) : Res α → Out V
  | .ok a => .ends (.ok (f a))
  | .err => .ends .err
  | .panic => .ends .panic
  | .hang => .ends .hang

/-- A call works on the leaf it has found: `insert` (b_plus_tree_index.rs:431-490), `try_optimistic_insert` (1213-1254),
`try_optimistic_remove` (1304-1337), `remove` (617-658), `search` (560-577). The count is changed in the same step as the leaf. -/
def act (s : State V) : Call V → Found → State V × Out V
  | .insert k v, f =>
    match f.loc with
    | none => (insertEmpty s k v, .ends (.ok .done))
    | some (id, path) => ((insertAt s id path k v).1, (insertAt s id path k v).2.out fun _ => .done)
  | .insertLatched k v, f =>
    match f.loc with
    | none => (insertEmpty s k v, .ends (.ok .done))
    | some (id, _) =>
      if !f.safe then (s, .again (.insert k v))
      else
        match s.leaf id with
        | .ok l =>
          if !safeInsert s.order l then (s, .again (.insert k v))
          else
            match leafGet l.es k with
            | some _ => (s.set id (.leaf { l with es := leafPut l.es k v }), .ends (.ok .done))
            | none => ({ s.set id (.leaf { l with es := leafInsert s.order l.es k v }) with num := s.num + 1 }, .ends (.ok .done))
        | .err => (s, .ends .err)
        | .panic => (s, .ends .panic)
        | .hang => (s, .ends .hang)
  | .remove k, f =>
    match f.loc with
    | none => (s, .ends (.ok (.removed false)))
    | some (id, path) => ((removeAt s id path f.header k).1, (removeAt s id path f.header k).2.out .removed)
  | .removeLatched k, f =>
    match f.loc with
    | none => (s, .ends (.ok (.removed false)))
    | some (id, _) =>
      if !f.safe then (s, .again (.remove k))
      else
        match s.leaf id with
        | .ok l =>
          match leafGet l.es k with
          | none => (s, .ends (.ok (.removed false)))
          | some _ => ({ s.set id (.leaf { l with es := leafRemove (leafIdx l.es k) l.es }) with num := s.num - 1 }, .ends (.ok (.removed true)))
        | .err => (s, .ends .err)
        | .panic => (s, .ends .panic)
        | .hang => (s, .ends .hang)
  | .search k, f =>
    match f.loc with
    | none => (s, .ends (.ok (.value none)))
    | some (id, _) =>
      match s.leaf id with
      | .ok l => (s, .ends (.ok (.value (leafGet l.es k))))
      | .err => (s, .ends .err)
      | .panic => (s, .ends .panic)
      | .hang => (s, .ends .hang)

/-- A thread is out of the index, has made a call, or its call has found its leaf. -/
inductive Thread (V : Type) where
  | idle
  | called (c : Call V)
  | found (c : Call V) (f : Found)
  deriving DecidableEq, Repr

/-- The index and the threads. -/
structure Sys (V : Type) where
  tree : State V
  threads : Nat → Thread V

/-- A new index; all threads are out of it. -/
def Sys.new (order : Nat) : Sys V := ⟨State.new order, fun _ => .idle⟩

/-- A thread moves on. -/
def Sys.put (x : Sys V) (s : State V) (t : Nat) (th : Thread V) : Sys V := ⟨s, fun u => if u = t then th else x.threads u⟩

/-- An idle thread makes a call, or a thread does its next step. -/
inductive Ev (V : Type) where
  | call (t : Nat) (c : Call V)
  | go (t : Nat)
  deriving DecidableEq, Repr

/-- One event (b_plus_tree_index.rs:403-491, 548-659, 1170-1337), with the call that ended in it and its answer. -/
def Sys.step (x : Sys V) : Ev V → Sys V × Option (Call V × Res (Ans V))
  | .call t c =>
    match x.threads t with
    | .idle => (x.put x.tree t (.called c), none)
    | _ => (x, none)
  | .go t =>
    match x.threads t with
    | .idle => (x, none)
    | .called c =>
      match locate x.tree c.key with
      | .ok loc => (x.put x.tree t (.found c ⟨loc, isSafe x.tree c loc, x.tree.header⟩), none)
      | .err => (x.put x.tree t .idle, some (c, .err))
      | .panic => (x.put x.tree t .idle, some (c, .panic))
      | .hang => (x.put x.tree t .idle, some (c, .hang))
    | .found c f =>
      match act x.tree c f with
      | (s, .ends r) => (x.put s t .idle, some (c, r))
      | (s, .again c') => (x.put s t (.called c'), none)

/-- A schedule, with the calls that ended, in order. -/
def Sys.run (x : Sys V) : List (Ev V) → Sys V × List (Call V × Res (Ans V))
  | [] => (x, [])
  | e :: es => (((x.step e).1.run es).1, (x.step e).2.toList ++ ((x.step e).1.run es).2)

/-- No other thread is between finding its leaf and working on it. -/
def Sys.Alone (x : Sys V) (t : Nat) : Prop := ∀ u c f, u ≠ t → x.threads u ≠ .found c f

/-- The call works on one leaf only: it makes no first page, splits no page and does not take the last entry. -/
def OneLeaf (s : State V) : Call V → Option (Nat × List Nat) → Prop
  | .insert _ _, none => False
  | .insertLatched _ _, none => False
  | .insert k _, some (id, _) => ∀ l, s.leaf id = .ok l → leafGet l.es k ≠ none ∨ l.es.length < s.order
  | .remove k, some (id, _) => ∀ l, s.leaf id = .ok l → leafGet l.es k = none ∨ l.isRoot = false ∨ 1 < l.es.length
  | _, _ => True

end Verif.PTree
