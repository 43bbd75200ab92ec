/-!
# The paged B+ tree index (`src/storage/index/b_plus_tree_index.rs`, `src/storage/page/page_types/b_plus_tree_*_page.rs`): model

Keys are integers: `create_index` (b_plus_tree_index.rs:3419-3440) makes indexes of `i32` keys only. Pages are reached by
number through the buffer pool; the pool is taken to always have a free frame, so a page can always be made. Each call
runs to its end before the next one unless the steps are given one by one.
-/

namespace Verif.PTree

/-- `BPlusTreeLeafPage` (b_plus_tree_leaf_page.rs:70-98). The keys and the values are changed together: one list of pairs;
`size` is its length. `max_size` is the order of the tree. -/
structure Leaf (V : Type) where
  es : List (Int × V)
  next : Option Nat
  isRoot : Bool
  deriving DecidableEq, Repr

/-- `BPlusTreeInternalPage` (b_plus_tree_internal_page.rs:69-90). `size` is the number of keys, `max_size` the order. -/
structure Inner where
  keys : List Int
  vals : List Nat
  isRoot : Bool
  deriving DecidableEq, Repr

/-- A page. An evicted page comes back from disk by `T::new` (buffer_pool_manager_async.rs:703), which is `unimplemented!` for
both kinds of pages (b_plus_tree_leaf_page.rs:563-566, b_plus_tree_internal_page.rs:910-916). -/
inductive Page (V : Type) where
  | leaf (l : Leaf V)
  | inner (n : Inner)
  | evicted
  deriving DecidableEq, Repr

/-- The pages and the header page (b_plus_tree_header_page.rs:51-69); `root = none` is `INVALID_PAGE_ID`; `next` is the number of
the next page the pool gives out. -/
structure State (V : Type) where
  pages : Nat → Option (Page V)
  next : Nat
  root : Option Nat
  height : Nat
  num : Nat
  order : Nat

/-- What a call gives: a result, an error, a panic, or it never returns. -/
inductive Res (α : Type) where
  | ok (a : α)
  | err
  | panic
  | hang
  deriving DecidableEq, Repr

variable {V : Type}

/-- `new`, `init_with_order` (b_plus_tree_index.rs:319-361). -/
def State.new (order : Nat) : State V := { pages := fun _ => none, next := 1, root := none, height := 0, num := 0, order }

/-- A page is written in place. -/
def State.set (s : State V) (id : Nat) (p : Page V) : State V :=
  { s with pages := fun i => if i = id then some p else s.pages i }

/-- `delete_page` (buffer_pool_manager_async.rs:869-904); a deleted page is not found any more. -/
def State.del (s : State V) (id : Nat) : State V :=
  { s with pages := fun i => if i = id then none else s.pages i }

/-- `new_page_with_options` (buffer_pool_manager_async.rs:454-488). -/
def State.alloc (s : State V) (p : Page V) : State V := { s.set s.next p with next := s.next + 1 }

/-- `fetch_page::<BPlusTreeLeafPage>` (buffer_pool_manager_async.rs:539-596). -/
def State.leaf (s : State V) (id : Nat) : Res (Leaf V) :=
  match s.pages id with
  | some (.leaf l) => .ok l
  | some .evicted => .panic
  | _ => .err

/-- `fetch_page::<BPlusTreeInternalPage>`. -/
def State.inner (s : State V) (id : Nat) : Res Inner :=
  match s.pages id with
  | some (.inner n) => .ok n
  | some .evicted => .panic
  | _ => .err

/-- The loop of the leaf's `find_key_index` (b_plus_tree_leaf_page.rs:198-217); the first number bounds the rounds. -/
def bsearch (ks : List Int) (key : Int) : Nat → Nat → Nat → Nat
  | 0, low, _ => low
  | n + 1, low, high =>
    if low < high then
      let mid := low + (high - low) / 2
      match ks[mid]? with
      | none => low
      | some x => if key = x then mid else if key < x then bsearch ks key n low mid else bsearch ks key n (mid + 1) high
    else low

/-- `find_key_index` of a leaf. -/
def leafIdx (es : List (Int × V)) (key : Int) : Nat := bsearch (es.map (·.1)) key es.length 0 es.length

/-- The test that the key is at its index, and `get_value_at` (b_plus_tree_index.rs:562-577). -/
def leafGet (es : List (Int × V)) (key : Int) : Option V :=
  match es[leafIdx es key]? with
  | some (x, v) => if key = x then some v else none
  | none => none

/-- The body of `insert_key_value` and all of `insert_key_value_with_overflow` (b_plus_tree_leaf_page.rs:224-238, 242-258). -/
def leafPut (es : List (Int × V)) (key : Int) (v : V) : List (Int × V) :=
  let i := leafIdx es key
  match es[i]? with
  | some (x, _) => if key = x then es.set i (x, v) else es.insertIdx i (key, v)
  | none => es.insertIdx i (key, v)

/-- `insert_key_value` (b_plus_tree_leaf_page.rs:219-239); callers ignore the answer. -/
def leafInsert (max : Nat) (es : List (Int × V)) (key : Int) (v : V) : List (Int × V) :=
  if es.length ≥ max then es else leafPut es key v

/-- A loop that inserts pairs one by one. -/
def leafInsertAll (max : Nat) (es : List (Int × V)) (xs : List (Int × V)) : List (Int × V) :=
  xs.foldl (fun es e => leafInsert max es e.1 e.2) es

/-- A loop that runs `f` a number of times. -/
def times {α : Type} : Nat → (α → α) → α → α
  | 0, _, a => a
  | n + 1, f, a => times n f (f a)

/-- `remove_key_value_at` of a leaf (b_plus_tree_leaf_page.rs:260-271). -/
def leafRemove (i : Nat) (es : List (Int × V)) : List (Int × V) := es.eraseIdx i

/-- The loop of the internal page's `find_key_index` (b_plus_tree_internal_page.rs:275-323); `right` is inclusive. -/
def isearch (ks : List Int) (key : Int) : Nat → Nat → Nat → Nat
  | 0, left, _ => left
  | n + 1, left, right =>
    if left ≤ right then
      let mid := left + (right - left) / 2
      match ks[mid]? with
      | none => left
      | some x =>
        if key < x then (if mid = 0 then 0 else isearch ks key n left (mid - 1))
        else if key = x then mid
        else isearch ks key n (mid + 1) right
    else left

/-- `find_key_index` of an internal page. -/
def innerIdx (ks : List Int) (key : Int) : Nat := if ks = [] then 0 else isearch ks key (ks.length + 1) 0 (ks.length - 1)

/-- `insert_key_value` of an internal page (b_plus_tree_internal_page.rs:153-230); callers ignore the answer. -/
def Inner.insert (max : Nat) (n : Inner) (key : Int) (c : Nat) : Inner :=
  if n.keys.length ≥ max then n
  else if n.keys = [] then { n with keys := [key], vals := n.vals ++ [c, c] }
  else
    let i := innerIdx n.keys key
    if n.keys[i]? = some key then (if i + 1 < n.vals.length then { n with vals := n.vals.set (i + 1) c } else n)
    else { n with keys := n.keys.insertIdx i key, vals := if i + 1 ≤ n.vals.length then n.vals.insertIdx (i + 1) c else n.vals ++ [c] }

/-- A loop that inserts pairs one by one. -/
def Inner.insertAll (max : Nat) (n : Inner) (xs : List (Int × Nat)) : Inner := xs.foldl (fun n e => n.insert max e.1 e.2) n

/-- `remove_key_value_at` of an internal page (b_plus_tree_internal_page.rs:385-444). -/
def Inner.removeAt (i : Nat) (n : Inner) : Inner :=
  if i ≥ n.keys.length then n
  else if n.keys.length = 1 then { n with keys := [], vals := if n.isRoot then n.vals.take 1 else [] }
  else { n with keys := n.keys.eraseIdx i, vals := if i + 1 < n.vals.length then n.vals.eraseIdx (i + 1) else n.vals }

/-- The loop over neighbouring keys in `find_child_for_key` (b_plus_tree_internal_page.rs:360-371): the first position `i` with
`keys[i] <= key < keys[i+1]`. -/
def between (key : Int) : List Int → Option Nat
  | a :: b :: ks => if ¬ key < a ∧ key < b then some 0 else (between key (b :: ks)).map (· + 1)
  | _ => none

/-- `find_child_for_key` (b_plus_tree_internal_page.rs:326-379). -/
def Inner.findChild (n : Inner) (key : Int) : Option Nat :=
  match n.keys with
  | [] => none
  | k :: ks =>
    if key < k then n.vals[0]?
    else if ks = [] then (if n.vals.length > 1 then n.vals[1]? else n.vals[0]?)
    else
      match between key n.keys with
      | some i => if i + 1 < n.vals.length then n.vals[i + 1]? else n.vals.getLast?
      | none => n.vals.getLast?

/-- The loop of `find_leaf_page_with_path` (b_plus_tree_index.rs:784-808): `n` more levels; the path has the nearest page first. -/
def descend (s : State V) (key : Int) : Nat → Nat → List Nat → Res (Nat × List Nat)
  | 0, id, path =>
    match s.leaf id with
    | .ok _ => .ok (id, path)
    | .err => .err
    | .panic => .panic
    | .hang => .hang
  | n + 1, id, path =>
    match s.inner id with
    | .ok p =>
      match p.findChild key with
      | some c => descend s key n c (id :: path)
      | none => .err
    | .err => .err
    | .panic => .panic
    | .hang => .hang

/-- `find_leaf_page_with_path` (b_plus_tree_index.rs:743-817); `none` is `KeyNotFound`. -/
def locate (s : State V) (key : Int) : Res (Option (Nat × List Nat)) :=
  match s.root with
  | none => .ok none
  | some r =>
    match descend s key (s.height - 1) r [] with
    | .ok x => .ok (some x)
    | .err => .err
    | .panic => .panic
    | .hang => .hang

/-- `search` (b_plus_tree_index.rs:548-578). -/
def search (s : State V) (key : Int) : Res (Option V) :=
  match locate s key with
  | .ok none => .ok none
  | .ok (some (id, _)) =>
    match s.leaf id with
    | .ok l => .ok (leafGet l.es key)
    | .err => .err
    | .panic => .panic
    | .hang => .hang
  | .err => .err
  | .panic => .panic
  | .hang => .hang

/-- One leaf of `range_scan` (b_plus_tree_index.rs:688-706): the pairs, and whether the scan is over. -/
def takeTo (hi : Int) : List (Int × V) → List (Int × V) × Bool
  | [] => ([], false)
  | e :: es => if hi < e.1 then ([], true) else (e :: (takeTo hi es).1, (takeTo hi es).2)

/-- The loop of `range_scan` (b_plus_tree_index.rs:683-723). A scan that visits more leaves than there are pages goes round for ever. -/
def scanFrom (s : State V) (lo hi : Int) : Nat → Nat → Res (List (Int × V))
  | 0, _ => .hang
  | n + 1, id =>
    match s.leaf id with
    | .ok l =>
      let r := takeTo hi (l.es.drop (leafIdx l.es lo))
      if r.2 then .ok r.1
      else
        match l.next with
        | none => .ok r.1
        | some id' =>
          match scanFrom s lo hi n id' with
          | .ok x => .ok (r.1 ++ x)
          | .err => .err
          | .panic => .panic
          | .hang => .hang
    | .err => .err
    | .panic => .panic
    | .hang => .hang

/-- `range_scan` (b_plus_tree_index.rs:662-726). -/
def rangeScan (s : State V) (lo hi : Int) : Res (List (Int × V)) :=
  if hi < lo then .ok []
  else
    match locate s lo with
    | .ok none => .ok []
    | .ok (some (id, _)) => scanFrom s lo hi (s.next + 1) id
    | .err => .err
    | .panic => .panic
    | .hang => .hang

/-- `create_new_root` (b_plus_tree_index.rs:2200-2252). -/
def createRoot (s : State V) (l : Nat) (key : Int) (r : Nat) : State V :=
  { s.alloc (.inner ⟨[key], [l, r], true⟩) with root := some s.next, height := s.height + 1 }

/-- The first part of `split_internal_page` (b_plus_tree_index.rs:1484-1569): the key and the page that go to the parent, none when
the page was the root. -/
def halveInner (s : State V) (id : Nat) : State V × Res (Option (Int × Nat)) :=
  match s.inner id with
  | .ok n =>
    if s.order = 0 then (s, .err)
    else
      let new := s.next
      let sp := s.order / 2
      match n.keys[sp]?, n.vals[sp + 1]? with
      | some mid, some c =>
        let pairs := (n.keys.drop (sp + 1)).zip (n.vals.drop (sp + 2))
        let right := ((⟨[], [], false⟩ : Inner).insert s.order mid c).insertAll s.order pairs
        let left := times (n.keys.length - sp) (Inner.removeAt sp) n
        let s := (s.alloc (.inner right)).set id (.inner left)
        if n.isRoot then (createRoot (s.set id (.inner { left with isRoot := false })) id mid new, .ok none)
        else (s, .ok (some (mid, new)))
      | _, _ => (s.alloc (.inner ⟨[], [], false⟩), .err)
  | .err => (s, .err)
  | .panic => (s, .panic)
  | .hang => (s, .hang)

/-- The parent gets the key and the new page, and is split when it is full (b_plus_tree_index.rs:1445-1467, 1572-1594, and
`split_internal_page` itself). -/
def raise (s : State V) (key : Int) (new : Nat) : List Nat → State V × Res Unit
  | [] => (s, .err)
  | p :: rest =>
    match s.inner p with
    | .ok m =>
      let m := m.insert s.order key new
      let s := s.set p (.inner m)
      if m.keys.length ≥ s.order then
        match halveInner s p with
        | (s, .ok (some (k, c))) => raise s k c rest
        | (s, .ok none) => (s, .ok ())
        | (s, .err) => (s, .err)
        | (s, .panic) => (s, .panic)
        | (s, .hang) => (s, .hang)
      else (s, .ok ())
    | .err => (s, .err)
    | .panic => (s, .panic)
    | .hang => (s, .hang)

/-- `split_leaf_page` (b_plus_tree_index.rs:1363-1471). -/
def splitLeaf (s : State V) (id : Nat) (path : List Nat) : State V × Res Unit :=
  match s.leaf id with
  | .ok l =>
    if s.order = 0 then (s, .err)
    else
      let new := s.next
      let sp := (s.order + 1) / 2
      let right := leafInsertAll s.order [] (l.es.drop sp)
      match right.head? with
      | none => ((s.alloc (.leaf ⟨right, l.next, false⟩)).set id (.leaf { l with next := some new }), .err)
      | some (sep, _) =>
        let left := times (l.es.length - sp) (leafRemove sp) l.es
        let s := (s.alloc (.leaf ⟨right, l.next, false⟩)).set id (.leaf { l with es := left, next := some new })
        if l.isRoot then
          ((createRoot s id sep new).set id (.leaf { l with es := left, next := some new, isRoot := false }), .ok ())
        else raise s sep new path
  | .err => (s, .err)
  | .panic => (s, .panic)
  | .hang => (s, .hang)

/-- `insert` behind `find_leaf_page_with_path` (b_plus_tree_index.rs:431-490). -/
def insertAt (s : State V) (id : Nat) (path : List Nat) (key : Int) (v : V) : State V × Res Unit :=
  match s.leaf id with
  | .ok l =>
    match leafGet l.es key with
    | some _ => (s.set id (.leaf { l with es := leafPut l.es key v }), .ok ())
    | none =>
      if l.es.length < s.order then
        ({ s.set id (.leaf { l with es := leafInsert s.order l.es key v }) with num := s.num + 1 }, .ok ())
      else
        match splitLeaf (s.set id (.leaf { l with es := leafPut l.es key v })) id path with
        | (s, .ok ()) => ({ s with num := s.num + 1 }, .ok ())
        | r => r
  | .err => (s, .err)
  | .panic => (s, .panic)
  | .hang => (s, .hang)

/-- `insert_into_empty_tree` (b_plus_tree_index.rs:494-530). -/
def insertEmpty (s : State V) (key : Int) (v : V) : State V :=
  { s.alloc (.leaf ⟨leafInsert s.order [] key v, none, true⟩) with root := some s.next, height := 1, num := 1 }

/-- `insert` (b_plus_tree_index.rs:403-491). -/
def insert (s : State V) (key : Int) (v : V) : State V × Res Unit :=
  match locate s key with
  | .ok none => (insertEmpty s key v, .ok ())
  | .ok (some (id, path)) => insertAt s id path key v
  | .err => (s, .err)
  | .panic => (s, .panic)
  | .hang => (s, .hang)

/-- `find_sibling` with `prefer_left` (b_plus_tree_index.rs:2357-2398): the index of the separator and the sibling. -/
def findSibling (n : Inner) (i : Nat) : Option (Nat × Nat) :=
  match (if i > 0 then n.vals[i - 1]? else none) with
  | some c => some (i - 1, c)
  | none =>
    match (if i < n.keys.length then n.vals[i + 1]? else none) with
    | some c => some (i, c)
    | none => none

/-- `merge_leaf_pages` (b_plus_tree_index.rs:1604-1739) up to the last step: the result says whether the parent has to be
rebalanced. Writing to a page twice at the same time never returns (lines 1618-1619). -/
def mergeLeaf (s : State V) (l r p i : Nat) : State V × Res Bool :=
  if l = r then (s, .hang)
  else
    match s.leaf l, s.leaf r, s.inner p with
    | .ok a, .ok b, .ok n =>
      if n.vals[i]? ≠ some l ∨ n.vals[i + 1]? ≠ some r then (s, .err)
      else if a.es.length + b.es.length > s.order then (s, .err)
      else if i ≥ n.keys.length then (s, .err)
      else
        let a := { a with es := leafInsertAll s.order a.es b.es, next := b.next }
        let n := n.removeAt i
        let s := (s.set l (.leaf a)).set p (.inner n)
        if n.isRoot ∧ n.keys.length = 0 then
          (({ s.set l (.leaf { a with isRoot := true }) with root := some l, height := s.height - 1 }.del p).del r, .ok false)
        else (s.del r, .ok (!n.isRoot && decide (n.keys.length < s.order / 2)))
    | .panic, _, _ => (s, .panic)
    | _, .panic, _ => (s, .panic)
    | _, _, .panic => (s, .panic)
    | _, _, _ => (s, .err)

/-- `redistribute_leaf_pages` (b_plus_tree_index.rs:1742-1878). -/
def redistLeaf (s : State V) (l r p i : Nat) : State V × Res Unit :=
  if l = r then (s, .hang)
  else
    match s.leaf l, s.leaf r, s.inner p with
    | .ok a, .ok b, .ok n =>
      if n.vals[i]? ≠ some l ∨ n.vals[i + 1]? ≠ some r then (s, .err)
      else
        let total := a.es.length + b.es.length
        if total < s.order / 2 * 2 then (s, .err)
        else
          let target := total / 2
          let (xs, ys) :=
            if a.es.length < b.es.length then
              let m := b.es.length - target
              (leafInsertAll s.order a.es (b.es.take m), times m (leafRemove 0) b.es)
            else
              let m := a.es.length - target
              let start := a.es.length - m
              (times m (leafRemove start) a.es,
                leafInsertAll s.order (leafInsertAll s.order (times b.es.length (leafRemove 0) b.es) (a.es.drop start)) b.es)
          let s := (s.set l (.leaf { a with es := xs })).set r (.leaf { b with es := ys })
          match ys.head? with
          | none => (s, .err)
          | some (sep, _) =>
            if i < n.keys.length then (s.set p (.inner ((n.removeAt i).insert s.order sep r)), .ok ()) else (s, .ok ())
    | .panic, _, _ => (s, .panic)
    | _, .panic, _ => (s, .panic)
    | _, _, .panic => (s, .panic)
    | _, _, _ => (s, .err)

/-- `merge_internal_pages` (b_plus_tree_index.rs:1884-2018), as `mergeLeaf`. -/
def mergeInner (s : State V) (l r p i : Nat) : State V × Res Bool :=
  if l = r then (s, .hang)
  else
    match s.inner l, s.inner r, s.inner p with
    | .ok a, .ok b, .ok n =>
      if n.vals[i]? ≠ some l ∨ n.vals[i + 1]? ≠ some r then (s, .err)
      else
        match n.keys[i]?, b.vals[0]? with
        | some sep, some c =>
          if a.keys.length + b.keys.length + 1 > s.order then (s, .err)
          else
            let a := (a.insert s.order sep c).insertAll s.order (b.keys.zip (b.vals.drop 1))
            let n := n.removeAt i
            let s := (s.set l (.inner a)).set p (.inner n)
            if n.isRoot ∧ n.keys.length = 0 then
              (({ s.set l (.inner { a with isRoot := true }) with root := some l, height := s.height - 1 }.del p).del r, .ok false)
            else (s.del r, .ok (!n.isRoot && decide (n.keys.length < s.order / 2)))
        | _, _ => (s, .err)
    | .panic, _, _ => (s, .panic)
    | _, .panic, _ => (s, .panic)
    | _, _, .panic => (s, .panic)
    | _, _, _ => (s, .err)

/-- `redistribute_internal_pages` (b_plus_tree_index.rs:2021-2197). A subtraction below zero panics. -/
def redistInner (s : State V) (l r p i : Nat) : State V × Res Unit :=
  if l = r then (s, .hang)
  else
    match s.inner l, s.inner r, s.inner p with
    | .ok a, .ok b, .ok n =>
      if n.vals[i]? ≠ some l ∨ n.vals[i + 1]? ≠ some r then (s, .err)
      else
        match n.keys[i]?, b.vals[0]? with
        | some sep, some c =>
          let total := a.keys.length + b.keys.length + 1
          if total < s.order / 2 * 2 then (s, .err)
          else
            let target := total / 2
            if a.keys.length < b.keys.length then
              if target < a.keys.length + 1 then (s.set l (.inner (a.insert s.order sep c)), .panic)
              else
                let m := target - a.keys.length - 1
                let a := (a.insert s.order sep c).insertAll s.order ((b.keys.take m).zip (b.vals.drop 1))
                match b.keys[m]? with
                | none => (s.set l (.inner a), .err)
                | some k =>
                  let n := (n.removeAt i).insert s.order k r
                  let s := (s.set l (.inner a)).set p (.inner n)
                  if b.vals[m + 1]? = none then (s, .err)
                  else (s.set r (.inner (times (m + 1) (Inner.removeAt 0) b)), .ok ())
            else
              match a.keys[a.keys.length - 1]?, a.vals[a.keys.length]? with
              | some k, some d =>
                if a.keys.length < target then (s, .panic)
                else
                  let m := a.keys.length - target
                  let start := a.keys.length - m
                  let moved := ((a.keys.drop start).take (m - 1)).zip (a.vals.drop (start + 1))
                  let b' := times b.keys.length (Inner.removeAt 0) b
                  let b' := ((b'.insert s.order sep d).insertAll s.order moved).insertAll s.order (b.keys.zip (b.vals.drop 1))
                  let n := (n.removeAt i).insert s.order k r
                  let a := (List.range m).foldl (fun x j => x.removeAt (a.keys.length - 1 - j)) a
                  (((s.set r (.inner b')).set p (.inner n)).set l (.inner a), .ok ())
              | _, _ => (s, .err)
        | _, _ => (s, .err)
    | .panic, _, _ => (s, .panic)
    | _, .panic, _ => (s, .panic)
    | _, _, .panic => (s, .panic)
    | _, _, _ => (s, .err)

/-- The number of keys of a page, fetched as a leaf or as an internal page. -/
def pageSize (s : State V) (id : Nat) (isLeaf : Bool) : Res Nat :=
  if isLeaf then
    match s.leaf id with
    | .ok l => .ok l.es.length
    | .err => .err
    | .panic => .panic
    | .hang => .hang
  else
    match s.inner id with
    | .ok n => .ok n.keys.length
    | .err => .err
    | .panic => .panic
    | .hang => .hang

/-- An internal root page in `check_and_handle_underflow` (b_plus_tree_index.rs:2434-2522). -/
def shrinkRoot (s : State V) (id : Nat) : State V × Res Unit :=
  match s.inner id with
  | .ok n =>
    if n.keys.length = 0 then
      match n.vals[0]? with
      | some c =>
        match s.inner c with
        | .ok m => ({ s.set c (.inner { m with isRoot := true }) with root := some c, height := s.height - 1 }.del id, .ok ())
        | .err => (s, .err)
        | .panic => (s, .panic)
        | .hang => (s, .hang)
      | none => (s, .err)
    else (s, .ok ())
  | .err => (s, .err)
  | .panic => (s, .panic)
  | .hang => (s, .hang)

/-- `check_and_handle_underflow` (b_plus_tree_index.rs:2406-2738); the answer is not used. -/
def underflow (s : State V) (id : Nat) (isLeaf : Bool) : List Nat → State V × Res Unit
  | [] => if isLeaf then (s, .ok ()) else shrinkRoot s id
  | p :: rest =>
    if s.root = some id then (if isLeaf then (s, .ok ()) else shrinkRoot s id)
    else
      match pageSize s id isLeaf with
      | .ok size =>
        if size ≥ s.order / 2 then (s, .ok ())
        else
          match s.inner p with
          | .ok n =>
            match (List.range (n.keys.length + 1)).find? (fun i => n.vals[i]? = some id) with
            | none => (s, .err)
            | some ci =>
              match findSibling n ci with
              | none => (s, .err)
              | some (si, sib) =>
                match pageSize s sib isLeaf with
                | .ok size' =>
                  let l := if si < ci then sib else id
                  let r := if si < ci then id else sib
                  if isLeaf then
                    if size + size' ≤ s.order then
                      match mergeLeaf s l r p si with
                      | (s, .ok true) => underflow s p false rest
                      | (s, .ok false) => (s, .ok ())
                      | (s, .err) => (s, .err)
                      | (s, .panic) => (s, .panic)
                      | (s, .hang) => (s, .hang)
                    else redistLeaf s l r p si
                  else
                    if size + size' + 1 ≤ s.order then
                      match mergeInner s l r p si with
                      | (s, .ok true) => underflow s p false rest
                      | (s, .ok false) => (s, .ok ())
                      | (s, .err) => (s, .err)
                      | (s, .panic) => (s, .panic)
                      | (s, .hang) => (s, .hang)
                    else redistInner s l r p si
                | .err => (s, .err)
                | .panic => (s, .panic)
                | .hang => (s, .hang)
          | .err => (s, .err)
          | .panic => (s, .panic)
          | .hang => (s, .hang)
      | .err => (s, .err)
      | .panic => (s, .panic)
      | .hang => (s, .hang)

/-- `remove` (b_plus_tree_index.rs:581-659). -/
def remove (s : State V) (key : Int) : State V × Res Bool :=
  match locate s key with
  | .ok none => (s, .ok false)
  | .ok (some (id, path)) =>
    match s.leaf id with
    | .ok l =>
      match leafGet l.es key with
      | none => (s, .ok false)
      | some _ =>
        let l := { l with es := leafRemove (leafIdx l.es key) l.es }
        let s := { s.set id (.leaf l) with num := s.num - 1 }
        if l.isRoot ∧ l.es.length = 0 then ({ s with root := none, height := 0, num := 0 }, .ok true)
        else if !l.isRoot ∧ l.es.length < s.order / 2 then
          match underflow s id true path with
          | (s, .ok ()) => (s, .ok true)
          | (s, .err) => (s, .err)
          | (s, .panic) => (s, .panic)
          | (s, .hang) => (s, .hang)
        else (s, .ok true)
    | .err => (s, .err)
    | .panic => (s, .panic)
    | .hang => (s, .hang)
  | .err => (s, .err)
  | .panic => (s, .panic)
  | .hang => (s, .hang)

/-- `is_safe_for` of a leaf (latch_crabbing.rs:632-648). -/
def safeInsert (order : Nat) (l : Leaf V) : Bool := decide (l.es.length < order - 1)

/-- The same for a removal; `get_min_size` is half the order, rounded up (b_plus_tree_leaf_page.rs:281-284). -/
def safeRemove (order : Nat) (l : Leaf V) : Bool := l.isRoot || decide (l.es.length > (order + 1) / 2)

/-- `insert_with_latch_crabbing` (b_plus_tree_index.rs:1170-1254). The traversal `traverse_optimistic` (859-966) goes to the same leaf
as `find_leaf_page_with_path`. -/
def insertC (s : State V) (key : Int) (v : V) : State V × Res Unit :=
  match locate s key with
  | .ok none => (insertEmpty s key v, .ok ())
  | .ok (some (id, _)) =>
    match s.leaf id with
    | .ok l =>
      if !safeInsert s.order l then insert s key v
      else
        match leafGet l.es key with
        | some _ => (s.set id (.leaf { l with es := leafPut l.es key v }), .ok ())
        | none => ({ s.set id (.leaf { l with es := leafInsert s.order l.es key v }) with num := s.num + 1 }, .ok ())
    | .err => (s, .err)
    | .panic => (s, .panic)
    | .hang => (s, .hang)
  | .err => (s, .err)
  | .panic => (s, .panic)
  | .hang => (s, .hang)

/-- `remove_with_latch_crabbing` (b_plus_tree_index.rs:1264-1352). -/
def removeC (s : State V) (key : Int) : State V × Res Bool :=
  match locate s key with
  | .ok none => (s, .ok false)
  | .ok (some (id, _)) =>
    match s.leaf id with
    | .ok l =>
      if !safeRemove s.order l then remove s key
      else
        match leafGet l.es key with
        | none => (s, .ok false)
        | some _ => ({ s.set id (.leaf { l with es := leafRemove (leafIdx l.es key) l.es }) with num := s.num - 1 }, .ok true)
    | .err => (s, .err)
    | .panic => (s, .panic)
    | .hang => (s, .hang)
  | .err => (s, .err)
  | .panic => (s, .panic)
  | .hang => (s, .hang)

/-- The pool evicts a page of the tree. -/
def evict (s : State V) (id : Nat) : State V :=
  match s.pages id with
  | some _ => s.set id .evicted
  | none => s

/-- The pool evicts the header page. `set_data` does not read the fields back (b_plus_tree_header_page.rs:244-254), so they are those of a
new page. -/
def evictHeader (s : State V) : State V := { s with root := none, height := 0, num := 0, order := 0 }

end Verif.PTree
