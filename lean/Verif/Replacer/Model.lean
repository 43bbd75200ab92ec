import Verif.Base.AMap

/-!
# Model of `src/buffer/lru_k_replacer.rs`

The replacer is used behind a lock (`buffer_pool_manager_async.rs` keeps it in an
`Arc<RwLock<..>>`), so each method is one atomic step. The wall clock read by `record_access`
(lru_k_replacer.rs:168-173) is a parameter of that step: nothing is assumed about it, in
particular not that it is monotone.
-/

namespace Verif.Replacer

/-- `u64::MAX` / `usize::MAX`, the sentinels of lru_k_replacer.rs:190-191. -/
def u64Max : Nat := 2 ^ 64 - 1

/-- `struct FrameEntry` (lru_k_replacer.rs:132-139). `history` is oldest first. -/
structure Entry where
  accessCount : Nat
  history : List Nat
  evictable : Bool
  deriving Repr, DecidableEq

/-- `struct LRUKReplacer` (lru_k_replacer.rs:114-125). -/
structure Rep where
  size : Nat
  k : Nat
  currSize : Nat
  store : AMap Nat Entry
  deque : List Nat
  deriving Repr, DecidableEq

/-- `LRUKReplacer::new` (lru_k_replacer.rs:152-161). -/
def new (size k : Nat) : Rep := { size, k, currSize := 0, store := [], deque := [] }

/-- The three local variables of the scan in `evict` (lru_k_replacer.rs:189-191). -/
structure Acc where
  victim : Option Nat
  minK : Nat
  oldest : Nat
  deriving Repr, DecidableEq

/-- One iteration of the scan (lru_k_replacer.rs:193-231). -/
def scanStep (k : Nat) (store : AMap Nat Entry) (acc : Acc) (f : Nat) : Acc :=
  match store.get f with
  | none => acc
  | some e =>
    if !e.evictable then acc
    else
      let n := e.history.length
      if n < k then
        if acc.victim.isNone || n < acc.minK then
          { victim := some f, minK := n, oldest := e.history.head?.getD u64Max }
        else if n = acc.minK then
          let first := e.history.head?.getD u64Max
          if first < acc.oldest then { acc with oldest := first, victim := some f } else acc
        else acc
      else if acc.minK ≥ k then
        let kAccess := (e.history[n - k]?).getD u64Max
        if acc.victim.isNone || kAccess < acc.oldest then
          { victim := some f, minK := k, oldest := kAccess }
        else acc
      else acc

/-- The whole scan (lru_k_replacer.rs:189-231). -/
def scan (k : Nat) (store : AMap Nat Entry) (deque : List Nat) : Acc :=
  deque.foldl (scanStep k store) { victim := none, minK := u64Max, oldest := u64Max }

/-- `evict` (lru_k_replacer.rs:180-252). `none` is the arithmetic-underflow panic of
`self.curr_size -= 1` (line 244); it is shown not to occur. -/
def evict (r : Rep) : Option (Rep × Option Nat) :=
  if r.deque.isEmpty then some (r, none)
  else
    match (scan r.k r.store r.deque).victim with
    | none => some (r, none)
    | some f =>
      let r := { r with deque := r.deque.erase f }
      match r.store.get f with
      | none => some (r, none)
      | some e =>
        if r.currSize = 0 then none
        else some ({ r with store := r.store.set f { e with evictable := false },
                            currSize := r.currSize - 1 }, some f)

/-- `record_access` (lru_k_replacer.rs:260-281), at clock reading `now`. -/
def recordAccess (r : Rep) (f now : Nat) : Rep :=
  let e := (r.store.get f).getD { accessCount := 0, history := [], evictable := false }
  let h := e.history ++ [now]
  let h := if h.length > r.k then h.drop 1 else h
  { r with store := r.store.set f { e with accessCount := e.accessCount + 1, history := h } }

/-- `set_evictable` (lru_k_replacer.rs:293-314). `none` is the underflow panic of line 308. -/
def setEvictable (r : Rep) (f : Nat) (b : Bool) : Option (Rep × Bool) :=
  match r.store.get f with
  | none => some (r, false)
  | some e =>
    if e.evictable = b then some (r, false)
    else
      let r := { r with store := r.store.set f { e with evictable := b } }
      if b then some ({ r with currSize := r.currSize + 1, deque := r.deque ++ [f] }, true)
      else if f ∈ r.deque then
        if r.currSize = 0 then none
        else some ({ r with deque := r.deque.erase f, currSize := r.currSize - 1 }, true)
      else some (r, true)

/-- `remove` (lru_k_replacer.rs:321-333): drops the entry only if it is evictable; the queue of
evictable frames and `curr_size` are left as they are. -/
def remove (r : Rep) (f : Nat) : Rep :=
  match r.store.get f with
  | none => r
  | some e => if e.evictable then { r with store := r.store.erase f } else r

/-- `total_frames` (lru_k_replacer.rs:340-345). -/
def totalFrames (r : Rep) : Nat := r.store.length

/-- `total_evictable_frames` (lru_k_replacer.rs:373-378). -/
def totalEvictable (r : Rep) : Nat := (r.store.filter (fun p => p.2.evictable)).length

/-- The public calls. -/
inductive Op where
  | recordAccess (f now : Nat)
  | setEvictable (f : Nat) (b : Bool)
  | remove (f : Nat)
  | evict
  | totalFrames
  | totalEvictable
  deriving Repr, DecidableEq

/-- What a call returns. -/
inductive Out where
  | unit
  | bool (b : Bool)
  | frame (f : Option Nat)
  | count (n : Nat)
  deriving Repr, DecidableEq

/-- One call; `none` is a panic. -/
def step (r : Rep) : Op → Option (Rep × Out)
  | .recordAccess f now => some (recordAccess r f now, .unit)
  | .setEvictable f b => (setEvictable r f b).map fun p => (p.1, .bool p.2)
  | .remove f => some (remove r f, .unit)
  | .evict => (evict r).map fun p => (p.1, .frame p.2)
  | .totalFrames => some (r, .count (totalFrames r))
  | .totalEvictable => some (r, .count (totalEvictable r))

/-- A run of calls with their results; `none` if some call panics. -/
def run (r : Rep) : List Op → Option (Rep × List Out)
  | [] => some (r, [])
  | o :: os =>
    match step r o with
    | none => none
    | some (r', out) =>
      match run r' os with
      | none => none
      | some (r'', outs) => some (r'', out :: outs)

end Verif.Replacer
