/-!
# Block and bucket pages of a hash table

`storage/page/page_types/hash_table_block_page.rs` and `hash_table_bucket_page.rs`: a page with a fixed number of slots, each with a key and a
value, and two bitmaps that say which slots were ever used and which hold a pair. The two files have the same bodies. A page is shared between
threads: the bitmaps are `AtomicU8`s, the array of pairs is behind a `Mutex`. A call is a program whose steps are the atomic operations on the
bitmaps and the accesses to the array under its lock; the steps of different threads interleave.

Simplified: all atomic operations are `SeqCst`, so one order of all steps explains what every thread sees; taking the lock, touching one slot and
giving the lock back is one step, as nothing else happens while the lock is held. Slot numbers are natural numbers: a `u32` on both sides of
every cast. `print_bucket` is left out.
-/

namespace Verif.HashPage

/-- `block_array_size` and `bucket_array_size` for pairs of `size` bytes, hash_table_page_defs.rs:69-71 and 84-86, with `DB_PAGE_SIZE` = 4096
(config.rs:18). -/
def arraySize (size : Nat) : Nat := (4 * 4096) / (4 * size + 1)

/-- `HashTableBlockPage`, hash_table_block_page.rs:73-78. `poisoned`: a thread has panicked while it held the lock of the array, so that every later
`lock().unwrap()` panics. -/
structure Page (K V : Type) where
  occupied : List Nat
  readable : List Nat
  array : List (K × V)
  poisoned : Bool
  deriving Repr, DecidableEq

variable {K V α β : Type}

/-- `new`, hash_table_block_page.rs:99-111, for `n` slots. No slot at all makes `array_size - 1` underflow: a panic (in a release build, an
allocation that is too large). -/
def Page.new (dk : K) (dv : V) (n : Nat) : Option (Page K V) :=
  if n = 0 then none
  else some ⟨List.replicate ((n - 1) / 8 + 1) 0, List.replicate ((n - 1) / 8 + 1) 0, List.replicate n (dk, dv), false⟩

/-- What a thread still has to do in a call. -/
inductive Prog (K V α : Type) where
  | ret (a : α)
  | panic
  | isOccupied (i : Nat) (k : Bool → Prog K V α)
  | isReadable (i : Nat) (k : Bool → Prog K V α)
  | setOccupied (i : Nat) (k : Prog K V α)
  | setReadable (i : Nat) (k : Prog K V α)
  | clearReadable (i : Nat) (k : Prog K V α)
  | pairAt (i : Nat) (k : K × V → Prog K V α)
  | write (i : Nat) (p : K × V) (k : Prog K V α)

/-- One program after another. -/
def Prog.bind : Prog K V α → (α → Prog K V β) → Prog K V β
  | .ret a, f => f a
  | .panic, _ => .panic
  | .isOccupied i k, f => .isOccupied i fun b => (k b).bind f
  | .isReadable i k, f => .isReadable i fun b => (k b).bind f
  | .setOccupied i k, f => .setOccupied i (k.bind f)
  | .setReadable i k, f => .setReadable i (k.bind f)
  | .clearReadable i k, f => .clearReadable i (k.bind f)
  | .pairAt i k, f => .pairAt i fun p => (k p).bind f
  | .write i p k, f => .write i p (k.bind f)

/-- A bit of a bitmap: `load(..) & (1 << (i % 8)) != 0`, hash_table_block_page.rs:187-190 and 201-204; `none` if the byte does not exist. -/
def bitAt (bytes : List Nat) (i : Nat) : Option Bool := bytes[i / 8]?.map fun b => decide (b &&& (1 <<< (i % 8)) ≠ 0)

/-- `fetch_or(1 << (i % 8))`, hash_table_block_page.rs:332-335 and 342-345. -/
def setBit (bytes : List Nat) (i : Nat) : Option (List Nat) :=
  bytes[i / 8]?.map fun b => bytes.set (i / 8) (b ||| (1 <<< (i % 8)))

/-- `fetch_and(!(1 << (i % 8)))` on a `u8`, hash_table_block_page.rs:173-176. -/
def clearBit (bytes : List Nat) (i : Nat) : Option (List Nat) :=
  bytes[i / 8]?.map fun b => bytes.set (i / 8) (b &&& (255 ^^^ (1 <<< (i % 8))))

/-- One step of a thread. An index out of range panics; in the array it does so while the lock is held (hash_table_block_page.rs:123, 136, 159), which
poisons it. -/
def step (g : Page K V) : Prog K V α → Page K V × Prog K V α
  | .ret a => (g, .ret a)
  | .panic => (g, .panic)
  | .isOccupied i k => match bitAt g.occupied i with
    | some b => (g, k b)
    | none => (g, .panic)
  | .isReadable i k => match bitAt g.readable i with
    | some b => (g, k b)
    | none => (g, .panic)
  | .setOccupied i k => match setBit g.occupied i with
    | some bs => ({ g with occupied := bs }, k)
    | none => (g, .panic)
  | .setReadable i k => match setBit g.readable i with
    | some bs => ({ g with readable := bs }, k)
    | none => (g, .panic)
  | .clearReadable i k => match clearBit g.readable i with
    | some bs => ({ g with readable := bs }, k)
    | none => (g, .panic)
  | .pairAt i k => if g.poisoned then (g, .panic) else match g.array[i]? with
    | some p => (g, k p)
    | none => ({ g with poisoned := true }, .panic)
  | .write i p k => if g.poisoned then (g, .panic) else if i < g.array.length then ({ g with array := g.array.set i p }, k)
    else ({ g with poisoned := true }, .panic)

/-- A call that runs alone from beginning to end; `none` is a panic. -/
def run : Page K V → Prog K V α → Page K V × Option α
  | g, .ret a => (g, some a)
  | g, .panic => (g, none)
  | g, .isOccupied i k => match bitAt g.occupied i with
    | some b => run g (k b)
    | none => (g, none)
  | g, .isReadable i k => match bitAt g.readable i with
    | some b => run g (k b)
    | none => (g, none)
  | g, .setOccupied i k => match setBit g.occupied i with
    | some bs => run { g with occupied := bs } k
    | none => (g, none)
  | g, .setReadable i k => match setBit g.readable i with
    | some bs => run { g with readable := bs } k
    | none => (g, none)
  | g, .clearReadable i k => match clearBit g.readable i with
    | some bs => run { g with readable := bs } k
    | none => (g, none)
  | g, .pairAt i k => if g.poisoned then (g, none) else match g.array[i]? with
    | some p => run g (k p)
    | none => ({ g with poisoned := true }, none)
  | g, .write i p k => if g.poisoned then (g, none) else if i < g.array.length then run { g with array := g.array.set i p } k
    else ({ g with poisoned := true }, none)

/-- `insert_at`, hash_table_block_page.rs:152-166. -/
def insertAt (i : Nat) (key : K) (value : V) : Prog K V Bool :=
  .isOccupied i fun b => if b then .ret false else .write i (key, value) <| .setOccupied i <| .setReadable i <| .ret true

/-- The loop of `num_readable`, hash_table_block_page.rs:287-295: slots `i`, ... of `todo` slots left. -/
def numReadableFrom : Nat → Nat → Nat → Prog K V Nat
  | 0, _, count => .ret count
  | todo + 1, i, count => .isReadable i fun b => numReadableFrom todo (i + 1) (if b then count + 1 else count)

/-- `num_readable`, hash_table_block_page.rs:287-295. -/
def numReadable (n : Nat) : Prog K V Nat := numReadableFrom n 0 0

/-- The loop of `get_value`, hash_table_block_page.rs:217-226; `acc` is `result`. The key and the value are read under the lock, but not under the same. -/
def getValueFrom (cmp : K → K → Bool) (key : K) : Nat → Nat → List V → Prog K V (List V)
  | 0, _, acc => .ret acc
  | todo + 1, i, acc => .isReadable i fun b => if b then .pairAt i fun p => if cmp p.1 key then .pairAt i fun q =>
      getValueFrom cmp key todo (i + 1) (acc ++ [q.2]) else getValueFrom cmp key todo (i + 1) acc
    else getValueFrom cmp key todo (i + 1) acc

/-- `get_value`, hash_table_block_page.rs:217-226, with an empty `result`. It returns whether it found a value: whether the list is not empty. -/
def getValue (cmp : K → K → Bool) (n : Nat) (key : K) : Prog K V (List V) := getValueFrom cmp key n 0 []

/-- The first loop of `insert`, hash_table_block_page.rs:245-249: does a readable slot have the key? -/
def hasKeyFrom (cmp : K → K → Bool) (key : K) : Nat → Nat → Prog K V Bool
  | 0, _ => .ret false
  | todo + 1, i => .isReadable i fun b => if b then .pairAt i fun p => if cmp p.1 key then .ret true else hasKeyFrom cmp key todo (i + 1)
    else hasKeyFrom cmp key todo (i + 1)

/-- The second loop of `insert`, hash_table_block_page.rs:250-255: use the first slot that was never used. -/
def insertFrom (key : K) (value : V) : Nat → Nat → Prog K V Bool
  | 0, _ => .ret false
  | todo + 1, i => .isOccupied i fun b => if b then insertFrom key value todo (i + 1) else insertAt i key value

/-- `insert`, hash_table_block_page.rs:241-256, with `is_full`, 302-304. -/
def insert (cmp : K → K → Bool) (n : Nat) (key : K) (value : V) : Prog K V Bool :=
  (numReadable n).bind fun count => if count = n then .ret false else
    (hasKeyFrom cmp key n 0).bind fun dup => if dup then .ret false else insertFrom key value n 0

/-- The loop of `remove`, hash_table_block_page.rs:269-280. -/
def removeFrom (cmp : K → K → Bool) (veq : V → V → Bool) (key : K) (value : V) : Nat → Nat → Prog K V Bool
  | 0, _ => .ret false
  | todo + 1, i => .isReadable i fun b => if b then .pairAt i fun p => if cmp p.1 key then .pairAt i fun q =>
      if veq q.2 value then .clearReadable i (.ret true) else removeFrom cmp veq key value todo (i + 1)
      else removeFrom cmp veq key value todo (i + 1)
    else removeFrom cmp veq key value todo (i + 1)

/-- `remove`, hash_table_block_page.rs:269-280. -/
def remove (cmp : K → K → Bool) (veq : V → V → Bool) (n : Nat) (key : K) (value : V) : Prog K V Bool := removeFrom cmp veq key value n 0

/-- A call of the interface. -/
inductive Call (K V : Type) where
  | insert (key : K) (value : V)
  | remove (key : K) (value : V)
  | getValue (key : K)
  | numReadable
  | isFull
  | isEmpty
  | insertAt (i : Nat) (key : K) (value : V)
  | removeAt (i : Nat)
  | isOccupied (i : Nat)
  | isReadable (i : Nat)
  | keyAt (i : Nat)
  | valueAt (i : Nat)
  deriving Repr, DecidableEq

/-- What a call returns. -/
inductive Res (K V : Type) where
  | bool (b : Bool)
  | values (vs : List V)
  | count (n : Nat)
  | unit
  | key (k : K)
  | value (v : V)
  deriving Repr, DecidableEq

/-- The program of a call on a page of `n` slots, with the caller's comparison of keys and the `PartialEq` of values. -/
def Call.prog (cmp : K → K → Bool) (veq : V → V → Bool) (n : Nat) : Call K V → Prog K V (Res K V)
  | .insert k v => (HashPage.insert cmp n k v).bind fun b => .ret (.bool b)
  | .remove k v => (HashPage.remove cmp veq n k v).bind fun b => .ret (.bool b)
  | .getValue k => (HashPage.getValue cmp n k).bind fun vs => .ret (.values vs)
  | .numReadable => (HashPage.numReadable n).bind fun c => .ret (.count c)
  | .isFull => (HashPage.numReadable n).bind fun c => .ret (.bool (c == n))
  | .isEmpty => (HashPage.numReadable n).bind fun c => .ret (.bool (c == 0))
  | .insertAt i k v => (HashPage.insertAt i k v).bind fun b => .ret (.bool b)
  | .removeAt i => .clearReadable i (.ret .unit)
  | .isOccupied i => .isOccupied i fun b => .ret (.bool b)
  | .isReadable i => .isReadable i fun b => .ret (.bool b)
  | .keyAt i => .pairAt i fun p => .ret (.key p.1)
  | .valueAt i => .pairAt i fun p => .ret (.value p.2)

/-- Calls one after another; a panic ends the list of what they return. -/
def runCalls (cmp : K → K → Bool) (veq : V → V → Bool) (n : Nat) : Page K V → List (Call K V) → Page K V × List (Option (Res K V))
  | g, [] => (g, [])
  | g, c :: cs =>
    let (g', r) := run g (c.prog cmp veq n)
    let (g'', rs) := runCalls cmp veq n g' cs
    (g'', r :: rs)

/-- A thread: what it has called and heard, the call it is in, the calls still to come. -/
structure Thread (K V : Type) where
  past : List (Call K V × Res K V)
  now : Option (Call K V × Prog K V (Res K V))
  todo : List (Call K V)

/-- A page and the threads that use it. -/
structure Sys (K V : Type) where
  page : Page K V
  threads : Nat → Thread K V

/-- Nobody has done anything yet; thread `t` will make the calls `calls t`. -/
def Sys.start (g : Page K V) (calls : Nat → List (Call K V)) : Sys K V := ⟨g, fun t => ⟨[], none, calls t⟩⟩

/-- One thread of the system changes. -/
def Sys.put (s : Sys K V) (t : Nat) (g : Page K V) (th : Thread K V) : Sys K V := ⟨g, fun u => if u = t then th else s.threads u⟩

/-- Thread `t` goes on: it begins its next call, takes one step of the call it is in, or returns. A thread that has panicked, or has nothing left to
do, does nothing. -/
def Sys.step (cmp : K → K → Bool) (veq : V → V → Bool) (n : Nat) (s : Sys K V) (t : Nat) : Sys K V :=
  let th := s.threads t
  match th.now with
  | none => match th.todo with
    | [] => s
    | c :: cs => s.put t s.page { th with now := some (c, c.prog cmp veq n), todo := cs }
  | some (c, .ret r) => s.put t s.page { th with past := th.past ++ [(c, r)], now := none }
  | some (c, p) => s.put t (HashPage.step s.page p).1 { th with now := some (c, (HashPage.step s.page p).2) }

/-- Threads go on in the order of a schedule. -/
def Sys.runs (cmp : K → K → Bool) (veq : V → V → Bool) (n : Nat) (s : Sys K V) (sched : List Nat) : Sys K V :=
  sched.foldl (Sys.step cmp veq n) s

end Verif.HashPage
