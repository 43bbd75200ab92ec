import Verif.Io.Model

/-!
# The write coalescer (`src/storage/disk/async_disk/memory/coalescing/engine.rs`)

A hash map is a list of pairs with different keys. The order in which a hash map is walked is not fixed: where it matters it is a parameter,
`ord`, a rearrangement of the entries. Times are milliseconds. The access counters are `u32` in the code; here they have no bound, which only
matters after 2^32 writes of one page. Not modelled: the statistics.
-/

namespace Verif.Coalesce

open Verif.Io (Data)

/-- A hash map from page ids. -/
abbrev Map (α : Type) := List (Nat × α)

/-- `HashMap::get`. -/
def get {α : Type} (m : Map α) (p : Nat) : Option α := (m.find? fun e => e.1 == p).map (·.2)

/-- `HashMap::remove`. -/
def remove {α : Type} (m : Map α) (p : Nat) : Map α := m.filter fun e => e.1 != p

/-- `HashMap::insert`. -/
def insert {α : Type} (m : Map α) (p : Nat) (a : α) : Map α := (p, a) :: remove m p

/-- `CoalescingEngine` (engine.rs:323-337), without the metrics. -/
structure Engine where
  pending : Map Data
  window : Nat
  max : Nat
  stamps : Map Nat
  freqs : Map Nat
  last : Nat

/-- `CoalescingEngine::new` (engine.rs:351-362). -/
def new (now window max : Nat) : Engine := ⟨[], window, max, [], [], now⟩

/-- `sort_by_key` (stable) on the second component: the last entry is put in first, so entries with the same key keep their order. -/
def sortBy : List (Nat × Nat) → List (Nat × Nat)
  | [] => []
  | x :: xs => insertFirst x (sortBy xs)
where
  /-- Before the entries that are not smaller. -/
  insertFirst (e : Nat × Nat) : List (Nat × Nat) → List (Nat × Nat)
    | [] => [e]
    | y :: ys => if e.2 ≤ y.2 then e :: y :: ys else y :: insertFirst e ys

/-- The removal of a page from the three maps (engine.rs:420-422, 493-496). -/
def drop (s : Engine) (p : Nat) : Engine :=
  { s with pending := remove s.pending p, stamps := remove s.stamps p, freqs := remove s.freqs p }

/-- `simple_cleanup` (engine.rs:401-426); `ord` is the order in which `write_timestamps` is walked. -/
def simpleCleanup (s : Engine) (now : Nat) (ord : List (Nat × Nat)) : Engine :=
  if s.pending.length ≤ s.max then s
  else
    let victims := ((sortBy ord).take (s.pending.length - s.max / 2)).map (·.1)
    { victims.foldl drop s with last := now }

/-- `try_coalesce_write` (engine.rs:365-398): the data it hands on, `none` an error. -/
def write (s : Engine) (now p : Nat) (d : Data) (ord : List (Nat × Nat)) : Engine × Option Data :=
  if d = [] then (s, none)
  else match get s.pending p with
    | some _ =>
      ({ s with pending := insert s.pending p d, stamps := insert s.stamps p now,
                freqs := insert s.freqs p ((get s.freqs p).getD 0 + 1) }, some d)
    | none =>
      let s' := { s with pending := insert s.pending p d, stamps := insert s.stamps p now, freqs := insert s.freqs p 1 }
      (if s'.pending.length > s'.max then simpleCleanup s' now ord else s', some d)

/-- What `cleanup_expired_writes` decides by floating-point scores and the order of the hash maps: the memory pressure (0: at most 0.8,
1: at most 0.9, 2: more), the pages in the order of their scores, the order in which the access counters are walked. -/
structure Choice where
  pressure : Nat
  byScore : List Nat
  ord : List (Nat × Nat)

/-- `calculate_max_pending_writes` (engine.rs:678-682). -/
def maxPending (s : Engine) : Nat := Nat.max s.max 128

/-- The first phase (engine.rs:442-447). -/
def byTime (s : Engine) (now : Nat) : List Nat := (s.stamps.filter fun e => s.window < now - e.2).map (·.1)

/-- The second phase (engine.rs:450-471, 573-609). -/
def byMemory (s : Engine) (c : Choice) (sel : List Nat) : List Nat :=
  if 0 < c.pressure ∨ s.pending.length > maxPending s then
    let n := if c.pressure = 2 then s.pending.length / 2 else s.pending.length - maxPending s
    (c.byScore.filter fun p => !sel.contains p).take n
  else []

/-- The third phase (engine.rs:474-486, 612-635). -/
def byAccess (s : Engine) (c : Choice) (sel : List Nat) : List Nat :=
  if sel.length < maxPending s / 4 then
    ((sortBy (c.ord.filter fun e => !sel.contains e.1 && (get s.pending e.1).isSome)).take (maxPending s / 8)).map (·.1)
  else []

/-- The removal loop (engine.rs:492-500). -/
def dropPending (s : Engine) (p : Nat) : Engine := if (get s.pending p).isSome then drop s p else s

/-- `validate_coalescing_state` (engine.rs:638-675). -/
def validate (s : Engine) : Bool :=
  s.pending.all (fun e => (get s.stamps e.1).isSome && (get s.freqs e.1).isSome) && s.stamps.all (fun e => (get s.pending e.1).isSome) &&
    s.freqs.all (fun e => (get s.pending e.1).isSome)

/-- `cleanup_expired_writes` (engine.rs:429-529); `false` is the error. -/
def cleanup (s : Engine) (now : Nat) (c : Choice) : Engine × Bool :=
  if now - s.last < 100 then (s, true)
  else
    let sel := byTime s now
    let sel := sel ++ byMemory s c sel
    let sel := sel ++ byAccess s c sel
    let s' := { sel.foldl dropPending s with last := now }
    (s', validate s')

/-- `clear_all` (engine.rs:725-731). -/
def clear (s : Engine) (now : Nat) : Engine := { s with pending := [], stamps := [], freqs := [], last := now }

/-- `sort_unstable` on numbers. -/
def sortNat : List Nat → List Nat
  | [] => []
  | x :: xs => put x (sortNat xs)
where
  /-- Before the numbers that are not smaller. -/
  put (x : Nat) : List Nat → List Nat
    | [] => [x]
    | y :: ys => if x ≤ y then x :: y :: ys else y :: put x ys

/-- `find_adjacent_pages` (engine.rs:532-556). -/
def adjacent (s : Engine) (p : Nat) : List Nat :=
  sortNat ([1, 2, 3, 4].flatMap fun o =>
    (if o ≤ p ∧ (get s.pending (p - o)).isSome then [p - o] else []) ++
    (if p + o < 2 ^ 64 ∧ (get s.pending (p + o)).isSome then [p + o] else []))

/-! ## Histories -/

/-- A call, with the time at which it is made and the orders in which the maps are walked. -/
inductive Op where
  | write (now p : Nat) (d : Data) (ord : List (Nat × Nat))
  | cleanup (now : Nat) (c : Choice)
  | clear (now : Nat)

/-- The state after a call. -/
def step (s : Engine) : Op → Engine
  | .write now p d ord => (write s now p d ord).1
  | .cleanup now c => (cleanup s now c).1
  | .clear now => clear s now

/-- The entries a write walks, if it cleans up: those of `write_timestamps` after the new entry is in. -/
def stamped (s : Engine) (now p : Nat) : List (Nat × Nat) := insert s.stamps p now

/-- The orders are rearrangements of what the maps hold. -/
def OrdOk (s : Engine) : Op → Prop
  | .write now p _ ord => ord.Perm (stamped s now p)
  | .cleanup _ c => c.byScore.Perm (s.pending.map (·.1)) ∧ c.ord.Perm s.freqs
  | .clear _ => True

/-- The states a history goes through. -/
def run (s : Engine) : List Op → Engine
  | [] => s
  | op :: ops => run (step s op) ops

/-- Every order along a history is a rearrangement of what the maps hold at that moment. -/
def RunOk (s : Engine) : List Op → Prop
  | [] => True
  | op :: ops => OrdOk s op ∧ RunOk (step s op) ops

end Verif.Coalesce
