import Verif.HashPage.Model
/-!
# What the pages of a hash table promise

A slot has never been used, holds a pair, or has had its pair removed. A page is a row of slots.
-/

namespace Verif.HashPage

variable {K V : Type}

/-- The table in the documentation of the page, hash_table_block_page.rs:18-28. -/
inductive Slot (K V : Type) where
  | free
  | full (k : K) (v : V)
  | grave (k : K) (v : V)
  deriving Repr, DecidableEq

/-- The pair of a slot that holds one. -/
def Slot.pair? : Slot K V → Option (K × V)
  | .full k v => some (k, v)
  | _ => none

/-- What `key_at` and `value_at` read: the pair of the slot, even if it was removed, and at first the default. -/
def Slot.stored (d : K × V) : Slot K V → K × V
  | .free => d
  | .full k v => (k, v)
  | .grave k v => (k, v)

/-- A pair put into a slot: only one that was never used takes it. -/
def Slot.put (k : K) (v : V) : Slot K V → Slot K V × Bool
  | .free => (.full k v, true)
  | s => (s, false)

/-- The pair of a slot is removed. -/
def Slot.bury : Slot K V → Slot K V
  | .full k v => .grave k v
  | s => s

/-- The slot was used before. -/
def Slot.used : Slot K V → Bool
  | .free => false
  | _ => true

/-- A call about one slot. -/
inductive SlotCall (K V : Type) where
  | insertAt (k : K) (v : V)
  | removeAt
  | isOccupied
  | isReadable
  | keyAt
  | valueAt
  deriving Repr, DecidableEq

/-- The same call, on slot `i` of a page. -/
def SlotCall.on (i : Nat) : SlotCall K V → Call K V
  | .insertAt k v => .insertAt i k v
  | .removeAt => .removeAt i
  | .isOccupied => .isOccupied i
  | .isReadable => .isReadable i
  | .keyAt => .keyAt i
  | .valueAt => .valueAt i

/-- The call can change its slot. -/
def SlotCall.changes : SlotCall K V → Bool
  | .insertAt _ _ => true
  | .removeAt => true
  | _ => false

/-- What a call does to its slot and what it returns. -/
def SlotCall.act (d : K × V) : SlotCall K V → Slot K V → Slot K V × Res K V
  | .insertAt k v, s => ((s.put k v).1, .bool (s.put k v).2)
  | .removeAt, s => (s.bury, .unit)
  | .isOccupied, s => (s, .bool s.used)
  | .isReadable, s => (s, .bool s.pair?.isSome)
  | .keyAt, s => (s, .key (s.stored d).1)
  | .valueAt, s => (s, .value (s.stored d).2)

/-- Calls on one slot, one after another. -/
def SlotCall.acts (d : K × V) : List (SlotCall K V) → Slot K V → Slot K V × List (Res K V)
  | [], s => (s, [])
  | c :: cs, s => ((SlotCall.acts d cs (c.act d s).1).1, (c.act d s).2 :: (SlotCall.acts d cs (c.act d s).1).2)

/-- What a page without slot numbers remembers: the pairs it holds, oldest first, and how many it was ever given. -/
structure Bag (K V : Type) where
  held : List (K × V)
  given : Nat
  deriving Repr, DecidableEq

/-- A call that does not name a slot. -/
inductive MapCall (K V : Type) where
  | insert (k : K) (v : V)
  | remove (k : K) (v : V)
  | getValue (k : K)
  | numReadable
  | isFull
  | isEmpty
  deriving Repr, DecidableEq

/-- The call of the interface. -/
def MapCall.call : MapCall K V → Call K V
  | .insert k v => .insert k v
  | .remove k v => .remove k v
  | .getValue k => .getValue k
  | .numReadable => .numReadable
  | .isFull => .isFull
  | .isEmpty => .isEmpty

/-- The pairs without the first that is the given one, if there is one. -/
def without (same : K × V → Bool) : List (K × V) → Option (List (K × V))
  | [] => none
  | p :: ps => if same p then some ps else (without same ps).map (p :: ·)

/-- What a call means on a page of `n` slots. A pair is taken if its key is not held yet and fewer than `n` pairs were ever taken. -/
def MapCall.act (cmp : K → K → Bool) (veq : V → V → Bool) (n : Nat) : MapCall K V → Bag K V → Bag K V × Res K V
  | .insert k v, b =>
    if b.held.any (fun p => cmp p.1 k) = false ∧ b.given < n then (⟨b.held ++ [(k, v)], b.given + 1⟩, .bool true) else (b, .bool false)
  | .remove k v, b => match without (fun p => cmp p.1 k && veq p.2 v) b.held with
    | some ps => (⟨ps, b.given⟩, .bool true)
    | none => (b, .bool false)
  | .getValue k, b => (b, .values ((b.held.filter fun p => cmp p.1 k).map (·.2)))
  | .numReadable, b => (b, .count b.held.length)
  | .isFull, b => (b, .bool (b.held.length == n))
  | .isEmpty, b => (b, .bool b.held.isEmpty)

/-- Calls one after another. -/
def MapCall.acts (cmp : K → K → Bool) (veq : V → V → Bool) (n : Nat) : List (MapCall K V) → Bag K V → List (Res K V)
  | [], _ => []
  | c :: cs, b => (c.act cmp veq n b).2 :: MapCall.acts cmp veq n cs (c.act cmp veq n b).1

/-- What the documentation says instead: keys need not be unique, only a pair that is already there is refused (hash_table_block_page.rs:238-240), and
the place of a removed pair can be used again (hash_table_bucket_page.rs:28-29). -/
def promised (cmp : K → K → Bool) (veq : V → V → Bool) (n : Nat) (held : List (K × V)) (k : K) (v : V) : Bool :=
  !held.any (fun p => cmp p.1 k && veq p.2 v) && decide (held.length < n)

/-- The slot a call is about, if it is about one. -/
def Call.slot? : Call K V → Option Nat
  | .insertAt i _ _ => some i
  | .removeAt i => some i
  | .isOccupied i => some i
  | .isReadable i => some i
  | .keyAt i => some i
  | .valueAt i => some i
  | _ => none

/-- The pair that a call tries to insert. -/
def Call.inserts : Call K V → Option (K × V)
  | .insert k v => some (k, v)
  | .insertAt _ k v => some (k, v)
  | _ => none

/-- The slot number of the call exists. -/
def Call.InRange (n : Nat) (c : Call K V) : Prop := ∀ i, c.slot? = some i → i < n

/-- Slot `i` of a page is in the state `s`. -/
def InState (d : K × V) (g : Page K V) (i : Nat) (s : Slot K V) : Prop :=
  bitAt g.occupied i = some s.used ∧ bitAt g.readable i = some s.pair?.isSome ∧ g.array[i]? = some (s.stored d)

/-- Some thread has begun to insert the pair. -/
def Sys.Begun (s : Sys K V) (p : K × V) : Prop :=
  ∃ t, (∃ x ∈ (s.threads t).past, x.1.inserts = some p) ∨ ∃ x, (s.threads t).now = some x ∧ x.1.inserts = some p

end Verif.HashPage
