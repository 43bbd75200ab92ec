import Verif.Base.AMap

/-!
# Pointer-linked LRU cache (`src/storage/disk/async_disk/cache/lru.rs`), property C06

Memory is explicit: a partial map from addresses to nodes. Reading or writing an address that is not
allocated, freeing one twice, failing a debug assertion or not terminating is the result `none`. The
allocator may return any address that is not in use; the address is a parameter of `insert`.
`ConcurrentLRUCache` (lru.rs:868-968) takes one lock around each call of `LRUCore`, so each of its
calls is one call here. `Arc<V>` values are modelled by their identity `V`.
-/

namespace Verif.Lru

set_option linter.unusedSectionVars false

variable {K V : Type} [DecidableEq K]

/-! ## Model -/

/-- `struct Node` (lru.rs:340-351). Pointers are natural numbers. -/
structure Node (K V : Type) where
  key : K
  value : V
  prev : Option Nat
  next : Option Nat

/-- The heap: allocated addresses and their nodes. -/
abbrev Mem (K V : Type) := Nat → Option (Node K V)

/-- `struct LRUCore` (lru.rs:383-392) together with the memory its pointers refer to. -/
structure Cache (K V : Type) where
  capacity : Nat
  map : AMap K Nat
  head : Option Nat
  tail : Option Nat
  mem : Mem K V

/-- `LRUCore::new` (lru.rs:424-432). -/
def new (capacity : Nat) : Cache K V :=
  { capacity, map := [], head := none, tail := none, mem := fun _ => none }

/-- A write through a pointer; `none` if the pointer is dangling. -/
def modify (mem : Mem K V) (p : Nat) (f : Node K V → Node K V) : Option (Mem K V) :=
  match mem p with
  | none => none
  | some n => some (fun q => if q = p then some (f n) else mem q)

/-- `Box::from_raw` and drop: `none` if the pointer is dangling (double free). -/
def free (mem : Mem K V) (p : Nat) : Option (Mem K V) :=
  match mem p with
  | none => none
  | some _ => some (fun q => if q = p then none else mem q)

/-- `add_to_head` (lru.rs:486-506). -/
def addToHead (c : Cache K V) (p : Nat) : Option (Cache K V) :=
  match c.head with
  | some oldHead => do
    let mem ← modify c.mem p (fun n => { n with next := some oldHead })
    let mem ← modify mem p (fun n => { n with prev := none })
    let mem ← modify mem oldHead (fun n => { n with prev := some p })
    some { c with mem := mem, head := some p }
  | none => do
    let mem ← modify c.mem p (fun n => { n with next := none })
    let mem ← modify mem p (fun n => { n with prev := none })
    some { c with mem := mem, head := some p, tail := some p }

/-- `remove_from_list` (lru.rs:520-551). -/
def removeFromList (c : Cache K V) (p : Nat) : Option (Cache K V) :=
  match c.mem p with
  | none => none
  | some n =>
    match n.prev, n.next with
    | some prev, some next => do
      let mem ← modify c.mem prev (fun m => { m with next := some next })
      let mem ← modify mem next (fun m => { m with prev := some prev })
      some { c with mem := mem }
    | some prev, none => do
      let mem ← modify c.mem prev (fun m => { m with next := none })
      some { c with mem := mem, tail := some prev }
    | none, some next => do
      let mem ← modify c.mem next (fun m => { m with prev := none })
      some { c with mem := mem, head := some next }
    | none, none => some { c with head := none, tail := none }

/-- `move_to_head` (lru.rs:471-477). -/
def moveToHead (c : Cache K V) (p : Nat) : Option (Cache K V) := do
  let c ← removeFromList c p
  addToHead c p

/-- The loop of `validate_invariants` (lru.rs:587-605); the first argument bounds the iterations. -/
def validateLoop (mem : Mem K V) (map : AMap K Nat) :
    Nat → Option Nat → Option Nat → Nat → Option (Nat × Option Nat)
  | _, none, prev, count => some (count, prev)
  | 0, some _, _, _ => none
  | fuel + 1, some p, prev, count =>
    match mem p with
    | none => none
    | some n =>
      if n.prev = prev ∧ map.has n.key = true then
        validateLoop mem map fuel n.next (some p) (count + 1)
      else none

/-- `validate_invariants` (lru.rs:580-612), run after mutating calls in debug builds; `none` is a failed
assertion. -/
def validate (c : Cache K V) : Option (Cache K V) :=
  if c.map.isEmpty then
    if c.head = none ∧ c.tail = none then some c else none
  else
    match validateLoop c.mem c.map (c.map.length + 1) c.head none 0 with
    | none => none
    | some (count, prev) => if count = c.map.length ∧ prev = c.tail then some c else none

/-- `insert` (lru.rs:621-679); `addr` is the address the allocator returns. -/
def insert (c : Cache K V) (k : K) (v : V) (addr : Nat) : Option (Cache K V × Option V) :=
  match c.map.get k with
  | some p =>
    match c.mem p with
    | none => none
    | some n => do
      let mem ← modify c.mem p (fun m => { m with value := v })
      let c ← moveToHead { c with mem := mem } p
      let c ← validate c
      some (c, some n.value)
  | none =>
    if c.capacity = 0 then some (c, none)
    else do
      let c ← (if c.map.length ≥ c.capacity then
          match c.tail with
          | none => some c
          | some t => do
            let c ← removeFromList c t
            match c.mem t with
            | none => none
            | some n => do
              let mem ← free c.mem t
              some { c with mem := mem, map := c.map.erase n.key }
        else some c)
      let c := { c with
        mem := fun q => if q = addr then some { key := k, value := v, prev := none, next := none } else c.mem q,
        map := c.map.set k addr }
      let c ← addToHead c addr
      let c ← validate c
      some (c, none)

/-- `get` (lru.rs:682-694). -/
def get (c : Cache K V) (k : K) : Option (Cache K V × Option V) :=
  match c.map.get k with
  | none => some (c, none)
  | some p => do
    let c ← moveToHead c p
    match c.mem p with
    | none => none
    | some n => some (c, some n.value)

/-- `clear` (lru.rs:708-724; also run by `drop`, 854-856). -/
def clear (c : Cache K V) : Option (Cache K V) := do
  let mem ← c.map.foldlM (fun mem e => free mem e.2) c.mem
  validate { c with map := [], head := none, tail := none, mem := mem }

/-- `peek` (lru.rs:733-743). -/
def peek (c : Cache K V) (k : K) : Option (Option V) :=
  match c.map.get k with
  | none => some none
  | some p => (c.mem p).map fun n => some n.value

/-- `remove` (lru.rs:751-771). -/
def remove (c : Cache K V) (k : K) : Option (Cache K V × Option V) :=
  match c.map.get k with
  | none => some (c, none)
  | some p => do
    let c ← removeFromList { c with map := c.map.erase k } p
    match c.mem p with
    | none => none
    | some n => do
      let mem ← free c.mem p
      let c ← validate { c with mem := mem }
      some (c, some n.value)

/-- `pop_lru` (lru.rs:779-801). -/
def popLru (c : Cache K V) : Option (Cache K V × Option (K × V)) :=
  match c.tail with
  | none => some (c, none)
  | some t =>
    match c.mem t with
    | none => none
    | some n0 => do
      let c ← removeFromList { c with map := c.map.erase n0.key } t
      match c.mem t with
      | none => none
      | some n => do
        let mem ← free c.mem t
        let c ← validate { c with mem := mem }
        some (c, some (n0.key, n.value))

/-- `peek_lru` (lru.rs:804-810). -/
def peekLru (c : Cache K V) : Option (Option (K × V)) :=
  match c.tail with
  | none => some none
  | some t => (c.mem t).map fun n => some (n.key, n.value)

/-- `touch` (lru.rs:812-826). -/
def touch (c : Cache K V) (k : K) : Option (Cache K V × Bool) :=
  match c.map.get k with
  | none => some (c, false)
  | some p => do
    let c ← moveToHead c p
    let c ← validate c
    some (c, true)

/-- The loop of `recency_rank` (lru.rs:834-843); the first argument bounds the iterations. -/
def rankLoop (mem : Mem K V) (target : Nat) : Nat → Option Nat → Nat → Option (Option Nat)
  | _, none, _ => some none
  | 0, some _, _ => none
  | fuel + 1, some p, rank =>
    if p = target then some (some rank)
    else match mem p with
      | none => none
      | some n => rankLoop mem target fuel n.next (rank + 1)

/-- `recency_rank` (lru.rs:828-846). -/
def recencyRank (c : Cache K V) (k : K) : Option (Option Nat) :=
  match c.map.get k with
  | none => some none
  | some p => rankLoop c.mem p (c.map.length + 1) c.head 0

/-- The calls. `addr` is the allocator's choice. -/
inductive Op (K V : Type) where
  | insert (k : K) (v : V) (addr : Nat)
  | get (k : K)
  | contains (k : K)
  | len
  | clear
  | peek (k : K)
  | remove (k : K)
  | popLru
  | peekLru
  | touch (k : K)
  | rank (k : K)

/-- Results of calls. -/
inductive Out (K V : Type) where
  | unit
  | val (v : Option V)
  | bool (b : Bool)
  | nat (n : Nat)
  | optNat (n : Option Nat)
  | entry (e : Option (K × V))
  deriving DecidableEq

/-- One call; `none` is undefined behaviour, a failed assertion or non-termination. -/
def step (c : Cache K V) : Op K V → Option (Cache K V × Out K V)
  | .insert k v a => (insert c k v a).map fun p => (p.1, .val p.2)
  | .get k => (get c k).map fun p => (p.1, .val p.2)
  | .contains k => some (c, .bool (c.map.has k))
  | .len => some (c, .nat c.map.length)
  | .clear => (clear c).map fun c => (c, .unit)
  | .peek k => (peek c k).map fun r => (c, .val r)
  | .remove k => (remove c k).map fun p => (p.1, .val p.2)
  | .popLru => (popLru c).map fun p => (p.1, .entry p.2)
  | .peekLru => (peekLru c).map fun r => (c, .entry r)
  | .touch k => (touch c k).map fun p => (p.1, .bool p.2)
  | .rank k => (recencyRank c k).map fun r => (c, .optNat r)

/-- The allocator returns an address that is not in use. The entry evicted by the same `insert` may
already have been freed, so its address counts as free too (it is `c.tail` when the cache is full). -/
def AllocOk (c : Cache K V) : Op K V → Prop
  | .insert k _ a => c.mem a = none ∨
      (c.map.get k = none ∧ c.map.length ≥ c.capacity ∧ c.tail = some a)
  | _ => True

/-- Every execution of the calls: `none` as soon as one call goes wrong. -/
def run (c : Cache K V) : List (Op K V) → Option (Cache K V × List (Out K V))
  | [] => some (c, [])
  | o :: os =>
    match step c o with
    | none => none
    | some (c', out) =>
      match run c' os with
      | none => none
      | some (c'', outs) => some (c'', out :: outs)

/-- All allocations along the run obey `AllocOk`. -/
def AllocsOk : Cache K V → List (Op K V) → Prop
  | _, [] => True
  | c, o :: os => AllocOk c o ∧ ∀ c' out, step c o = some (c', out) → AllocsOk c' os

/-- `AllocsOk` as a computation, for the examples. -/
def allocsOkB : Cache K V → List (Op K V) → Bool
  | _, [] => true
  | c, o :: os =>
    (match o with
      | .insert k _ a => (c.mem a).isNone ||
          ((c.map.get k).isNone && decide (c.map.length ≥ c.capacity) && decide (c.tail = some a))
      | _ => true) &&
    (match step c o with
      | none => true
      | some p => allocsOkB p.1 os)

theorem allocsOkB_sound (os : List (Op K V)) : ∀ c : Cache K V, allocsOkB c os = true → AllocsOk c os := by
  induction os with
  | nil => intro c _; trivial
  | cons o os ih =>
    intro c h
    unfold allocsOkB at h
    rw [Bool.and_eq_true] at h
    refine ⟨?_, ?_⟩
    · cases o with
      | insert k v a =>
        have h1 := h.1
        simp only [Bool.or_eq_true, Bool.and_eq_true, decide_eq_true_eq, Option.isNone_iff_eq_none] at h1
        simpa [AllocOk, and_assoc] using h1
      | _ => trivial
    · intro c' out hs
      have h2 := h.2
      rw [hs] at h2
      exact ih c' h2

/-! ## Specification: the live entries, most recently used first -/

namespace Spec

def lookup (l : List (K × V)) (k : K) : Option V := (l.find? (fun p => p.1 = k)).map (·.2)

def without (l : List (K × V)) (k : K) : List (K × V) := l.filter (fun p => p.1 ≠ k)

def step (cap : Nat) (l : List (K × V)) : Op K V → List (K × V) × Out K V
  | .insert k v _ =>
    match lookup l k with
    | some old => ((k, v) :: without l k, .val (some old))
    | none =>
      if cap = 0 then (l, .val none)
      else ((k, v) :: (if l.length < cap then l else l.dropLast), .val none)
  | .get k =>
    match lookup l k with
    | some v => ((k, v) :: without l k, .val (some v))
    | none => (l, .val none)
  | .contains k => (l, .bool (lookup l k).isSome)
  | .len => (l, .nat l.length)
  | .clear => ([], .unit)
  | .peek k => (l, .val (lookup l k))
  | .remove k => (without l k, .val (lookup l k))
  | .popLru => (l.dropLast, .entry l.getLast?)
  | .peekLru => (l, .entry l.getLast?)
  | .touch k =>
    match lookup l k with
    | some v => ((k, v) :: without l k, .bool true)
    | none => (l, .bool false)
  | .rank k => (l, .optNat (l.findIdx? (fun p => p.1 = k)))

def run (cap : Nat) (l : List (K × V)) : List (Op K V) → List (K × V) × List (Out K V)
  | [] => (l, [])
  | o :: os => let p := step cap l o; let q := run cap p.1 os; (q.1, p.2 :: q.2)

end Spec

/-! ## Linked-list surgery -/

/-- `ps` is a doubly linked list in `mem`. -/
def Links (mem : Mem K V) (ps : List Nat) : Prop :=
  ∀ a p b, ps = a ++ p :: b → ∃ n, mem p = some n ∧ n.prev = a.getLast? ∧ n.next = b.head?

def entry (mem : Mem K V) (p : Nat) : Option (K × V) := (mem p).map fun n => (n.key, n.value)

def ents (mem : Mem K V) (ps : List Nat) : List (K × V) := ps.filterMap (entry mem)

theorem ents_append (mem : Mem K V) (a b : List Nat) : ents mem (a ++ b) = ents mem a ++ ents mem b := by
  simp [ents]

theorem ents_cons {mem : Mem K V} {p : Nat} {n : Node K V} (h : mem p = some n) (b : List Nat) :
    ents mem (p :: b) = (n.key, n.value) :: ents mem b := by
  simp [ents, entry, h]

theorem ents_congr {mem mem' : Mem K V} {ps : List Nat} (h : ∀ p ∈ ps, entry mem' p = entry mem p) :
    ents mem' ps = ents mem ps := by
  unfold ents
  induction ps with
  | nil => rfl
  | cons p ps ih =>
    simp only [List.filterMap_cons, h p (by simp), ih (fun q hq => h q (List.mem_cons_of_mem _ hq))]

theorem links_alloc {mem : Mem K V} {ps : List Nat} (h : Links mem ps) {p : Nat} (hp : p ∈ ps) :
    ∃ n, mem p = some n := by
  obtain ⟨a, b, rfl⟩ := List.append_of_mem hp
  obtain ⟨n, hn, _⟩ := h a p b rfl
  exact ⟨n, hn⟩

theorem ents_length {mem : Mem K V} {ps : List Nat} (h : ∀ p ∈ ps, ∃ n, mem p = some n) :
    (ents mem ps).length = ps.length := by
  induction ps with
  | nil => rfl
  | cons p ps ih =>
    obtain ⟨n, hn⟩ := h p (by simp)
    rw [ents_cons hn]
    simp [ih (fun q hq => h q (List.mem_cons_of_mem _ hq))]

theorem ents_getLast {mem : Mem K V} {ps : List Nat} (h : ∀ p ∈ ps, ∃ n, mem p = some n) :
    (ents mem ps).getLast? = ps.getLast?.bind (entry mem) := by
  rcases List.eq_nil_or_concat ps with rfl | ⟨a, p, rfl⟩
  · rfl
  · obtain ⟨n, hn⟩ := h p (by simp)
    simp only [List.concat_eq_append]
    rw [ents_append, ents_cons hn]
    simp [ents, entry, hn]

/-- The cache with its list set to `ps`. -/
def withList (c : Cache K V) (mem : Mem K V) (ps : List Nat) : Cache K V :=
  { capacity := c.capacity, map := c.map, head := ps.head?, tail := ps.getLast?, mem := mem }

/-- The effect of `remove_from_list` on memory when `p` sits between `a` and `b`. -/
def detachMem (mem : Mem K V) (a b : List Nat) : Mem K V := fun q =>
  (mem q).map fun n =>
    { n with next := if a.getLast? = some q then b.head? else n.next,
             prev := if b.head? = some q then a.getLast? else n.prev }

theorem mem_of_getLast? {a : List Nat} {q : Nat} (h : a.getLast? = some q) : q ∈ a :=
  List.mem_of_getLast? h

theorem mem_of_head? {b : List Nat} {q : Nat} (h : b.head? = some q) : q ∈ b :=
  List.mem_of_head? h

theorem getLast_cons_append (a : List Nat) (p : Nat) (b : List Nat) :
    (a ++ p :: b).getLast? = some ((b.getLast?).getD p) := by
  rw [List.getLast?_append]
  cases b with
  | nil => simp
  | cons x xs =>
    rw [List.getLast?_cons_cons]
    rw [List.getLast?_cons]
    simp

theorem removeFromList_eq {c : Cache K V} {a : List Nat} {p : Nat} {b : List Nat}
    (hl : Links c.mem (a ++ p :: b)) (nd : (a ++ p :: b).Nodup)
    (hh : c.head = (a ++ p :: b).head?) (ht : c.tail = (a ++ p :: b).getLast?) :
    removeFromList c p = some (withList c (detachMem c.mem a b) (a ++ b)) := by
  obtain ⟨n, hn, hprev, hnext⟩ := hl a p b rfl
  unfold removeFromList withList
  simp only [hn]
  have nd' := List.nodup_append.1 nd
  have ndb := List.nodup_cons.1 nd'.2.1
  cases hb : b.head? with
  | none =>
    have hb0 : b = [] := by simpa using hb
    subst hb0
    cases ha : a.getLast? with
    | none =>
      have ha0 : a = [] := by simpa using ha
      subst ha0
      rw [ha] at hprev; rw [hb] at hnext
      rw [hprev, hnext]
      simp only [List.append_nil, List.head?_nil, List.getLast?_nil]
      congr 2
      funext q
      simp only [detachMem, List.getLast?_nil, List.head?_nil]
      cases c.mem q with
      | none => rfl
      | some m => simp
    | some q0 =>
      rw [ha] at hprev; rw [hb] at hnext
      rw [hprev, hnext]
      simp only
      have hq0 : q0 ∈ a ++ [p] := by simp [mem_of_getLast? ha]
      obtain ⟨m0, hm0⟩ := links_alloc hl hq0
      unfold modify
      simp only [hm0, Option.bind_eq_bind, Option.bind_some, List.append_nil]
      congr 2
      · have ha0 : a ≠ [] := by intro h; rw [h] at ha; simp at ha
        rw [hh]
        cases a with
        | nil => exact absurd rfl ha0
        | cons x xs => rfl
      · exact ha.symm
      · funext q
        simp only [detachMem, ha, List.head?_nil]
        by_cases hq : q = q0
        · subst hq; simp [hm0]
        · simp only [if_neg hq]
          have : ¬ (q0 = q) := fun h => hq h.symm
          cases c.mem q with
          | none => rfl
          | some m => simp [this]
  | some q1 =>
    have hb0 : b ≠ [] := by intro h; rw [h] at hb; simp at hb
    have hq1b := mem_of_head? hb
    have hq1 : q1 ∈ a ++ p :: b := by simp [hq1b]
    obtain ⟨m1, hm1⟩ := links_alloc hl hq1
    cases ha : a.getLast? with
    | none =>
      have ha0 : a = [] := by simpa using ha
      subst ha0
      rw [ha] at hprev; rw [hb] at hnext
      rw [hprev, hnext]
      simp only
      unfold modify
      simp only [hm1, Option.bind_eq_bind, Option.bind_some, List.nil_append]
      congr 2
      · exact hb.symm
      · rw [ht]
        cases b with
        | nil => exact absurd rfl hb0
        | cons x xs => simp
      · funext q
        simp only [detachMem, hb, List.getLast?_nil]
        by_cases hq : q = q1
        · subst hq; simp [hm1]
        · simp only [if_neg hq]
          have : ¬ (q1 = q) := fun h => hq h.symm
          cases c.mem q with
          | none => rfl
          | some m => simp [this]
    | some q0 =>
      rw [ha] at hprev; rw [hb] at hnext
      rw [hprev, hnext]
      simp only
      have hq0a := mem_of_getLast? ha
      have hq0 : q0 ∈ a ++ p :: b := by simp [hq0a]
      obtain ⟨m0, hm0⟩ := links_alloc hl hq0
      have hne : ¬ q1 = q0 := by
        intro h
        exact nd'.2.2 q0 hq0a q1 (List.mem_cons_of_mem _ hq1b) h.symm
      unfold modify
      simp only [hm0, hm1, if_neg hne, Option.bind_eq_bind, Option.bind_some]
      have ha0 : a ≠ [] := by intro h; rw [h] at ha; simp at ha
      congr 2
      · rw [hh]
        cases a with
        | nil => exact absurd rfl ha0
        | cons x xs => rfl
      · rw [ht]
        cases b with
        | nil => exact absurd rfl hb0
        | cons x xs => simp [List.getLast?_append, List.getLast?_cons]
      · funext q
        simp only [detachMem, ha, hb]
        by_cases hq : q = q1
        · subst hq
          have : ¬ (q0 = q) := fun h => hne h.symm
          simp [hm1, this]
        · have h1 : ¬ (q1 = q) := fun h => hq h.symm
          by_cases hq' : q = q0
          · subst hq'; simp [hm0, hq, h1]
          · have h2 : ¬ (q0 = q) := fun h => hq' h.symm
            simp only [if_neg hq, if_neg hq']
            cases c.mem q with
            | none => rfl
            | some m => simp [h1, h2]

theorem detach_links {mem : Mem K V} {a : List Nat} {p : Nat} {b : List Nat}
    (hl : Links mem (a ++ p :: b)) (nd : (a ++ p :: b).Nodup) : Links (detachMem mem a b) (a ++ b) := by
  have nd' := List.nodup_append.1 nd
  have ndb := List.nodup_cons.1 nd'.2.1
  intro a' q b' heq
  rcases List.append_eq_append_iff.1 heq with ⟨b1, h1, h2⟩ | ⟨a1, h1, h2⟩
  · -- q in b
    subst h1
    subst h2
    obtain ⟨n, hn, hp, hx⟩ := hl (a ++ p :: b1) q b' (by simp)
    have hqb : q ∈ b1 ++ q :: b' := by simp
    have hqa : ¬ a.getLast? = some q := by
      intro h
      exact nd'.2.2 q (mem_of_getLast? h) q (List.mem_cons_of_mem _ hqb) rfl
    refine ⟨_, by simp only [detachMem, hn, Option.map_some]; rfl, ?_, ?_⟩
    · cases b1 with
      | nil => simp
      | cons x xs =>
        have : ¬ (x = q) := by
          rintro rfl
          have := ndb.2
          simp at this
        simp [this, hp, List.getLast?_append, List.getLast?_cons]
    · simp [hqa, hx]
  · cases a1 with
    | nil =>
      -- q is the head of b
      simp only [List.append_nil, List.nil_append] at h1 h2
      subst h1
      subst h2
      obtain ⟨n, hn, hp, hx⟩ := hl (a ++ [p]) q b' (by simp)
      have hqa : ¬ a.getLast? = some q := by
        intro h
        exact nd'.2.2 q (mem_of_getLast? h) q (by simp) rfl
      refine ⟨_, by simp only [detachMem, hn, Option.map_some]; rfl, ?_, ?_⟩
      · simp
      · simp [hqa, hx]
    | cons x a2 =>
      -- q in a
      simp only [List.cons_append, List.cons.injEq] at h2
      obtain ⟨rfl, rfl⟩ := h2
      subst h1
      obtain ⟨n, hn, hp, hx⟩ := hl a' q (a2 ++ p :: b) (by simp)
      have hqb : ¬ b.head? = some q := by
        intro h
        exact nd'.2.2 q (by simp) q (List.mem_cons_of_mem _ (mem_of_head? h)) rfl
      refine ⟨_, by simp only [detachMem, hn, Option.map_some]; rfl, ?_, ?_⟩
      · simp [hqb, hp]
      · cases a2 with
        | nil => simp
        | cons y ys =>
          have : ¬ ((a' ++ q :: y :: ys).getLast? = some q) := by
            intro h
            have h3 : (y :: ys).getLast? = some q := by
              rw [List.getLast?_append, List.getLast?_cons_cons] at h
              rw [List.getLast?_cons] at h ⊢
              simpa using h
            have h4 := mem_of_getLast? h3
            have := (List.nodup_append.1 nd'.1).2.1
            simp only [List.nodup_cons] at this
            exact this.1 h4
          rw [if_neg this]; simp [hx]

theorem detach_entry (mem : Mem K V) (a b : List Nat) (q : Nat) :
    entry (detachMem mem a b) q = entry mem q := by
  unfold entry detachMem
  cases mem q <;> rfl

theorem detach_none (mem : Mem K V) (a b : List Nat) (q : Nat) :
    detachMem mem a b q = none ↔ mem q = none := by
  unfold detachMem
  cases mem q <;> simp

theorem links_congr {mem mem' : Mem K V} {ps : List Nat} (hl : Links mem ps)
    (h : ∀ q ∈ ps, ∀ n, mem q = some n → ∃ n', mem' q = some n' ∧ n'.prev = n.prev ∧ n'.next = n.next) :
    Links mem' ps := by
  intro a p b heq
  obtain ⟨n, hn, h1, h2⟩ := hl a p b heq
  obtain ⟨n', g1, g2, g3⟩ := h p (by rw [heq]; simp) n hn
  exact ⟨n', g1, g2.trans h1, g3.trans h2⟩

/-- The effect of `add_to_head` on memory. -/
def attachMem (mem : Mem K V) (p : Nat) (ps : List Nat) : Mem K V := fun q =>
  if q = p then (mem p).map fun n => { n with next := ps.head?, prev := none }
  else (mem q).map fun n => { n with prev := if ps.head? = some q then some p else n.prev }

theorem addToHead_eq {c : Cache K V} {p : Nat} {ps : List Nat} (hl : Links c.mem ps)
    (hp : p ∉ ps) {n : Node K V} (hn : c.mem p = some n) (hh : c.head = ps.head?)
    (ht : c.tail = ps.getLast?) :
    addToHead c p = some (withList c (attachMem c.mem p ps) (p :: ps)) := by
  unfold addToHead withList
  cases hps : ps with
  | nil =>
    subst hps
    simp only [List.head?_nil] at hh
    rw [hh]
    unfold modify
    simp only [hn, Option.bind_eq_bind, Option.bind_some, if_true]
    congr 2
    funext q
    unfold attachMem
    by_cases hq : q = p
    · subst hq; simp [hn]
    · simp only [if_neg hq, List.head?_nil]
      cases c.mem q with
      | none => rfl
      | some m => simp
  | cons x xs =>
    subst hps
    simp only [List.head?_cons] at hh
    rw [hh]
    have hxp : ¬ x = p := by rintro rfl; simp at hp
    obtain ⟨m, hm⟩ := links_alloc hl (show x ∈ x :: xs by simp)
    unfold modify
    simp only [hn, Option.bind_eq_bind, Option.bind_some, if_true, if_neg hxp, hm]
    rw [show (p :: x :: xs).getLast? = c.tail by rw [ht]; simp]
    congr 2
    funext q
    unfold attachMem
    by_cases hq : q = p
    · subst hq
      have : ¬ (q = x) := fun h => hxp h.symm
      simp [hn, this]
    · simp only [if_neg hq, List.head?_cons]
      by_cases hqx : q = x
      · subst hqx; simp [hm]
      · have : ¬ (x = q) := fun h => hqx h.symm
        cases hcq : c.mem q with
        | none => simp [hqx]
        | some m' => simp [hqx, this]

theorem attach_links {mem : Mem K V} {p : Nat} {ps : List Nat} (hl : Links mem ps) (hp : p ∉ ps)
    (nd : ps.Nodup) {n : Node K V} (hn : mem p = some n) : Links (attachMem mem p ps) (p :: ps) := by
  intro a q b heq
  cases a with
  | nil =>
    simp only [List.nil_append, List.cons.injEq] at heq
    obtain ⟨rfl, rfl⟩ := heq
    exact ⟨_, by simp [attachMem, hn]; rfl, rfl, rfl⟩
  | cons x a' =>
    simp only [List.cons_append, List.cons.injEq] at heq
    obtain ⟨rfl, rfl⟩ := heq
    obtain ⟨m, hm, h1, h2⟩ := hl a' q b rfl
    have hqp : ¬ q = p := by rintro rfl; simp at hp
    refine ⟨_, by simp only [attachMem, if_neg hqp, hm, Option.map_some]; rfl, ?_, ?_⟩
    rotate_left
    · exact h2
    cases a' with
    | nil => simp
    | cons y ys =>
      have : ¬ y = q := by
        rintro rfl
        simp only [List.cons_append, List.nodup_cons] at nd
        exact nd.1 (by simp)
      simp [this, h1, List.getLast?_cons]

theorem attach_entry (mem : Mem K V) (p : Nat) (ps : List Nat) (q : Nat) :
    entry (attachMem mem p ps) q = entry mem q := by
  unfold entry attachMem
  by_cases h : q = p
  · subst h; simp only [if_true]; cases mem q <;> rfl
  · simp only [if_neg h]; cases mem q <;> rfl

theorem attach_none (mem : Mem K V) (p : Nat) (ps : List Nat) (q : Nat) :
    attachMem mem p ps q = none ↔ mem q = none := by
  unfold attachMem
  by_cases h : q = p
  · subst h; simp
  · simp [h]

/-! ## Representation -/

/-- The cache with pointer list `ps` (head to tail). -/
structure Rep (c : Cache K V) (ps : List Nat) : Prop where
  links : Links c.mem ps
  nodup : ps.Nodup
  head : c.head = ps.head?
  tail : c.tail = ps.getLast?
  map : ∀ k p, c.map.get k = some p ↔ p ∈ ps ∧ ∃ n, c.mem p = some n ∧ n.key = k
  wf : c.map.WF
  len : c.map.length = ps.length
  leak : ∀ p, c.mem p ≠ none → p ∈ ps
  cap : ps.length ≤ c.capacity

theorem entry_some {mem : Mem K V} {p : Nat} {k : K} {v : V} :
    entry mem p = some (k, v) ↔ ∃ n, mem p = some n ∧ n.key = k ∧ n.value = v := by
  unfold entry
  cases h : mem p with
  | none => simp
  | some n => simp

theorem validateLoop_ok {mem : Mem K V} {map : AMap K Nat} (rest : List Nat) :
    ∀ (done : List Nat) (fuel : Nat), Links mem (done ++ rest) →
      (∀ p ∈ rest, ∀ n, mem p = some n → map.has n.key = true) → rest.length ≤ fuel →
      validateLoop mem map fuel rest.head? done.getLast? done.length =
        some ((done ++ rest).length, (done ++ rest).getLast?) := by
  induction rest with
  | nil => intro done fuel _ _ _; cases fuel <;> simp [validateLoop]
  | cons p rest ih =>
    intro done fuel hl hm hf
    cases fuel with
    | zero => simp at hf
    | succ fuel =>
      obtain ⟨n, hn, hp, hx⟩ := hl done p rest rfl
      simp only [List.head?_cons, validateLoop, hn, hp, hm p (by simp) n hn, and_self, if_true, hx]
      have := ih (done ++ [p]) fuel (by simpa using hl)
        (fun q hq => hm q (List.mem_cons_of_mem _ hq)) (by simp at hf; omega)
      simpa using this

theorem rep_has {c : Cache K V} {ps : List Nat} (h : Rep c ps) {p : Nat} (hp : p ∈ ps) {n : Node K V}
    (hn : c.mem p = some n) : c.map.get n.key = some p := (h.map _ _).2 ⟨hp, n, hn, rfl⟩

theorem validate_ok {c : Cache K V} {ps : List Nat} (h : Rep c ps) : validate c = some c := by
  unfold validate
  by_cases he : c.map.isEmpty = true
  · rw [if_pos he]
    have hm : c.map = [] := List.isEmpty_iff.1 he
    have h0 := h.len
    rw [hm] at h0
    have : ps = [] := List.eq_nil_of_length_eq_zero h0.symm
    rw [if_pos ⟨by rw [h.head, this]; rfl, by rw [h.tail, this]; rfl⟩]
  · rw [if_neg he]
    have := validateLoop_ok (map := c.map) ps [] (c.map.length + 1) (by simpa using h.links)
      (by intro p hp n hn; simp [AMap.has, rep_has h hp hn]) (by have := h.len; omega)
    rw [h.head]
    simp only [List.getLast?_nil, List.length_nil, List.nil_append] at this
    rw [this]
    simp only
    rw [if_pos ⟨h.len.symm, h.tail.symm⟩]

/-- The keys of the represented list are distinct, and lookups find the node's value. -/
theorem rep_keys {c : Cache K V} {ps : List Nat} (h : Rep c ps) {p q : Nat} (hp : p ∈ ps) (hq : q ∈ ps)
    {n m : Node K V} (hn : c.mem p = some n) (hm : c.mem q = some m) (hk : n.key = m.key) : p = q := by
  have h1 := rep_has h hp hn
  have h2 := rep_has h hq hm
  rw [hk, h2] at h1
  simpa using h1.symm

theorem lookup_none_of {l : List (K × V)} {k : K} (h : ∀ e ∈ l, e.1 ≠ k) : Spec.lookup l k = none := by
  unfold Spec.lookup
  rw [List.find?_eq_none.2]
  · rfl
  · intro e he; simpa using h e he

theorem without_eq {l : List (K × V)} {k : K} (h : ∀ e ∈ l, e.1 ≠ k) : Spec.without l k = l := by
  unfold Spec.without
  rw [List.filter_eq_self]
  intro e he; simpa using h e he

theorem mem_ents {mem : Mem K V} {ps : List Nat} {e : K × V} :
    e ∈ ents mem ps ↔ ∃ p ∈ ps, ∃ n, mem p = some n ∧ n.key = e.1 ∧ n.value = e.2 := by
  unfold ents
  rw [List.mem_filterMap]
  constructor
  · rintro ⟨p, hp, he⟩; exact ⟨p, hp, entry_some.1 he⟩
  · rintro ⟨p, hp, hn⟩; exact ⟨p, hp, entry_some.2 hn⟩

/-- What the represented list looks like around a mapped key. -/
theorem rep_split {c : Cache K V} {ps : List Nat} (h : Rep c ps) {k : K} {p : Nat}
    (hk : c.map.get k = some p) :
    ∃ a b n, ps = a ++ p :: b ∧ c.mem p = some n ∧ n.key = k ∧
      ents c.mem ps = ents c.mem a ++ (k, n.value) :: ents c.mem b ∧
      Spec.lookup (ents c.mem ps) k = some n.value ∧
      Spec.without (ents c.mem ps) k = ents c.mem (a ++ b) ∧
      (ents c.mem ps).findIdx? (fun e => e.1 = k) = some a.length := by
  obtain ⟨hp, n, hn, hkey⟩ := (h.map k p).1 hk
  obtain ⟨a, b, hab⟩ := List.append_of_mem hp
  have hpa : p ∉ a ∧ p ∉ b := by
    have := h.nodup; rw [hab] at this
    have h1 := List.nodup_append.1 this
    have h2 := List.nodup_cons.1 h1.2.1
    exact ⟨fun hp => h1.2.2 p hp p (by simp) rfl, h2.1⟩
  have hents : ents c.mem ps = ents c.mem a ++ (k, n.value) :: ents c.mem b := by
    rw [hab, ents_append, ents_cons hn, hkey]
  have hne : ∀ e ∈ ents c.mem (a ++ b), e.1 ≠ k := by
    intro e he hek
    obtain ⟨q, hq, m, hm, hmk, _⟩ := mem_ents.1 he
    have hqps : q ∈ ps := by rw [hab]; rcases List.mem_append.1 hq with h | h <;> simp [h]
    have : q = p := rep_keys h hqps hp hm hn (by rw [hmk, hek, hkey])
    subst this
    rcases List.mem_append.1 hq with h | h
    · exact hpa.1 h
    · exact hpa.2 h
  have hnea : ∀ e ∈ ents c.mem a, e.1 ≠ k := fun e he => hne e (by rw [ents_append]; simp [he])
  have hneb : ∀ e ∈ ents c.mem b, e.1 ≠ k := fun e he => hne e (by rw [ents_append]; simp [he])
  have hlena : (ents c.mem a).length = a.length :=
    ents_length fun q hq => links_alloc h.links (by rw [hab]; simp [hq])
  refine ⟨a, b, n, hab, hn, hkey, hents, ?_, ?_, ?_⟩
  · rw [hents]; unfold Spec.lookup
    rw [List.find?_append, List.find?_eq_none.2 (fun e he => by simpa using hnea e he)]
    simp
  · rw [hents]
    have h1 := without_eq hnea
    have h2 := without_eq hneb
    unfold Spec.without at h1 h2 ⊢
    rw [List.filter_append, List.filter_cons]
    simp only [ne_eq, not_true_eq_false, decide_false, Bool.false_eq_true, if_false]
    rw [h1, h2, ents_append]
  · rw [hents, List.findIdx?_append]
    have : (ents c.mem a).findIdx? (fun e => decide (e.1 = k)) = none := by
      rw [List.findIdx?_eq_none_iff]; intro e he; simpa using hnea e he
    rw [this]
    simp [List.findIdx?_cons, hlena]

theorem rep_miss {c : Cache K V} {ps : List Nat} (h : Rep c ps) {k : K} (hk : c.map.get k = none) :
    ∀ e ∈ ents c.mem ps, e.1 ≠ k := by
  intro e he hek
  obtain ⟨p, hp, n, hn, hnk, _⟩ := mem_ents.1 he
  have := rep_has h hp hn
  rw [hnk, hek, hk] at this
  cases this

/-- Moving a mapped node to the front (possibly after changing its value). -/
theorem moveToHead_ok {c : Cache K V} {a : List Nat} {p : Nat} {b : List Nat}
    (h : Rep c (a ++ p :: b)) :
    ∃ c', moveToHead c p = some c' ∧ Rep c' (p :: (a ++ b)) ∧ c'.capacity = c.capacity ∧
      (∀ q, entry c'.mem q = entry c.mem q) := by
  have e1 := removeFromList_eq h.links h.nodup h.head h.tail
  have l1 := detach_links h.links h.nodup
  have nd := h.nodup
  have nd' : (p :: (a ++ b)).Nodup := (List.perm_middle.nodup_iff).1 nd
  have ndc := List.nodup_cons.1 nd'
  obtain ⟨n, hn, _⟩ := h.links a p b rfl
  have hn' : ∃ m, detachMem c.mem a b p = some m := by simp [detachMem, hn]
  obtain ⟨m, hm⟩ := hn'
  have e2 := addToHead_eq (c := withList c (detachMem c.mem a b) (a ++ b)) l1 ndc.1 hm rfl rfl
  have l2 := attach_links l1 ndc.1 ndc.2 hm
  refine ⟨withList c (attachMem (detachMem c.mem a b) p (a ++ b)) (p :: (a ++ b)), (by unfold moveToHead; rw [e1]; exact e2), ?_, rfl, ?_⟩
  · have hent : ∀ q, entry (attachMem (detachMem c.mem a b) p (a ++ b)) q = entry c.mem q := by
      intro q; rw [attach_entry, detach_entry]
    have hmem : ∀ q, q ∈ p :: (a ++ b) ↔ q ∈ a ++ p :: b := fun q =>
      (List.perm_middle (a := p) (l₁ := a) (l₂ := b)).symm.mem_iff
    simp only [withList]
    constructor
    · exact l2
    · exact nd'
    · rfl
    · rfl
    · intro k q
      simp only
      rw [h.map, hmem]
      have hq := hent q
      unfold entry at hq
      constructor
      · rintro ⟨hin, x, hx, hxk⟩
        refine ⟨hin, ?_⟩
        rw [hx] at hq
        cases hy : attachMem (detachMem c.mem a b) p (a ++ b) q with
        | none => rw [hy] at hq; simp at hq
        | some y => rw [hy] at hq; simp at hq; exact ⟨y, rfl, by rw [hq.1, hxk]⟩
      · rintro ⟨hin, y, hy, hyk⟩
        refine ⟨hin, ?_⟩
        rw [hy] at hq
        cases hx : c.mem q with
        | none => rw [hx] at hq; simp at hq
        | some x => rw [hx] at hq; simp at hq; exact ⟨x, rfl, by rw [← hq.1, hyk]⟩
    · exact h.wf
    · have := h.len; simp at this ⊢; omega
    · intro q hq
      rw [hmem]
      apply h.leak
      intro h0
      exact hq ((attach_none _ _ _ _).2 ((detach_none _ _ _ _).2 h0))
    · have := h.cap; simp at this ⊢; omega
  · intro q; simp only [withList]; rw [attach_entry, detach_entry]

/-- Unlinking and freeing a mapped node. -/
theorem unlink_ok {c : Cache K V} {a : List Nat} {p : Nat} {b : List Nat} (h : Rep c (a ++ p :: b))
    {n : Node K V} (hn : c.mem p = some n) (c0 : Cache K V)
    (hc0 : c0 = c ∨ c0 = { c with map := c.map.erase n.key }) :
    ∃ c1 n1 mem, removeFromList c0 p = some c1 ∧ c1.mem p = some n1 ∧ n1.value = n.value ∧
      n1.key = n.key ∧ free c1.mem p = some mem ∧ c1.map = c0.map ∧
      Rep { c1 with mem := mem, map := c.map.erase n.key } (a ++ b) ∧ c1.capacity = c.capacity ∧
      (∀ q, q ≠ p → entry mem q = entry c.mem q) := by
  have hc0m : c0.mem = c.mem := by rcases hc0 with rfl | rfl <;> rfl
  have hc0h : c0.head = c.head := by rcases hc0 with rfl | rfl <;> rfl
  have hc0t : c0.tail = c.tail := by rcases hc0 with rfl | rfl <;> rfl
  have hc0c : c0.capacity = c.capacity := by rcases hc0 with rfl | rfl <;> rfl
  have e1 := removeFromList_eq (c := c0) (by rw [hc0m]; exact h.links) h.nodup
    (by rw [hc0h]; exact h.head) (by rw [hc0t]; exact h.tail)
  rw [hc0m] at e1
  have l1 := detach_links h.links h.nodup
  have hm : ∃ m, detachMem c.mem a b p = some m ∧ m.value = n.value ∧ m.key = n.key := by
    simp [detachMem, hn]
  obtain ⟨m, hm, hv, hkk⟩ := hm
  have nd' : (p :: (a ++ b)).Nodup := (List.perm_middle.nodup_iff).1 h.nodup
  have ndc := List.nodup_cons.1 nd'
  refine ⟨_, m, fun q => if q = p then none else detachMem c.mem a b q, e1, hm, hv, hkk, ?_, rfl, ?_, hc0c, ?_⟩
  · unfold free; simp only [withList, hm]
  · have hmem : ∀ q, q ∈ p :: (a ++ b) ↔ q ∈ a ++ p :: b := fun q =>
      (List.perm_middle (a := p) (l₁ := a) (l₂ := b)).symm.mem_iff
    have hmapp : c.map.get n.key = some p := rep_has h (by simp) hn
    simp only [withList]
    constructor
    · refine links_congr l1 ?_
      intro q hq x hx
      have : q ≠ p := by rintro rfl; exact ndc.1 hq
      exact ⟨x, by simp [this, hx], rfl, rfl⟩
    · exact ndc.2
    · rfl
    · rfl
    · intro k q
      simp only [AMap.get_erase]
      constructor
      · intro hg
        split at hg
        · cases hg
        · next hne =>
          obtain ⟨hin, x, hx, hxk⟩ := (h.map k q).1 hg
          have hqp : q ≠ p := by
            rintro rfl; rw [hn] at hx; cases hx; exact hne hxk
          refine ⟨?_, ?_⟩
          · have := (hmem q).2 hin
            rcases List.mem_cons.1 this with h | h
            · exact absurd h hqp
            · exact h
          · have hd : ∃ y, detachMem c.mem a b q = some y ∧ y.key = x.key := by simp [detachMem, hx]
            obtain ⟨y, hy, hyk⟩ := hd
            exact ⟨y, by simp [hqp, hy], by rw [hyk, hxk]⟩
      · rintro ⟨hin, y, hy, hyk⟩
        have hqp : q ≠ p := by rintro rfl; exact ndc.1 hin
        simp only [if_neg hqp] at hy
        have hd : ∃ x, c.mem q = some x ∧ x.key = y.key := by
          unfold detachMem at hy
          cases hx : c.mem q with
          | none => rw [hx] at hy; simp at hy
          | some x => rw [hx] at hy; simp at hy; exact ⟨x, rfl, by rw [← hy]⟩
        obtain ⟨x, hx, hxk⟩ := hd
        have hget := (h.map k q).2 ⟨(hmem q).1 (List.mem_cons_of_mem _ hin), x, hx, by rw [hxk, hyk]⟩
        rw [if_neg]
        · exact hget
        · rintro rfl
          rw [hmapp] at hget
          exact hqp (by simpa using hget.symm)
    · exact AMap.wf_erase h.wf _
    · have hk : n.key ∈ c.map.keys := (AMap.mem_keys_iff _ _).2 ⟨p, hmapp⟩
      have h1 := AMap.length_erase_of_mem h.wf hk
      have h2 := h.len
      simp only at h1 h2 ⊢
      simp at h2 ⊢
      omega
    · intro q hq
      simp only at hq
      by_cases hqp : q = p
      · simp [hqp] at hq
      · rw [if_neg hqp] at hq
        have := (hmem q).2 (h.leak q (fun h0 => hq ((detach_none _ _ _ _).2 h0)))
        rcases List.mem_cons.1 this with h | h
        · exact absurd h hqp
        · exact h
    · have := h.cap
      simp only [hc0c]
      simp at this ⊢; omega
  · intro q hq
    have := detach_entry c.mem a b q
    unfold entry at this ⊢
    simp only [if_neg hq]
    exact this

/-- Allocating and linking a new entry. -/
theorem link_ok {c : Cache K V} {ps : List Nat} (h : Rep c ps) {k : K} (v : V) {addr : Nat}
    (hk : c.map.get k = none) (ha : c.mem addr = none) (hcap : ps.length + 1 ≤ c.capacity) :
    ∃ c', addToHead { c with
        mem := fun q => if q = addr then some { key := k, value := v, prev := none, next := none } else c.mem q,
        map := c.map.set k addr } addr = some c' ∧
      Rep c' (addr :: ps) ∧ c'.capacity = c.capacity ∧
      ents c'.mem (addr :: ps) = (k, v) :: ents c.mem ps := by
  have hap : addr ∉ ps := by
    intro hin
    obtain ⟨n, hn⟩ := links_alloc h.links hin
    rw [ha] at hn; cases hn
  have l0 : Links (fun q => if q = addr then some ({ key := k, value := v, prev := none, next := none } : Node K V)
      else c.mem q) ps := by
    refine links_congr h.links ?_
    intro q hq n hn
    have : q ≠ addr := by rintro rfl; exact hap hq
    exact ⟨n, by simp [this, hn], rfl, rfl⟩
  have e1 := addToHead_eq (c := { c with
        mem := fun q => if q = addr then some { key := k, value := v, prev := none, next := none } else c.mem q,
        map := c.map.set k addr }) (p := addr) l0 hap (n := { key := k, value := v, prev := none, next := none })
        (by simp) h.head h.tail
  have l1 := attach_links l0 hap h.nodup (n := { key := k, value := v, prev := none, next := none }) (by simp)
  refine ⟨_, e1, ?_, rfl, ?_⟩
  · simp only [withList]
    constructor
    · exact l1
    · exact List.nodup_cons.2 ⟨hap, h.nodup⟩
    · rfl
    · rfl
    · intro k' q
      simp only [AMap.get_set]
      have hent := attach_entry (fun q => if q = addr then some ({ key := k, value := v, prev := none, next := none } : Node K V)
        else c.mem q) addr ps q
      unfold entry at hent
      simp only at hent
      generalize hA : attachMem (fun q => if q = addr then some ({ key := k, value := v, prev := none, next := none } : Node K V)
        else c.mem q) addr ps q = A at hent
      by_cases hq : q = addr
      · subst hq
        simp only [if_true, Option.map_some] at hent
        cases A with
        | none => simp at hent
        | some x =>
          simp at hent
          constructor
          · intro hg
            split at hg
            · next he => exact ⟨by simp, x, rfl, by rw [hent.1, he]⟩
            · have := ((h.map k' q).1 hg).1; exact absurd this hap
          · rintro ⟨_, y, hy, hyk⟩
            simp at hy; subst hy
            rw [if_pos (by rw [← hyk, hent.1])]
      · simp only [if_neg hq] at hent
        constructor
        · intro hg
          split at hg
          · simp at hg; exact absurd hg.symm hq
          · obtain ⟨hin, n, hn, hnk⟩ := (h.map k' q).1 hg
            refine ⟨List.mem_cons_of_mem _ hin, ?_⟩
            rw [hn] at hent
            cases A with
            | none => simp at hent
            | some x => simp at hent; exact ⟨x, rfl, by rw [hent.1, hnk]⟩
        · rintro ⟨hin, x, hx, hxk⟩
          subst hx
          have hin' : q ∈ ps := by
            rcases List.mem_cons.1 hin with h | h
            · exact absurd h hq
            · exact h
          cases hn : c.mem q with
          | none => rw [hn] at hent; simp at hent
          | some n =>
            rw [hn] at hent; simp at hent
            have hg := (h.map k' q).2 ⟨hin', n, hn, by rw [← hent.1, hxk]⟩
            rw [if_neg]
            · exact hg
            · rintro rfl; rw [hk] at hg; cases hg
    · exact AMap.wf_set h.wf _ _
    · simp only
      rw [AMap.length_set_of_not_mem ((AMap.get_eq_none_iff _ _).1 hk)]
      have := h.len; simp; omega
    · intro q hq
      by_cases hqa : q = addr
      · simp [hqa]
      · refine List.mem_cons_of_mem _ (h.leak q ?_)
        intro h0
        apply hq
        rw [attach_none]; simp [hqa, h0]
    · simp only [List.length_cons]; omega
  · simp only [withList]
    have hent : ∀ q, entry (attachMem (fun q => if q = addr then some ({ key := k, value := v, prev := none, next := none } : Node K V)
        else c.mem q) addr ps) q = if q = addr then some (k, v) else entry c.mem q := by
      intro q; rw [attach_entry]; unfold entry
      by_cases hq : q = addr <;> simp [hq]
    have h1 : ents (attachMem (fun q => if q = addr then some ({ key := k, value := v, prev := none, next := none } : Node K V)
        else c.mem q) addr ps) ps = ents c.mem ps := by
      apply ents_congr
      intro q hq
      rw [hent, if_neg]
      rintro rfl; exact hap hq
    simp only [ents, List.filterMap_cons, hent, if_true]
    simp only [ents] at h1
    rw [← h1]

theorem vals_nodup {m : AMap K Nat} (wf : m.WF)
    (inj : ∀ e ∈ m, ∀ e' ∈ m, e.2 = e'.2 → e.1 = e'.1) : (m.map (·.2)).Nodup := by
  induction m with
  | nil => simp
  | cons e m ih =>
    have hw := AMap.wf_cons.1 wf
    simp only [List.map_cons, List.nodup_cons]
    refine ⟨?_, ih hw.2 (fun x hx y hy => inj x (List.mem_cons_of_mem _ hx) y (List.mem_cons_of_mem _ hy))⟩
    intro hin
    obtain ⟨e', he', h2⟩ := List.mem_map.1 hin
    have := inj e (by simp) e' (List.mem_cons_of_mem _ he') h2.symm
    apply hw.1
    rw [this]
    exact List.mem_map_of_mem (f := (·.1)) he'

theorem free_all : ∀ (m : AMap K Nat) (mem : Mem K V),
    (∀ e ∈ m, ∃ n, mem e.2 = some n) → (m.map (·.2)).Nodup →
    ∃ mem', m.foldlM (fun mem e => free mem e.2) mem = some mem' ∧
      ∀ q, mem' q = if q ∈ m.map (·.2) then none else mem q := by
  intro m
  induction m with
  | nil => intro mem _ _; exact ⟨mem, rfl, by simp⟩
  | cons e m ih =>
    intro mem hall nd
    obtain ⟨n, hn⟩ := hall e (by simp)
    simp only [List.map_cons, List.nodup_cons] at nd
    obtain ⟨mem', h1, h2⟩ := ih (fun q => if q = e.2 then none else mem q) (by
      intro e' he'
      obtain ⟨n', hn'⟩ := hall e' (List.mem_cons_of_mem _ he')
      have : e'.2 ≠ e.2 := by
        intro h; exact nd.1 (h ▸ List.mem_map_of_mem (f := (·.2)) he')
      exact ⟨n', by simp [this, hn']⟩) nd.2
    refine ⟨mem', ?_, ?_⟩
    · simp only [List.foldlM_cons, free, hn]
      exact h1
    · intro q
      rw [h2 q]
      by_cases hq : q = e.2
      · simp [hq]
      · simp only [List.map_cons, List.mem_cons, hq, false_or, if_false]

theorem rep_new (cap : Nat) : Rep (new cap : Cache K V) [] := by
  constructor
  · intro a p b h; simp at h
  · simp
  · rfl
  · rfl
  · intro k p; simp [new, AMap.get]
  · simp [new, AMap.WF, AMap.keys]
  · rfl
  · intro p h; exact absurd rfl h
  · simp

theorem clear_ok {c : Cache K V} {ps : List Nat} (h : Rep c ps) :
    clear c = some (new c.capacity) := by
  have hnode : ∀ e ∈ c.map, e.2 ∈ ps ∧ ∃ n, c.mem e.2 = some n ∧ n.key = e.1 := by
    intro e he
    exact (h.map e.1 e.2).1 (AMap.get_of_mem h.wf he)
  have hvals : (c.map.map (·.2)).Nodup := by
    apply vals_nodup h.wf
    intro e he e' he' heq
    obtain ⟨_, n, hn, hk⟩ := hnode e he
    obtain ⟨_, n', hn', hk'⟩ := hnode e' he'
    rw [heq, hn'] at hn
    cases hn
    rw [← hk, hk']
  obtain ⟨mem', h1, h2⟩ := free_all c.map c.mem
    (fun e he => by obtain ⟨_, n, hn, _⟩ := hnode e he; exact ⟨n, hn⟩) hvals
  have hmem : mem' = fun _ => none := by
    funext q
    rw [h2 q]
    split
    · rfl
    · next hq =>
      cases hc : c.mem q with
      | none => rfl
      | some n =>
        exfalso
        apply hq
        have hg := rep_has h (h.leak q (by rw [hc]; simp)) hc
        exact List.mem_map.2 ⟨(n.key, q), AMap.mem_of_get hg, rfl⟩
  unfold clear
  rw [h1]
  subst hmem
  rfl

theorem rankLoop_ok {mem : Mem K V} (target : Nat) (rest : List Nat) :
    ∀ (done : List Nat) (fuel : Nat), Links mem (done ++ rest) → rest.length ≤ fuel → target ∈ rest →
      rankLoop mem target fuel rest.head? done.length =
        some ((rest.findIdx? (fun p => p = target)).map (· + done.length)) := by
  induction rest with
  | nil => intro _ _ _ _ h; simp at h
  | cons p rest ih =>
    intro done fuel hl hf ht
    cases fuel with
    | zero => simp at hf
    | succ fuel =>
      obtain ⟨n, hn, hp, hx⟩ := hl done p rest rfl
      simp only [List.head?_cons, rankLoop, hn, hx]
      by_cases he : p = target
      · simp [he, List.findIdx?_cons]
      · rw [if_neg he]
        have ht' : target ∈ rest := by
          rcases List.mem_cons.1 ht with h | h
          · exact absurd h.symm he
          · exact h
        have := ih (done ++ [p]) fuel (by simpa using hl) (by simp at hf; omega) ht'
        simp only [List.length_append, List.length_cons, List.length_nil, Nat.zero_add] at this
        rw [this]
        simp [List.findIdx?_cons, he]
        congr 1
        funext x
        simp only [Function.comp]
        omega

theorem find_split {a : List Nat} {p : Nat} {b : List Nat} (h : p ∉ a) :
    (a ++ p :: b).findIdx? (fun q => decide (q = p)) = some a.length := by
  rw [List.findIdx?_append]
  have : a.findIdx? (fun q => decide (q = p)) = none := by
    rw [List.findIdx?_eq_none_iff]; intro q hq
    have : q ≠ p := by rintro rfl; exact h hq
    simpa using this
  rw [this]
  simp [List.findIdx?_cons]

/-- Updating the value of a live node. -/
theorem setValue_ok {c : Cache K V} {ps : List Nat} (h : Rep c ps) {p : Nat} {n : Node K V}
    (hn : c.mem p = some n) (v : V) :
    ∃ mem, modify c.mem p (fun m => { m with value := v }) = some mem ∧
      Rep { c with mem := mem } ps ∧
      ∀ q, entry mem q = if q = p then some (n.key, v) else entry c.mem q := by
  refine ⟨_, by simp only [modify, hn]; rfl, ?_, ?_⟩
  · constructor
    · refine links_congr h.links ?_
      intro q _ m hm
      by_cases hq : q = p
      · subst hq; rw [hn] at hm; cases hm
        exact ⟨{ n with value := v }, by simp, rfl, rfl⟩
      · exact ⟨m, by simp [hq, hm], rfl, rfl⟩
    · exact h.nodup
    · exact h.head
    · exact h.tail
    · intro k q
      simp only
      rw [h.map]
      by_cases hq : q = p
      · subst hq; simp [hn]
      · simp [hq]
    · exact h.wf
    · exact h.len
    · intro q hq
      apply h.leak
      intro h0
      apply hq
      have : q ≠ p := by rintro rfl; rw [hn] at h0; cases h0
      simp [this, h0]
    · exact h.cap
  · intro q
    unfold entry
    by_cases hq : q = p
    · subst hq; simp
    · simp [hq]

theorem ents_ext {mem mem' : Mem K V} (h : ∀ q, entry mem' q = entry mem q) (ps : List Nat) :
    ents mem' ps = ents mem ps := ents_congr fun q _ => h q

/-- One call on a represented cache succeeds and does what the list specification says. -/
theorem step_ok {c : Cache K V} {ps : List Nat} (h : Rep c ps) (o : Op K V) (ha : AllocOk c o) :
    ∃ c' ps', step c o = some (c', (Spec.step c.capacity (ents c.mem ps) o).2) ∧ Rep c' ps' ∧
      c'.capacity = c.capacity ∧ ents c'.mem ps' = (Spec.step c.capacity (ents c.mem ps) o).1 := by
  have hlen : (ents c.mem ps).length = ps.length := ents_length fun q hq => links_alloc h.links hq
  have hlast : (ents c.mem ps).getLast? = ps.getLast?.bind (entry c.mem) :=
    ents_getLast fun q hq => links_alloc h.links hq
  cases o with
  | contains k =>
    refine ⟨c, ps, ?_, h, rfl, rfl⟩
    simp only [step, Spec.step]
    rcases Option.eq_none_or_eq_some (c.map.get k) with hk | ⟨p, hk⟩
    · rw [lookup_none_of (rep_miss h hk)]; simp [AMap.has, hk]
    · obtain ⟨a, b, n, _, _, _, _, h5, _⟩ := rep_split h hk
      rw [h5]; simp [AMap.has, hk]
  | len =>
    refine ⟨c, ps, ?_, h, rfl, rfl⟩
    simp only [step, Spec.step, hlen, h.len]
  | clear =>
    refine ⟨new c.capacity, [], ?_, rep_new _, rfl, rfl⟩
    simp only [step, clear_ok h, Spec.step]; rfl
  | peek k =>
    refine ⟨c, ps, ?_, h, rfl, rfl⟩
    simp only [step, Spec.step, peek]
    rcases Option.eq_none_or_eq_some (c.map.get k) with hk | ⟨p, hk⟩
    · rw [lookup_none_of (rep_miss h hk)]; simp [hk]
    · obtain ⟨a, b, n, _, hn, _, _, h5, _⟩ := rep_split h hk
      rw [h5]; simp [hk, hn]
  | peekLru =>
    refine ⟨c, ps, ?_, h, rfl, rfl⟩
    simp only [step, Spec.step, peekLru, hlast, h.tail]
    rcases Option.eq_none_or_eq_some ps.getLast? with hk | ⟨p, hk⟩
    · simp [hk]
    · obtain ⟨n, hn⟩ := links_alloc h.links (mem_of_getLast? hk)
      simp [hk, entry, hn]
  | rank k =>
    refine ⟨c, ps, ?_, h, rfl, rfl⟩
    simp only [step, Spec.step, recencyRank]
    rcases Option.eq_none_or_eq_some (c.map.get k) with hk | ⟨p, hk⟩
    · have : (ents c.mem ps).findIdx? (fun e => decide (e.1 = k)) = none := by
        rw [List.findIdx?_eq_none_iff]; intro e he; simpa using rep_miss h hk e he
      rw [this]; simp [hk]
    · obtain ⟨a, b, n, hab, hn, _, _, _, _, h7⟩ := rep_split h hk
      rw [h7]
      simp only [hk]
      have hpa : p ∉ a := by
        have := h.nodup; rw [hab] at this
        intro hp
        exact (List.nodup_append.1 this).2.2 p hp p (by simp) rfl
      have hr := rankLoop_ok (mem := c.mem) p ps [] (c.map.length + 1) (by simpa using h.links)
        (by have := h.len; omega) (by rw [hab]; simp)
      simp only [List.length_nil] at hr
      rw [h.head, hr, hab, find_split hpa]
      rfl
  | touch k =>
    simp only [step, Spec.step, touch]
    rcases Option.eq_none_or_eq_some (c.map.get k) with hk | ⟨p, hk⟩
    · rw [lookup_none_of (rep_miss h hk)]
      simp only [hk]
      exact ⟨c, ps, rfl, h, rfl, rfl⟩
    · obtain ⟨a, b, n, hab, hn, hkey, h4, h5, h6, _⟩ := rep_split h hk
      rw [h5]
      simp only [hk, h6]
      rw [hab] at h
      obtain ⟨c', hm, hr, hc, he⟩ := moveToHead_ok h
      refine ⟨c', p :: (a ++ b), ?_, hr, hc, ?_⟩
      · simp only [hm, Option.bind_eq_bind, Option.bind_some, validate_ok hr]; rfl
      · rw [ents_ext he, ents_cons hn, hkey]
  | get k =>
    simp only [step, Spec.step, get]
    rcases Option.eq_none_or_eq_some (c.map.get k) with hk | ⟨p, hk⟩
    · rw [lookup_none_of (rep_miss h hk)]
      simp only [hk]
      exact ⟨c, ps, rfl, h, rfl, rfl⟩
    · obtain ⟨a, b, n, hab, hn, hkey, h4, h5, h6, _⟩ := rep_split h hk
      rw [h5]
      simp only [hk, h6]
      rw [hab] at h
      obtain ⟨c', hm, hr, hc, he⟩ := moveToHead_ok h
      have hpe : entry c'.mem p = some (n.key, n.value) := by rw [he]; simp [entry, hn]
      obtain ⟨n', hn', _, hv⟩ := entry_some.1 hpe
      refine ⟨c', p :: (a ++ b), ?_, hr, hc, ?_⟩
      · simp only [hm, Option.bind_eq_bind, Option.bind_some, hn', hv]; rfl
      · rw [ents_ext he, ents_cons hn, hkey]
  | remove k =>
    simp only [step, Spec.step, remove]
    rcases Option.eq_none_or_eq_some (c.map.get k) with hk | ⟨p, hk⟩
    · rw [lookup_none_of (rep_miss h hk), without_eq (rep_miss h hk)]
      simp only [hk]
      exact ⟨c, ps, rfl, h, rfl, rfl⟩
    · obtain ⟨a, b, n, hab, hn, hkey, h4, h5, h6, _⟩ := rep_split h hk
      rw [h5]
      simp only [hk, h6]
      rw [hab] at h
      obtain ⟨c1, n1, mem, e1, e2, e3, _, e5, e6, e7, e8, e9⟩ := unlink_ok h hn
        { c with map := c.map.erase k } (Or.inr (by rw [hkey]))
      have hpab : p ∉ a ++ b := (List.nodup_cons.1 ((List.perm_middle.nodup_iff).1 h.nodup)).1
      rw [hkey] at e7
      have e6' : c1.map = c.map.erase k := e6
      refine ⟨{ c1 with mem := mem }, a ++ b, ?_, ?_, e8, ?_⟩
      · simp only [e1, Option.bind_eq_bind, Option.bind_some, e2, e5]
        have : ({ c1 with mem := mem } : Cache K V) = { c1 with mem := mem, map := c.map.erase k } := by
          rw [← e6']
        rw [this, validate_ok e7]
        simp [e3]
      · have : ({ c1 with mem := mem } : Cache K V) = { c1 with mem := mem, map := c.map.erase k } := by
          rw [← e6']
        rw [this]; exact e7
      · apply ents_congr
        intro q hq
        exact e9 q (by rintro rfl; exact hpab hq)
  | popLru =>
    simp only [step, Spec.step, popLru, hlast, h.tail]
    rcases List.eq_nil_or_concat ps with hps | ⟨a, p, hps⟩
    · subst hps
      exact ⟨c, [], rfl, h, rfl, rfl⟩
    · rw [List.concat_eq_append] at hps
      subst hps
      obtain ⟨n, hn⟩ := links_alloc h.links (show p ∈ a ++ [p] by simp)
      simp only [List.getLast?_append, List.getLast?_singleton, Option.some_or, hn]
      obtain ⟨c1, n1, mem, e1, e2, e3, _, e5, e6, e7, e8, e9⟩ := unlink_ok h hn
        { c with map := c.map.erase n.key } (Or.inr rfl)
      have hpab : p ∉ a ++ [] := (List.nodup_cons.1 ((List.perm_middle.nodup_iff).1 h.nodup)).1
      have e6' : c1.map = c.map.erase n.key := e6
      have heq : ({ c1 with mem := mem } : Cache K V) = { c1 with mem := mem, map := c.map.erase n.key } := by
          rw [← e6']
      rw [List.append_nil] at e7 hpab
      have ht : c.tail = some p := by rw [h.tail]; simp
      rw [ht] at e1
      refine ⟨{ c1 with mem := mem }, a, ?_, by rw [heq]; exact e7, e8, ?_⟩
      · simp only [e1, Option.bind_eq_bind, Option.bind_some, e2, e5]
        rw [heq, validate_ok e7]
        simp [e3, entry, hn]
      · rw [ents_append, ents_cons hn]
        simp only [ents, List.filterMap_nil, List.dropLast_concat]
        apply ents_congr
        intro q hq
        exact e9 q (by rintro rfl; exact hpab hq)
  | insert k v addr =>
    simp only [step, Spec.step, insert]
    rcases Option.eq_none_or_eq_some (c.map.get k) with hk | ⟨p, hk⟩
    · rw [lookup_none_of (rep_miss h hk)]
      simp only [hk]
      by_cases hc0 : c.capacity = 0
      · simp only [if_pos hc0]
        exact ⟨c, ps, rfl, h, rfl, rfl⟩
      · simp only [if_neg hc0, hlen]
        by_cases hfull : c.map.length ≥ c.capacity
        · have hnl : ¬ ps.length < c.capacity := by have := h.len; omega
          simp only [if_pos hfull, if_neg hnl]
          rcases List.eq_nil_or_concat ps with hps | ⟨a, p, hps⟩
          · subst hps; simp at hnl; exact absurd hnl hc0
          · rw [List.concat_eq_append] at hps
            subst hps
            obtain ⟨n, hn⟩ := links_alloc h.links (show p ∈ a ++ [p] by simp)
            have ht : c.tail = some p := by rw [h.tail]; simp
            obtain ⟨c1, n1, mem, e1, e2, e3, e4, e5, e6, e7, e8, e9⟩ := unlink_ok h hn c (Or.inl rfl)
            rw [List.append_nil] at e7
            have hpa : p ∉ a ++ [] := (List.nodup_cons.1 ((List.perm_middle.nodup_iff).1 h.nodup)).1
            rw [List.append_nil] at hpa
            have hk' : (c.map.erase n.key).get k = none := by
              rw [AMap.get_erase]; split
              · rfl
              · exact hk
            have hfree : mem addr = none := by
              unfold AllocOk at ha
              have hfr : mem p = none := by
                unfold free at e5; rw [e2] at e5; simp at e5; rw [← e5]; simp
              rcases ha with ha | ⟨_, _, ha⟩
              · cases hq : mem addr with
                | none => rfl
                | some x =>
                  have hne : addr ≠ p := by rintro rfl; rw [hfr] at hq; cases hq
                  have := e9 addr hne
                  simp [entry, ha, hq] at this
              · rw [ht] at ha; cases ha; exact hfr
            have hcapa : a.length + 1 ≤ c1.capacity := by
              rw [e8]; have := h.cap; simp at this; exact this
            obtain ⟨c', l1, l2, l3, l4⟩ := link_ok e7 v hk' hfree hcapa
            refine ⟨c', addr :: a, ?_, l2, l3.trans e8, ?_⟩
            · simp only [ht, e1, Option.bind_eq_bind, Option.bind_some, e2, e5, e4, e6]
              rw [l1]
              simp only [Option.bind_some, validate_ok l2]
              rfl
            · rw [l4, ents_append, ents_cons hn]
              simp only [ents, List.filterMap_nil, List.dropLast_concat]
              congr 1
              apply ents_congr
              intro q hq
              exact e9 q (by rintro rfl; exact hpa hq)
        · have hnl : ps.length < c.capacity := by have := h.len; omega
          simp only [if_neg hfull, if_pos hnl]
          have hfree : c.mem addr = none := by
            unfold AllocOk at ha
            rcases ha with ha | ⟨_, ha, _⟩
            · exact ha
            · exact absurd ha hfull
          obtain ⟨c', l1, l2, l3, l4⟩ := link_ok h v hk hfree (by omega)
          refine ⟨c', addr :: ps, ?_, l2, l3, l4⟩
          simp only [Option.bind_eq_bind, Option.bind_some]
          rw [l1]
          simp only [Option.bind_some, validate_ok l2]
          rfl
    · obtain ⟨a, b, n, hab, hn, hkey, h4, h5, h6, _⟩ := rep_split h hk
      rw [h5]
      simp only [hk, h6, hn]
      rw [hab] at h
      obtain ⟨mem, m1, m2, m3⟩ := setValue_ok h hn v
      obtain ⟨c', hm, hr, hc, he⟩ := moveToHead_ok m2
      refine ⟨c', p :: (a ++ b), ?_, hr, hc, ?_⟩
      · simp only [m1, hm, Option.bind_eq_bind, Option.bind_some, validate_ok hr]; rfl
      · have hpab : p ∉ a ++ b := (List.nodup_cons.1 ((List.perm_middle.nodup_iff).1 h.nodup)).1
        rw [ents_ext he]
        have hpe : entry mem p = some (k, v) := by rw [m3]; simp [hkey]
        obtain ⟨n', hn', hk', hv'⟩ := entry_some.1 hpe
        simp only
        rw [ents_cons hn', hk', hv']
        congr 1
        apply ents_congr
        intro q hq
        rw [m3, if_neg]
        rintro rfl; exact hpab hq

theorem run_ok (os : List (Op K V)) : ∀ {c : Cache K V} {ps : List Nat}, Rep c ps → AllocsOk c os →
    ∃ c' ps', run c os = some (c', (Spec.run c.capacity (ents c.mem ps) os).2) ∧ Rep c' ps' ∧
      c'.capacity = c.capacity ∧ ents c'.mem ps' = (Spec.run c.capacity (ents c.mem ps) os).1 := by
  induction os with
  | nil => intro c ps h _; exact ⟨c, ps, rfl, h, rfl, rfl⟩
  | cons o os ih =>
    intro c ps h ha
    obtain ⟨c1, ps1, e1, e2, e3, e4⟩ := step_ok h o ha.1
    obtain ⟨c2, ps2, g1, g2, g3, g4⟩ := ih e2 (ha.2 _ _ e1)
    rw [e3, e4] at g1 g4
    refine ⟨c2, ps2, ?_, g2, g3.trans e3, ?_⟩
    · simp only [run, e1, g1, Spec.run]
    · simp only [g4, Spec.run]

/-! ## Property -/

/-- C06. Whatever the calls, the capacity and the addresses the allocator hands out, no call of the
pointer-linked LRU cache dereferences a dangling pointer, frees twice, loops or fails a debug assertion,
and the results are those of the list specification: most recent first, `get`, `insert` and `touch` move
to the front, `peek`, `contains` and `recency_rank` do not, and a full `insert` and `pop_lru` drop the
entry at the end. -/
theorem C06_lru_refines_list (cap : Nat) (os : List (Op K V)) (ha : AllocsOk (new cap) os) :
    ∃ c', run (new cap) os = some (c', (Spec.run cap [] os).2) := by
  obtain ⟨c', _, h, _⟩ := run_ok os (rep_new cap) ha
  exact ⟨c', h⟩

/-- C06: the map and the list agree in every reachable state. There is a duplicate-free list of addresses,
linked in both directions from `head` to `tail`, holding exactly the allocated nodes and exactly the
entries of the map, no longer than the capacity, and whose entries are the specification's list. -/
theorem C06_lru_list_and_map_agree (cap : Nat) (os : List (Op K V)) (ha : AllocsOk (new cap) os)
    (c' : Cache K V) (outs : List (Out K V)) (hr : run (new cap) os = some (c', outs)) :
    ∃ ps : List Nat, ps.Nodup ∧ c'.head = ps.head? ∧ c'.tail = ps.getLast? ∧
      (∀ a p b, ps = a ++ p :: b →
        ∃ n, c'.mem p = some n ∧ n.prev = a.getLast? ∧ n.next = b.head?) ∧
      (∀ p, c'.mem p ≠ none ↔ p ∈ ps) ∧
      (∀ k p, c'.map.get k = some p ↔ p ∈ ps ∧ ∃ n, c'.mem p = some n ∧ n.key = k) ∧
      ps.length = c'.map.length ∧ ps.length ≤ cap ∧
      ps.filterMap (fun p => (c'.mem p).map fun n => (n.key, n.value)) = (Spec.run cap [] os).1 := by
  obtain ⟨c2, ps, h1, h2, h3, h4⟩ := run_ok os (rep_new cap) ha
  rw [hr] at h1
  cases h1
  refine ⟨ps, h2.nodup, h2.head, h2.tail, h2.links, ?_, h2.map, h2.len.symm, ?_, h4⟩
  · intro p
    refine ⟨h2.leak p, fun hp => ?_⟩
    obtain ⟨n, hn⟩ := links_alloc h2.links hp
    rw [hn]; simp
  · have := h2.cap; rw [h3] at this; exact this

/-- Non-vacuity: a full cache of two entries evicts the least recently used one, here with the freed
address reused at once. -/
example :
    AllocsOk (new 2 : Cache Nat Nat)
      [.insert 1 10 7, .insert 2 20 9, .get 1, .insert 3 30 9, .contains 2, .rank 1, .popLru] ∧
    (Spec.run 2 [] [.insert 1 10 7, .insert 2 20 9, .get 1, .insert 3 30 9, .contains 2, .rank 1,
      (.popLru : Op Nat Nat)]).2 =
      [.val none, .val none, .val (some 10), .val none, .bool false, .optNat (some 1),
        .entry (some (1, 10))] := by
  exact ⟨allocsOkB_sound _ _ (by decide), by decide⟩

end Verif.Lru
