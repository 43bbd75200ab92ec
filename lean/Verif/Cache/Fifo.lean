import Verif.Base.AMap

/-!
# FIFO cache (`src/storage/disk/async_disk/cache/fifo.rs`), property C03

`Arc` reference counts are not modelled: the API only hands out plain borrows, so every
`Arc::try_unwrap` in the file is applied to the last reference (fifo.rs:393, 453, 464).
The `#[cfg(test)]` helpers are not modelled.
-/

namespace Verif.Fifo

variable {K V : Type} [DecidableEq K]

/-! ## Model -/

/-- `struct FIFOCache` (fifo.rs:285-292). -/
structure Cache (K V : Type) where
  capacity : Nat
  cache : AMap K V
  order : List K
  deriving Repr

/-- `FIFOCache::new` (fifo.rs:299-305). -/
def new (capacity : Nat) : Cache K V := { capacity, cache := [], order := [] }

/-- The loop of `evict_oldest` (fifo.rs:360-370). -/
def evictLoop (cache : AMap K V) : List K → AMap K V × List K
  | [] => (cache, [])
  | k :: rest => if cache.has k then (cache.erase k, rest) else evictLoop cache rest

/-- `evict_oldest` (fifo.rs:360-370). -/
def evictOldest (c : Cache K V) : Cache K V :=
  let p := evictLoop c.cache c.order
  { c with cache := p.1, order := p.2 }

/-- `insert` (fifo.rs:377-414). -/
def insert (c : Cache K V) (k : K) (v : V) : Cache K V × Option V :=
  if c.capacity = 0 then (c, none)
  else
    match c.cache.get k with
    | some old => ({ c with cache := c.cache.set k v }, some old)
    | none =>
      let c := if c.cache.length ≥ c.capacity then evictOldest c else c
      ({ c with order := c.order ++ [k], cache := c.cache.set k v }, none)

/-- `get` (fifo.rs:416-421). -/
def get (c : Cache K V) (k : K) : Option V := c.cache.get k

/-- `contains` (fifo.rs:423-427). -/
def contains (c : Cache K V) (k : K) : Bool := c.cache.has k

/-- `len` (fifo.rs:429-431; also `current_size`, 309-311). -/
def len (c : Cache K V) : Nat := c.cache.length

/-- `clear` (fifo.rs:437-440). -/
def clear (c : Cache K V) : Cache K V := { c with cache := [], order := [] }

/-- The loop of `pop_oldest` (fifo.rs:449-479). -/
def popLoop (cache : AMap K V) : List K → (AMap K V × List K) × Option (K × V)
  | [] => ((cache, []), none)
  | k :: rest =>
    match cache.get k with
    | some v => ((cache.erase k, rest), some (k, v))
    | none => popLoop cache rest

/-- `pop_oldest` (fifo.rs:447-480). -/
def popOldest (c : Cache K V) : Cache K V × Option (K × V) :=
  let p := popLoop c.cache c.order
  ({ c with cache := p.1.1, order := p.1.2 }, p.2)

/-- `peek_oldest` (fifo.rs:482-490). -/
def peekOldest (c : Cache K V) : Option (K × V) :=
  c.order.findSome? fun k => (c.cache.get k).map fun v => (k, v)

/-- `pop_oldest_batch` (fifo.rs:492-502). -/
def popBatch (c : Cache K V) : Nat → Cache K V × List (K × V)
  | 0 => (c, [])
  | n + 1 =>
    match popOldest c with
    | (c', some e) => let p := popBatch c' n; (p.1, e :: p.2)
    | (c', none) => (c', [])

/-- The loop of `age_rank` (fifo.rs:507-515). -/
def ageLoop (cache : AMap K V) (k : K) : List K → Nat → Option Nat
  | [], _ => none
  | k' :: rest, rank =>
    if cache.has k' then
      if k' = k then some rank else ageLoop cache k rest (rank + 1)
    else ageLoop cache k rest rank

/-- `age_rank` (fifo.rs:504-516). -/
def ageRank (c : Cache K V) (k : K) : Option Nat := ageLoop c.cache k c.order 0

/-- The calls of the public API. -/
inductive Op (K V : Type) where
  | insert (k : K) (v : V)
  | get (k : K)
  | contains (k : K)
  | len
  | clear
  | popOldest
  | peekOldest
  | popBatch (n : Nat)
  | ageRank (k : K)
  deriving Repr

/-- Results of calls. -/
inductive Out (K V : Type) where
  | unit
  | val (v : Option V)
  | bool (b : Bool)
  | nat (n : Nat)
  | optNat (n : Option Nat)
  | entry (e : Option (K × V))
  | entries (es : List (K × V))
  deriving Repr, DecidableEq

/-- One call. -/
def step (c : Cache K V) : Op K V → Cache K V × Out K V
  | .insert k v => let p := insert c k v; (p.1, .val p.2)
  | .get k => (c, .val (get c k))
  | .contains k => (c, .bool (contains c k))
  | .len => (c, .nat (len c))
  | .clear => (clear c, .unit)
  | .popOldest => let p := popOldest c; (p.1, .entry p.2)
  | .peekOldest => (c, .entry (peekOldest c))
  | .popBatch n => let p := popBatch c n; (p.1, .entries p.2)
  | .ageRank k => (c, .optNat (ageRank c k))

/-- A sequence of calls, and their results. -/
def run (c : Cache K V) : List (Op K V) → Cache K V × List (Out K V)
  | [] => (c, [])
  | o :: os => let p := step c o; let q := run p.1 os; (q.1, p.2 :: q.2)

/-! ## Specification: the list of live entries, earliest inserted first -/

namespace Spec

/-- The value of `k` in the list of live entries. -/
def lookup (l : List (K × V)) (k : K) : Option V := (l.find? (fun p => p.1 = k)).map (·.2)

/-- What a FIFO cache of capacity `cap` does to its list of live entries. -/
def step (cap : Nat) (l : List (K × V)) : Op K V → List (K × V) × Out K V
  | .insert k v =>
    if cap = 0 then (l, .val none)
    else match lookup l k with
      | some old => (l.map (fun p => if p.1 = k then (k, v) else p), .val (some old))
      | none => ((if l.length < cap then l else l.tail) ++ [(k, v)], .val none)
  | .get k => (l, .val (lookup l k))
  | .contains k => (l, .bool (lookup l k).isSome)
  | .len => (l, .nat l.length)
  | .clear => ([], .unit)
  | .popOldest => (l.tail, .entry l.head?)
  | .peekOldest => (l, .entry l.head?)
  | .popBatch n => (l.drop n, .entries (l.take n))
  | .ageRank k => (l, .optNat (l.findIdx? (fun p => p.1 = k)))

def run (cap : Nat) (l : List (K × V)) : List (Op K V) → List (K × V) × List (Out K V)
  | [] => (l, [])
  | o :: os => let p := step cap l o; let q := run cap p.1 os; (q.1, p.2 :: q.2)

end Spec

/-! ## Refinement -/

/-- The cache represents the list `l`. -/
structure Rel (c : Cache K V) (l : List (K × V)) : Prop where
  order : c.order = l.map (·.1)
  nodup : (l.map (·.1)).Nodup
  get : ∀ k, c.cache.get k = Spec.lookup l k
  wf : c.cache.WF
  len : c.cache.length = l.length
  cap : l.length ≤ c.capacity

theorem lookup_cons (p : K × V) (l : List (K × V)) (k : K) :
    Spec.lookup (p :: l) k = if p.1 = k then some p.2 else Spec.lookup l k := by
  unfold Spec.lookup
  by_cases h : p.1 = k <;> simp [List.find?, h]

theorem lookup_none_iff (l : List (K × V)) (k : K) :
    Spec.lookup l k = none ↔ k ∉ l.map (·.1) := by
  induction l with
  | nil => simp [Spec.lookup]
  | cons p l ih =>
    rw [lookup_cons]
    by_cases h : p.1 = k
    · simp [h]
    · rw [if_neg h, ih]; simp [Ne.symm h]

theorem lookup_snoc (l : List (K × V)) (k k' : K) (v : V) (h : k ∉ l.map (·.1)) :
    Spec.lookup (l ++ [(k, v)]) k' = if k = k' then some v else Spec.lookup l k' := by
  induction l with
  | nil => simp only [List.nil_append, lookup_cons]
  | cons p l ih =>
    simp only [List.cons_append, lookup_cons]
    simp only [List.map_cons, List.mem_cons, not_or] at h
    rw [ih h.2]
    by_cases h1 : p.1 = k'
    · rw [if_pos h1, if_pos h1, if_neg]; intro h2; exact h.1 (h2.trans h1.symm)
    · rw [if_neg h1, if_neg h1]

theorem map_fst_upd (l : List (K × V)) (k : K) (v : V) :
    (l.map (fun p => if p.1 = k then (k, v) else p)).map (·.1) = l.map (·.1) := by
  rw [List.map_map]
  apply List.map_congr_left
  intro p _
  simp only [Function.comp]
  split
  · next h => exact h.symm
  · rfl

theorem lookup_upd (l : List (K × V)) (k k' : K) (v : V) (h : k ∈ l.map (·.1)) :
    Spec.lookup (l.map (fun p => if p.1 = k then (k, v) else p)) k' =
      if k = k' then some v else Spec.lookup l k' := by
  induction l with
  | nil => simp at h
  | cons p l ih =>
    simp only [List.map_cons, lookup_cons]
    by_cases h1 : p.1 = k
    · subst h1
      simp only [if_true]
      by_cases h2 : p.1 = k'
      · simp [h2]
      · simp only [if_neg h2]
        clear ih h
        induction l with
        | nil => rfl
        | cons q l ih =>
          simp only [List.map_cons, lookup_cons]
          rw [ih]
          by_cases h3 : q.1 = p.1
          · simp [h3, h2]
          · simp [h3]
    · have hk : k ∈ l.map (·.1) := by
        simp only [List.map_cons, List.mem_cons] at h
        rcases h with h | h
        · exact absurd h.symm h1
        · exact h
      rw [ih hk]
      simp only [if_neg h1]
      by_cases h2 : p.1 = k'
      · have h3 : ¬ k = k' := fun h3 => h1 (h2.trans h3.symm)
        simp [h2, h3]
      · simp [h2]

/-- Dropping the oldest entry from both sides. -/
theorem rel_tail {c : Cache K V} {p : K × V} {l : List (K × V)} (h : Rel c (p :: l)) :
    Rel { c with cache := c.cache.erase p.1, order := l.map (·.1) } l := by
  have hnd := h.nodup
  simp only [List.map_cons, List.nodup_cons] at hnd
  constructor
  · rfl
  · exact hnd.2
  · intro k
    simp only [AMap.get_erase]
    by_cases hk : p.1 = k
    · rw [if_pos hk]
      exact ((lookup_none_iff l k).2 (hk ▸ hnd.1)).symm
    · rw [if_neg hk, h.get, lookup_cons, if_neg hk]
  · exact AMap.wf_erase h.wf _
  · have hm : p.1 ∈ c.cache.keys := by
      rw [AMap.mem_keys_iff, h.get, lookup_cons]; simp
    have := AMap.length_erase_of_mem h.wf hm
    have h2 := h.len
    simp at h2 ⊢; omega
  · have := h.cap; simp at this ⊢; omega

theorem has_eq (c : AMap K V) (k : K) : c.has k = (c.get k).isSome := rfl

theorem popOldest_sim {c : Cache K V} {l : List (K × V)} (h : Rel c l) :
    (popOldest c).2 = l.head? ∧ Rel (popOldest c).1 l.tail ∧ (popOldest c).1.capacity = c.capacity := by
  unfold popOldest
  cases l with
  | nil =>
    have ho := h.order
    simp only [List.map_nil] at ho
    have hc : ({ c with cache := c.cache, order := [] } : Cache K V) = c := by
      cases c; simp at ho ⊢; exact ho
    simp only [ho, popLoop, List.head?_nil, List.tail_nil]
    exact ⟨trivial, by rw [hc]; exact h, trivial⟩
  | cons p l =>
    have ho := h.order
    simp only [List.map_cons] at ho
    have hg : c.cache.get p.1 = some p.2 := by rw [h.get, lookup_cons]; simp
    simp only [ho, popLoop, hg, List.head?_cons, List.tail_cons]
    exact ⟨trivial, rel_tail h, trivial⟩

theorem evictOldest_sim {c : Cache K V} {l : List (K × V)} (h : Rel c l) :
    Rel (evictOldest c) l.tail ∧ (evictOldest c).capacity = c.capacity := by
  unfold evictOldest
  cases l with
  | nil =>
    have ho := h.order
    simp only [List.map_nil] at ho
    have hc : ({ c with cache := c.cache, order := [] } : Cache K V) = c := by
      cases c; simp at ho ⊢; exact ho
    simp only [ho, evictLoop, List.tail_nil]
    exact ⟨by rw [hc]; exact h, trivial⟩
  | cons p l =>
    have ho := h.order
    simp only [List.map_cons] at ho
    have hg : c.cache.get p.1 = some p.2 := by rw [h.get, lookup_cons]; simp
    simp only [ho, evictLoop, has_eq, hg, Option.isSome_some, if_true, List.tail_cons]
    exact ⟨rel_tail h, trivial⟩

theorem popBatch_sim (n : Nat) : ∀ {c : Cache K V} {l : List (K × V)}, Rel c l →
    (popBatch c n).2 = l.take n ∧ Rel (popBatch c n).1 (l.drop n) ∧
    (popBatch c n).1.capacity = c.capacity := by
  induction n with
  | zero => intro c l h; simp [popBatch]; exact h
  | succ n ih =>
    intro c l h
    obtain ⟨h1, h2, h3⟩ := popOldest_sim h
    unfold popBatch
    cases l with
    | nil =>
      generalize hp : popOldest c = p at h1 h2 h3
      obtain ⟨c', e⟩ := p
      simp at h1; subst h1
      simp only [List.take_nil, List.drop_nil]
      exact ⟨trivial, by simpa using h2, h3⟩
    | cons p l =>
      generalize hp : popOldest c = q at h1 h2 h3
      obtain ⟨c', e⟩ := q
      simp at h1; subst h1
      simp only [List.tail_cons] at h2
      obtain ⟨g1, g2, g3⟩ := ih h2
      simp only [List.take_succ_cons, List.drop_succ_cons]
      exact ⟨by rw [g1], g2, by rw [g3, h3]⟩

theorem findSome_order (cache : AMap K V) (l : List (K × V))
    (h : ∀ p ∈ l, cache.get p.1 = some p.2) :
    (l.map (·.1)).findSome? (fun k => (cache.get k).map fun v => (k, v)) = l.head? := by
  cases l with
  | nil => rfl
  | cons p l =>
    have := h p (by simp)
    simp [this]

theorem lookup_of_mem {l : List (K × V)} (nd : (l.map (·.1)).Nodup) {p : K × V} (h : p ∈ l) :
    Spec.lookup l p.1 = some p.2 := by
  induction l with
  | nil => simp at h
  | cons q l ih =>
    rw [lookup_cons]
    simp only [List.map_cons, List.nodup_cons] at nd
    rcases List.mem_cons.1 h with h | h
    · subst h; simp
    · rw [if_neg, ih nd.2 h]
      intro hq; exact nd.1 (hq ▸ List.mem_map_of_mem h)

theorem ageLoop_eq (cache : AMap K V) (k : K) (l : List (K × V))
    (h : ∀ p ∈ l, cache.get p.1 = some p.2) (n : Nat) :
    ageLoop cache k (l.map (·.1)) n = (l.findIdx? (fun p => p.1 = k)).map (· + n) := by
  induction l generalizing n with
  | nil => rfl
  | cons p l ih =>
    have hp := h p (by simp)
    simp only [List.map_cons, ageLoop, has_eq, hp, Option.isSome_some, if_true]
    rw [List.findIdx?_cons]
    by_cases hk : p.1 = k
    · simp [hk]
    · rw [if_neg hk, ih (fun q hq => h q (List.mem_cons_of_mem _ hq))]
      simp only [hk, decide_false, Bool.false_eq_true, if_false, Option.map_map]
      congr 1
      funext x; simp only [Function.comp]; omega

theorem step_sim {c : Cache K V} {l : List (K × V)} (h : Rel c l) (o : Op K V) :
    (step c o).2 = (Spec.step c.capacity l o).2 ∧
    Rel (step c o).1 (Spec.step c.capacity l o).1 ∧ (step c o).1.capacity = c.capacity := by
  have hall : ∀ p ∈ l, c.cache.get p.1 = some p.2 := by
    intro p hp; rw [h.get]; exact lookup_of_mem h.nodup hp
  cases o with
  | insert k v =>
    simp only [step, insert, Spec.step]
    by_cases hc : c.capacity = 0
    · simp only [if_pos hc]; exact ⟨trivial, h, trivial⟩
    · simp only [if_neg hc, h.get k]
      cases hl : Spec.lookup l k with
      | some old =>
        simp only
        have hmem : k ∈ l.map (·.1) := by
          rcases Decidable.em (k ∈ l.map (·.1)) with h1 | h1
          · exact h1
          · rw [(lookup_none_iff l k).2 h1] at hl; cases hl
        refine ⟨trivial, ?_, trivial⟩
        constructor
        · rw [map_fst_upd]; exact h.order
        · rw [map_fst_upd]; exact h.nodup
        · intro k'; simp only [AMap.get_set, lookup_upd l k k' v hmem, h.get]
        · exact AMap.wf_set h.wf _ _
        · have : k ∈ c.cache.keys := by rw [AMap.mem_keys_iff, h.get, hl]; exact ⟨_, rfl⟩
          have := AMap.keys_set_of_mem this v
          have h2 := congrArg List.length this
          simp only [AMap.keys, List.length_map] at h2
          simp only [List.length_map, h2, h.len]
        · simp only [List.length_map]; exact h.cap
      | none =>
        simp only
        have hk := (lookup_none_iff l k).1 hl
        have key : ∀ (c1 : Cache K V) (l1 : List (K × V)), Rel c1 l1 → c1.capacity = c.capacity →
            k ∉ l1.map (·.1) → l1.length + 1 ≤ c.capacity →
            Rel { c1 with order := c1.order ++ [k], cache := c1.cache.set k v } (l1 ++ [(k, v)]) := by
          intro c1 l1 h1 hcap hk1 hlen
          have hnk : k ∉ c1.cache.keys := by
            rw [AMap.mem_keys_iff, h1.get, (lookup_none_iff l1 k).2 hk1]; simp
          constructor
          · simp [h1.order]
          · rw [List.map_append, List.nodup_append]
            refine ⟨h1.nodup, by simp, ?_⟩
            intro a ha b hb hab
            simp at hb; subst hb; exact hk1 (hab ▸ ha)
          · intro k'; simp only [AMap.get_set, lookup_snoc l1 k k' v hk1, h1.get]
          · exact AMap.wf_set h1.wf _ _
          · simp only [AMap.set_of_not_mem hnk]; simp [h1.len]
          · simp only [List.length_append, List.length_cons, List.length_nil]; omega
        refine ⟨trivial, ?_, ?_⟩
        · by_cases hfull : c.cache.length ≥ c.capacity
          · have hcap := h.cap
            have hlen := h.len
            rw [if_pos hfull, if_neg (by omega)]
            obtain ⟨h1, h2⟩ := evictOldest_sim h
            refine key _ _ h1 h2 ?_ ?_
            · intro hm; exact hk ((List.Sublist.map _ (List.tail_sublist l)).subset hm)
            · simp only [List.length_tail]; omega
          · have hlen := h.len
            rw [if_neg hfull, if_pos (by omega)]
            exact key c l h rfl hk (by omega)
        · split
          · exact (evictOldest_sim h).2
          · rfl
  | get k => exact ⟨by simp [step, Spec.step, get, h.get], h, rfl⟩
  | contains k => exact ⟨by simp [step, Spec.step, contains, has_eq, h.get], h, rfl⟩
  | len => exact ⟨by simp [step, Spec.step, len, h.len], h, rfl⟩
  | clear =>
    refine ⟨rfl, ?_, rfl⟩
    constructor <;> simp [step, clear, Spec.step, Spec.lookup]
  | popOldest =>
    obtain ⟨h1, h2, h3⟩ := popOldest_sim h
    exact ⟨by simp [step, Spec.step, h1], h2, h3⟩
  | peekOldest =>
    refine ⟨?_, h, rfl⟩
    simp only [step, Spec.step, peekOldest]
    rw [h.order, findSome_order _ _ hall]
  | popBatch n =>
    obtain ⟨h1, h2, h3⟩ := popBatch_sim n h
    exact ⟨by simp [step, Spec.step, h1], h2, h3⟩
  | ageRank k =>
    refine ⟨?_, h, rfl⟩
    simp only [step, Spec.step, ageRank]
    rw [h.order, ageLoop_eq _ _ _ hall]
    simp

theorem rel_new (cap : Nat) : Rel (new cap : Cache K V) [] := by
  constructor <;> simp [new, Spec.lookup]

theorem run_sim (os : List (Op K V)) : ∀ {c : Cache K V} {l : List (K × V)}, Rel c l →
    (run c os).2 = (Spec.run c.capacity l os).2 ∧ Rel (run c os).1 (Spec.run c.capacity l os).1 ∧
    (run c os).1.capacity = c.capacity := by
  induction os with
  | nil => intro c l h; exact ⟨rfl, h, rfl⟩
  | cons o os ih =>
    intro c l h
    obtain ⟨h1, h2, h3⟩ := step_sim h o
    obtain ⟨g1, g2, g3⟩ := ih h2
    rw [h3] at g1 g2 g3
    exact ⟨by simp only [run, Spec.run, h1, g1], g2, g3⟩

/-! ## Property -/

/-- **C03.** For every sequence of calls on a new FIFO cache, the results are those of the
insertion-ordered list specification. -/
theorem C03_fifo_refines_list (cap : Nat) (os : List (Op K V)) :
    (run (new cap) os).2 = (Spec.run cap [] os).2 :=
  (run_sim os (rel_new cap)).1

/-- **C03.** At no point does the cache hold more entries than its capacity. -/
theorem C03_fifo_capacity (cap : Nat) (os : List (Op K V)) :
    len (run (new cap : Cache K V) os).1 ≤ cap := by
  obtain ⟨_, h, h2⟩ := run_sim os (rel_new (K := K) (V := V) cap)
  have h3 : (run (new cap : Cache K V) os).1.capacity = cap := h2
  have := h.cap
  unfold len
  rw [h.len]
  omega

/-- **C03**, eviction order read off the specification: when the specification's cache is full and a
new key is inserted, exactly the earliest entry goes. -/
theorem C03_spec_full_insert (cap : Nat) (e : K × V) (l : List (K × V)) (k : K) (v : V)
    (hcap : (e :: l).length = cap) (hk : Spec.lookup (e :: l) k = none) :
    (Spec.step cap (e :: l) (.insert k v)).1 = l ++ [(k, v)] := by
  have : cap ≠ 0 := by simp at hcap; omega
  simp only [Spec.step, if_neg this, hk, if_neg (show ¬ (e :: l).length < cap by omega), List.tail_cons]

/-- Non-vacuity: capacity 2, re-insert of key 1 keeps its age, so key 1 is the one evicted. -/
example : (run (new 2 : Cache Nat Nat)
    [.insert 1 10, .insert 2 20, .insert 1 11, .ageRank 2, .insert 3 30, .get 1, .get 2, .popBatch 5]).2 =
    [.val none, .val none, .val (some 10), .optNat (some 1), .val none, .val none, .val (some 20),
     .entries [(2, 20), (3, 30)]] := by decide

end Verif.Fifo
