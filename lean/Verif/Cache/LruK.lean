import Verif.Replacer.Lemmas

/-!
# LRU-K cache (`src/storage/disk/async_disk/cache/lru_k.rs`), property C48

The clock reading of a call (`current_time_in_micros`, lru_k.rs:300-305) is a parameter of the call. As in
`Verif.Cache.Lfu`, the association list's order is the hash map's iteration order, permuted arbitrarily before
each call.
-/

namespace Verif.LruK

open Verif.Replacer (lastK le3 le3_refl le3_trans u64Max)
open Verif.Replacer.Spec (NoLater)

set_option linter.unusedSectionVars false

variable {K V : Type} [DecidableEq K]

/-! ## Model -/

/-- `struct LRUKCache` (lru_k.rs:270-278). -/
structure Cache (K V : Type) where
  capacity : Nat
  k : Nat
  cache : AMap K (V × List Nat)

/-- `with_k` (lru_k.rs:291-297). -/
def withK (capacity k : Nat) : Cache K V := { capacity, k, cache := [] }

/-- The push of an access time, bounded to `k` (lru_k.rs:327-330, 391-394, 547-550). -/
def pushTime (k : Nat) (h : List Nat) (now : Nat) : List Nat :=
  let h := h ++ [now]
  if h.length > k then h.drop 1 else h

/-- The three local variables of the victim loops (lru_k.rs:337-339, 438-440, 483-485). -/
structure Acc (K : Type) where
  victim : Option K
  minK : Nat
  oldest : Nat

/-- One iteration of the victim loops (lru_k.rs:341-371 = 442-472 = 487-514). -/
def scanStep (k : Nat) (acc : Acc K) (p : K × (V × List Nat)) : Acc K :=
  let n := p.2.2.length
  if n < k then
    if acc.victim.isNone || n < acc.minK then
      { victim := some p.1, minK := n, oldest := p.2.2.head?.getD u64Max }
    else if n = acc.minK then
      let first := p.2.2.head?.getD u64Max
      if first < acc.oldest then { acc with oldest := first, victim := some p.1 } else acc
    else acc
  else if acc.minK ≥ k then
    let kAccess := (p.2.2[n - k]?).getD u64Max
    if acc.victim.isNone || kAccess < acc.oldest then
      { victim := some p.1, minK := k, oldest := kAccess }
    else acc
  else acc

/-- The victim loops. -/
def victim (k : Nat) (m : AMap K (V × List Nat)) : Option K :=
  (m.foldl (scanStep k) { victim := none, minK := u64Max, oldest := u64Max }).victim

/-- `insert` (lru_k.rs:314-384). -/
def insert (c : Cache K V) (key : K) (v : V) (now : Nat) : Cache K V × Option V :=
  if c.capacity = 0 then (c, none)
  else
    match c.cache.get key with
    | some (old, h) => ({ c with cache := c.cache.set key (v, pushTime c.k h now) }, some old)
    | none =>
      let m : AMap K (V × List Nat) :=
        if c.cache.length ≥ c.capacity && !c.cache.isEmpty then
          match victim c.k c.cache with
          | some vk => c.cache.erase vk
          | none => c.cache
        else c.cache
      ({ c with cache := m.set key (v, [now]) }, (m.get key).map (·.1))

/-- `get` (lru_k.rs:386-398). -/
def get (c : Cache K V) (key : K) (now : Nat) : Cache K V × Option V :=
  match c.cache.get key with
  | some (v, h) => ({ c with cache := c.cache.set key (v, pushTime c.k h now) }, some v)
  | none => (c, none)

/-- `touch` (lru_k.rs:544-555). -/
def touch (c : Cache K V) (key : K) (now : Nat) : Cache K V × Bool :=
  match c.cache.get key with
  | some (v, h) => ({ c with cache := c.cache.set key (v, pushTime c.k h now) }, true)
  | none => (c, false)

/-- `remove` (lru_k.rs:422-424). -/
def remove (c : Cache K V) (key : K) : Cache K V × Option V :=
  ({ c with cache := c.cache.erase key }, (c.cache.get key).map (·.1))

/-- `pop_lru_k` (lru_k.rs:432-476). -/
def popLruK (c : Cache K V) : Cache K V × Option (K × V) :=
  if c.cache.isEmpty then (c, none)
  else match victim c.k c.cache with
    | none => (c, none)
    | some key => ({ c with cache := c.cache.erase key }, (c.cache.get key).map fun x => (key, x.1))

/-- `peek_lru_k` (lru_k.rs:478-517). -/
def peekLruK (c : Cache K V) : Option (K × V) :=
  if c.cache.isEmpty then none
  else match victim c.k c.cache with
    | none => none
    | some key => (c.cache.get key).map fun x => (key, x.1)

/-- `access_history` (lru_k.rs:523-527). -/
def accessHistory (c : Cache K V) (key : K) : Option (List Nat) :=
  (c.cache.get key).map fun x => x.2.reverse

/-- `access_count` (lru_k.rs:529-531). -/
def accessCount (c : Cache K V) (key : K) : Option Nat := (c.cache.get key).map fun x => x.2.length

/-- `k_distance` (lru_k.rs:533-542). -/
def kDistance (c : Cache K V) (key : K) : Option Nat :=
  match c.cache.get key with
  | none => none
  | some (_, h) => if h.length ≥ c.k then h[h.length - c.k]? else none

/-- The sort key of `k_distance_rank` (lru_k.rs:564-579 and 593-605). -/
def rankKey (k : Nat) (h : List Nat) : Bool × Nat :=
  if h.length < k then (false, h.head?.getD u64Max) else (true, (h[h.length - k]?).getD u64Max)

/-- The comparator of `k_distance_rank` (lru_k.rs:583-590), as "not greater". -/
def rankLe (a b : Bool × Nat) : Bool :=
  match a.1, b.1 with
  | false, false => a.2 ≤ b.2
  | true, true => a.2 ≤ b.2
  | false, true => true
  | true, false => false

/-- `k_distance_rank` (lru_k.rs:557-610); Rust's stable `sort_by` is `List.mergeSort`. -/
def rank (c : Cache K V) (key : K) : Option Nat :=
  match c.cache.get key with
  | none => none
  | some (_, h) =>
    ((c.cache.map fun p => rankKey c.k p.2.2).mergeSort rankLe).findIdx? (· == rankKey c.k h)

/-- The calls. -/
inductive Op (K V : Type) where
  | insert (k : K) (v : V) (now : Nat)
  | get (k : K) (now : Nat)
  | touch (k : K) (now : Nat)
  | contains (k : K)
  | len
  | clear
  | remove (k : K)
  | pop
  | peek
  | accessHistory (k : K)
  | accessCount (k : K)
  | kDistance (k : K)
  | rank (k : K)

/-- Results of calls. -/
inductive Out (K V : Type) where
  | unit
  | val (v : Option V)
  | bool (b : Bool)
  | nat (n : Nat)
  | optNat (n : Option Nat)
  | times (l : Option (List Nat))
  | entry (e : Option (K × V))
  deriving DecidableEq

/-- One call, for one iteration order. -/
def step (c : Cache K V) : Op K V → Cache K V × Out K V
  | .insert k v now => let p := insert c k v now; (p.1, .val p.2)
  | .get k now => let p := get c k now; (p.1, .val p.2)
  | .touch k now => let p := touch c k now; (p.1, .bool p.2)
  | .contains k => (c, .bool (c.cache.has k))
  | .len => (c, .nat c.cache.length)
  | .clear => ({ c with cache := [] }, .unit)
  | .remove k => let p := remove c k; (p.1, .val p.2)
  | .pop => let p := popLruK c; (p.1, .entry p.2)
  | .peek => (c, .entry (peekLruK c))
  | .accessHistory k => (c, .times (accessHistory c k))
  | .accessCount k => (c, .optNat (accessCount c k))
  | .kDistance k => (c, .optNat (kDistance c k))
  | .rank k => (c, .optNat (rank c k))

/-- Runs with an arbitrary iteration order at each call. -/
inductive Runs : Cache K V → List (Op K V) → List (Out K V) → Cache K V → Prop where
  | nil (c) : Runs c [] [] c
  | cons {c : Cache K V} {m : AMap K (V × List Nat)} {o os outs c'} : c.cache.Perm m →
      Runs (step { c with cache := m } o).1 os outs c' →
      Runs c (o :: os) ((step { c with cache := m } o).2 :: outs) c'

/-! ## Specification: live keys with their value and all their access times, oldest first -/

namespace Spec

abbrev State (K V : Type) := K → Option (V × List Nat)

def upd (s : State K V) (k : K) (x : Option (V × List Nat)) : State K V :=
  fun k' => if k' = k then x else s k'

def Size (s : State K V) (n : Nat) : Prop := IsCount (fun k => (s k).isSome) n

/-- `key` is an LRU-K victim with value `v`. -/
def Victim (k : Nat) (s : State K V) (key : K) (v : V) : Prop :=
  ∃ h, s key = some (v, h) ∧ ∀ key' v' h', s key' = some (v', h') → NoLater k h h'

/-- `a` comes strictly before `b` in K-distance order: fewer than `k` accesses first, then by the earliest
access (fewer than `k`) or by the `k`-th most recent access. -/
def Before (k : Nat) (a b : List Nat) : Prop :=
  if b.length < k then a.length < k ∧ ∃ x y, a.head? = some x ∧ b.head? = some y ∧ x < y
  else a.length < k ∨ ∃ x y, a[a.length - k]? = some x ∧ b[b.length - k]? = some y ∧ x < y

inductive Step (cap k : Nat) (s : State K V) : Op K V → Out K V → State K V → Prop where
  | insertZero (key v now) : cap = 0 → Step cap k s (.insert key v now) (.val none) s
  | insertPresent (key v now old h) : cap ≠ 0 → s key = some (old, h) →
      Step cap k s (.insert key v now) (.val (some old)) (upd s key (some (v, h ++ [now])))
  | insertRoom (key v now n) : s key = none → Size s n → n < cap →
      Step cap k s (.insert key v now) (.val none) (upd s key (some (v, [now])))
  | insertFull (key v now n vk vv) : s key = none → Size s n → 0 < cap → cap ≤ n → Victim k s vk vv →
      Step cap k s (.insert key v now) (.val none) (upd (upd s vk none) key (some (v, [now])))
  | getHit (key now v h) : s key = some (v, h) →
      Step cap k s (.get key now) (.val (some v)) (upd s key (some (v, h ++ [now])))
  | getMiss (key now) : s key = none → Step cap k s (.get key now) (.val none) s
  | touchHit (key now v h) : s key = some (v, h) →
      Step cap k s (.touch key now) (.bool true) (upd s key (some (v, h ++ [now])))
  | touchMiss (key now) : s key = none → Step cap k s (.touch key now) (.bool false) s
  | contains (key) : Step cap k s (.contains key) (.bool (s key).isSome) s
  | len (n) : Size s n → Step cap k s .len (.nat n) s
  | clear : Step cap k s .clear .unit (fun _ => none)
  | remove (key) : Step cap k s (.remove key) (.val ((s key).map (·.1))) (upd s key none)
  | popEmpty : (∀ key, s key = none) → Step cap k s .pop (.entry none) s
  | pop (key v) : Victim k s key v → Step cap k s .pop (.entry (some (key, v))) (upd s key none)
  | peekEmpty : (∀ key, s key = none) → Step cap k s .peek (.entry none) s
  | peek (key v) : Victim k s key v → Step cap k s .peek (.entry (some (key, v))) s
  | history (key) :
      Step cap k s (.accessHistory key) (.times ((s key).map fun x => x.2.reverse.take k)) s
  | count (key) : Step cap k s (.accessCount key) (.optNat ((s key).map fun x => min x.2.length k)) s
  | distNone (key) : (∀ v h, s key = some (v, h) → h.length < k) →
      Step cap k s (.kDistance key) (.optNat none) s
  | dist (key v h t) : s key = some (v, h) → k ≤ h.length → h[h.length - k]? = some t →
      Step cap k s (.kDistance key) (.optNat (some t)) s
  | rankNone (key) : s key = none → Step cap k s (.rank key) (.optNat none) s
  | rank (key v h n) : s key = some (v, h) →
      IsCount (fun key' => ∃ v' h', s key' = some (v', h') ∧ Before k h' h) n →
      Step cap k s (.rank key) (.optNat (some n)) s

inductive Run (cap k : Nat) : State K V → List (Op K V) → List (Out K V) → State K V → Prop where
  | nil (s) : Run cap k s [] [] s
  | cons {s o out s' os outs s''} : Step cap k s o out s' → Run cap k s' os outs s'' →
      Run cap k s (o :: os) (out :: outs) s''

end Spec

/-! ## The victim loop -/

/-- Rank of a bounded history: smaller goes first (the same rule as the replacer's). -/
def hrank (k : Nat) (h : List Nat) : Nat × Nat × Nat :=
  Replacer.rank k { accessCount := 0, history := h, evictable := true }

theorem hrank_lt {k : Nat} {h : List Nat} (hn : h.length < k) :
    hrank k h = (0, h.length, h.head?.getD u64Max) := by
  simp only [hrank, Replacer.rank, if_pos hn]

theorem hrank_ge {k : Nat} {h : List Nat} (hn : ¬ h.length < k) :
    hrank k h = (1, 0, (h[h.length - k]?).getD u64Max) := by
  simp only [hrank, Replacer.rank, if_neg hn]

structure AccOk (k : Nat) (seen : List (K × (V × List Nat))) (acc : Acc K) : Prop where
  none_ok : acc.victim = none → acc.minK = u64Max ∧ seen = []
  some_ok : ∀ key, acc.victim = some key → ∃ v h, (key, (v, h)) ∈ seen ∧
    (if acc.minK < k then hrank k h = (0, acc.minK, acc.oldest)
      else acc.minK = k ∧ hrank k h = (1, 0, acc.oldest)) ∧
    ∀ p ∈ seen, le3 (hrank k h) (hrank k p.2.2)

theorem accOk_take {k : Nat} {seen : List (K × (V × List Nat))} {acc acc' : Acc K}
    (p : K × (V × List Nat)) (ha : AccOk k seen acc) (hv : acc'.victim = some p.1)
    (hr : if acc'.minK < k then hrank k p.2.2 = (0, acc'.minK, acc'.oldest)
      else acc'.minK = k ∧ hrank k p.2.2 = (1, 0, acc'.oldest))
    (hle : ∀ key v h, acc.victim = some key → (key, (v, h)) ∈ seen →
      (if acc.minK < k then hrank k h = (0, acc.minK, acc.oldest)
        else acc.minK = k ∧ hrank k h = (1, 0, acc.oldest)) →
      le3 (hrank k p.2.2) (hrank k h)) :
    AccOk k (seen ++ [p]) acc' := by
  refine ⟨fun hn => (by rw [hv] at hn; cases hn), ?_⟩
  intro key hk
  rw [hv] at hk; cases hk
  refine ⟨p.2.1, p.2.2, by simp, hr, ?_⟩
  intro q hq
  rcases List.mem_append.1 hq with hq | hq
  · cases hacc : acc.victim with
    | none => rw [(ha.none_ok hacc).2] at hq; simp at hq
    | some key' =>
      obtain ⟨v, h, h1, h2, h3⟩ := ha.some_ok key' hacc
      exact le3_trans (hle key' v h hacc h1 h2) (h3 q hq)
  · simp at hq; subst hq; exact le3_refl _

theorem accOk_keep {k : Nat} {seen : List (K × (V × List Nat))} {acc : Acc K}
    (p : K × (V × List Nat)) (ha : AccOk k seen acc) {key : K} (hv : acc.victim = some key)
    (hle : ∀ h, (if acc.minK < k then hrank k h = (0, acc.minK, acc.oldest)
        else acc.minK = k ∧ hrank k h = (1, 0, acc.oldest)) →
      le3 (hrank k h) (hrank k p.2.2)) :
    AccOk k (seen ++ [p]) acc := by
  refine ⟨fun hn => (by rw [hv] at hn; cases hn), ?_⟩
  intro key' hk
  obtain ⟨v, h, h1, h2, h3⟩ := ha.some_ok key' hk
  refine ⟨v, h, List.mem_append_left _ h1, h2, ?_⟩
  intro q hq
  rcases List.mem_append.1 hq with hq | hq
  · exact h3 q hq
  · simp at hq; subst hq; exact hle h h2

theorem scanStep_ok {k : Nat} (hk : k ≤ u64Max) {seen : List (K × (V × List Nat))} {acc : Acc K}
    (ha : AccOk k seen acc) (p : K × (V × List Nat)) : AccOk k (seen ++ [p]) (scanStep k acc p) := by
  unfold scanStep
  cases hacc : acc.victim with
  | none =>
    have hmin := (ha.none_ok hacc).1
    simp only [Option.isNone_none, Bool.true_or, if_true]
    split
    · next hn =>
      exact accOk_take p ha rfl (by simp only [if_pos hn]; exact hrank_lt hn)
        (by intro key v h hv; rw [hacc] at hv; cases hv)
    · next hn =>
      rw [if_pos (by omega)]
      exact accOk_take p ha rfl (by simp [hrank_ge hn])
        (by intro key v h hv; rw [hacc] at hv; cases hv)
  | some key =>
    simp only [Option.isNone_some, Bool.false_or, decide_eq_true_eq]
    split
    · next hn =>
      have hre := hrank_lt hn
      split
      · next hlt =>
        refine accOk_take p ha rfl (by simp only [if_pos hn]; exact hre) ?_
        intro _ _ h _ _ h4
        rw [hre]
        split at h4
        · rw [h4]; unfold le3; simp; omega
        · rw [h4.2]; unfold le3; simp
      · next hlt =>
        split
        · next heq =>
          split
          · next hfirst =>
            refine accOk_take p ha rfl ?_ ?_
            · simp only; rw [← heq, if_pos hn, hre]
            · intro _ _ h _ _ h4
              rw [if_pos (by omega)] at h4
              rw [hre, h4]; unfold le3; simp; omega
          · next hfirst =>
            refine accOk_keep p ha hacc ?_
            intro h h4
            rw [if_pos (by omega)] at h4
            rw [hre, h4]; unfold le3; simp; omega
        · next hne =>
          refine accOk_keep p ha hacc ?_
          intro h h4
          rw [if_pos (by omega)] at h4
          rw [hre, h4]; unfold le3; simp; omega
    · next hn =>
      have hre := hrank_ge hn
      split
      · next hge =>
        split
        · next hlt =>
          refine accOk_take p ha rfl (by simp [hre]) ?_
          intro _ _ h _ _ h4
          rw [if_neg (by omega)] at h4
          rw [hre, h4.2]; unfold le3; simp; omega
        · next hlt =>
          refine accOk_keep p ha hacc ?_
          intro h h4
          rw [if_neg (by omega)] at h4
          rw [hre, h4.2]; unfold le3; simp; omega
      · next hge =>
        refine accOk_keep p ha hacc ?_
        intro h h4
        rw [if_pos (by omega)] at h4
        rw [hre, h4]; unfold le3; simp

theorem scan_ok {k : Nat} (hk : k ≤ u64Max) (m : List (K × (V × List Nat))) :
    AccOk k m (m.foldl (scanStep k) { victim := none, minK := u64Max, oldest := u64Max }) := by
  suffices h : ∀ (rest seen : List (K × (V × List Nat))) (acc : Acc K), AccOk k seen acc →
      AccOk k (seen ++ rest) (rest.foldl (scanStep k) acc) by
    have := h m [] { victim := none, minK := u64Max, oldest := u64Max } ⟨by simp, by simp⟩
    simpa using this
  intro rest
  induction rest with
  | nil => intro seen acc h; simpa using h
  | cons f rest ih =>
    intro seen acc h
    have := ih (seen ++ [f]) _ (scanStep_ok hk h f)
    simpa using this

theorem victim_none {k : Nat} (hk : k ≤ u64Max) {m : AMap K (V × List Nat)} (h : victim k m = none) :
    m = [] := ((scan_ok hk m).none_ok h).2

theorem victim_some {k : Nat} (hk : k ≤ u64Max) {m : AMap K (V × List Nat)} {key : K}
    (h : victim k m = some key) :
    ∃ v hh, (key, (v, hh)) ∈ m ∧ ∀ p ∈ m, le3 (hrank k hh) (hrank k p.2.2) := by
  obtain ⟨v, hh, h1, _, h3⟩ := (scan_ok hk m).some_ok key h
  exact ⟨v, hh, h1, h3⟩

/-! ## The rank -/

theorem rankLe_iff (a b : Bool × Nat) :
    rankLe a b = true ↔ (a.1 = false ∧ b.1 = true) ∨ (a.1 = b.1 ∧ a.2 ≤ b.2) := by
  obtain ⟨a1, a2⟩ := a
  obtain ⟨b1, b2⟩ := b
  cases a1 <;> cases b1 <;> simp [rankLe]

theorem rankLe_trans (a b c : Bool × Nat) : rankLe a b = true → rankLe b c = true → rankLe a c = true := by
  obtain ⟨a1, a2⟩ := a
  obtain ⟨b1, b2⟩ := b
  obtain ⟨c1, c2⟩ := c
  cases a1 <;> cases b1 <;> cases c1 <;> simp [rankLe] <;> omega

theorem rankLe_total (a b : Bool × Nat) : (rankLe a b || rankLe b a) = true := by
  obtain ⟨a1, a2⟩ := a
  obtain ⟨b1, b2⟩ := b
  cases a1 <;> cases b1 <;> simp [rankLe] <;> omega

theorem rankLe_antisymm {a b : Bool × Nat} (h1 : rankLe a b = true) (h2 : rankLe b a = true) : a = b := by
  obtain ⟨a1, a2⟩ := a
  obtain ⟨b1, b2⟩ := b
  cases a1 <;> cases b1 <;> simp [rankLe] at h1 h2 ⊢ <;> omega

theorem rankLe_refl (a : Bool × Nat) : rankLe a a = true := by
  obtain ⟨a1, a2⟩ := a
  cases a1 <;> simp [rankLe]

/-- In a sorted list the first occurrence of `t` is preceded exactly by the smaller elements. -/
theorem findIdx_sorted (l : List (Bool × Nat)) (t : Bool × Nat) (ht : t ∈ l)
    (hs : l.Pairwise (fun a b => rankLe a b = true)) :
    l.findIdx? (· == t) = some (l.countP (fun a => !rankLe t a)) := by
  induction l with
  | nil => simp at ht
  | cons x l ih =>
    have hs' := List.pairwise_cons.1 hs
    rw [List.findIdx?_cons]
    by_cases hx : x = t
    · subst hx
      simp only [BEq.rfl, if_true]
      have : List.countP (fun a => !rankLe x a) (x :: l) = 0 := by
        rw [List.countP_eq_zero]
        intro a ha
        rcases List.mem_cons.1 ha with rfl | ha
        · simp [rankLe_refl]
        · simp [hs'.1 a ha]
      rw [this]
    · have ht' : t ∈ l := by
        rcases List.mem_cons.1 ht with h | h
        · exact absurd h.symm hx
        · exact h
      have hnl : rankLe t x = false := by
        cases h : rankLe t x with
        | false => rfl
        | true => exact absurd (rankLe_antisymm (hs'.1 t ht') h) hx
      have hb : (x == t) = false := by simpa using hx
      rw [hb, ih ht' hs'.2]
      simp [hnl]

/-! ## Refinement -/

structure Rel (c : Cache K V) (s : Spec.State K V) : Prop where
  none_iff : ∀ key, c.cache.get key = none ↔ s key = none
  some_imp : ∀ key v hh, c.cache.get key = some (v, hh) →
    ∃ h, s key = some (v, h) ∧ hh = lastK c.k h ∧ h ≠ []
  wf : c.cache.WF
  cap : c.cache.length ≤ c.capacity

theorem rel_new (cap k : Nat) : Rel (withK cap k : Cache K V) (fun _ => none) := by
  constructor <;> simp [withK]

theorem pushTime_lastK (k : Nat) (h : List Nat) (now : Nat) :
    pushTime k (lastK k h) now = lastK k (h ++ [now]) := (Replacer.lastK_snoc k h now).symm

theorem rel_size {c : Cache K V} {s : Spec.State K V} (h : Rel c s) : Spec.Size s c.cache.length := by
  obtain ⟨l, nd, hl, hlen⟩ := isCount_get h.wf
  refine ⟨l, nd, ?_, hlen⟩
  intro key
  rw [hl]
  have := h.none_iff key
  cases h1 : c.cache.get key <;> cases h2 : s key <;> simp_all

theorem rel_set {c : Cache K V} {s : Spec.State K V} (h : Rel c s) (key : K) (v : V) (hist : List Nat)
    (hne : hist ≠ []) (hlen : (c.cache.set key (v, lastK c.k hist)).length ≤ c.capacity) :
    Rel { c with cache := c.cache.set key (v, lastK c.k hist) } (Spec.upd s key (some (v, hist))) := by
  refine ⟨?_, ?_, AMap.wf_set h.wf _ _, hlen⟩
  · intro key'
    simp only [AMap.get_set, Spec.upd]
    by_cases he : key = key'
    · subst he; simp
    · rw [if_neg he, if_neg (Ne.symm he)]; exact h.none_iff key'
  · intro key' v' hh hg
    simp only [AMap.get_set, Spec.upd] at hg ⊢
    by_cases he : key = key'
    · subst he; simp at hg; obtain ⟨rfl, rfl⟩ := hg; exact ⟨hist, by simp, rfl, hne⟩
    · rw [if_neg he] at hg; rw [if_neg (Ne.symm he)]; exact h.some_imp key' v' hh hg

theorem rel_erase {c : Cache K V} {s : Spec.State K V} (h : Rel c s) (key : K) :
    Rel { c with cache := c.cache.erase key } (Spec.upd s key none) := by
  refine ⟨?_, ?_, AMap.wf_erase h.wf _, Nat.le_trans (AMap.length_erase_le _ _) h.cap⟩
  · intro key'
    simp only [AMap.get_erase, Spec.upd]
    by_cases he : key = key'
    · subst he; simp
    · rw [if_neg he, if_neg (Ne.symm he)]; exact h.none_iff key'
  · intro key' v' hh hg
    simp only [AMap.get_erase, Spec.upd] at hg ⊢
    by_cases he : key = key'
    · subst he; simp at hg
    · rw [if_neg he] at hg; rw [if_neg (Ne.symm he)]; exact h.some_imp key' v' hh hg

/-- From the specification back to the concrete entry. -/
theorem rel_back {c : Cache K V} {s : Spec.State K V} (h : Rel c s) {key : K} {v : V} {hist : List Nat}
    (hs : s key = some (v, hist)) : c.cache.get key = some (v, lastK c.k hist) ∧ hist ≠ [] := by
  cases hg : c.cache.get key with
  | none => rw [(h.none_iff key).1 hg] at hs; cases hs
  | some x =>
    obtain ⟨v', hh⟩ := x
    obtain ⟨h1, h2, h3, h4⟩ := h.some_imp key v' hh hg
    rw [hs] at h2; simp at h2
    obtain ⟨rfl, rfl⟩ := h2
    exact ⟨by rw [h3], h4⟩

theorem victim_spec {c : Cache K V} {s : Spec.State K V} (h : Rel c s) (hk : 1 ≤ c.k) (hk2 : c.k ≤ u64Max)
    {key : K} (hv : victim c.k c.cache = some key) :
    ∃ v hh, c.cache.get key = some (v, hh) ∧ Spec.Victim c.k s key v := by
  obtain ⟨v, hh, hm, hmin⟩ := victim_some hk2 hv
  have hg := AMap.get_of_mem h.wf hm
  obtain ⟨hist, h1, h2, h3⟩ := h.some_imp key v hh hg
  refine ⟨v, hh, hg, hist, h1, ?_⟩
  intro key' v' h' hs'
  obtain ⟨hg', hne'⟩ := rel_back h hs'
  have hle := hmin _ (AMap.mem_of_get hg')
  rw [h2] at hle
  exact Replacer.noLater_of_le3 hk rfl rfl h3 hne' hle

theorem reverse_lastK (k : Nat) (h : List Nat) : (lastK k h).reverse = h.reverse.take k := by
  unfold lastK
  rw [List.take_reverse]

theorem before_iff {k : Nat} (hk : 1 ≤ k) {a b : List Nat} (ha : a ≠ []) (hb : b ≠ []) :
    (!rankLe (rankKey k (lastK k b)) (rankKey k (lastK k a))) = true ↔ Spec.Before k a b := by
  have small : ∀ {h : List Nat}, h.length < k → lastK k h = h := by
    intro h hl; unfold lastK; rw [show h.length - k = 0 by omega]; simp
  have big : ∀ {h : List Nat}, ¬ h.length < k →
      (lastK k h)[(lastK k h).length - k]? = h[h.length - k]? := by
    intro h hl
    rw [Replacer.lastK_length, show min h.length k - k = 0 by omega]
    unfold lastK; rw [List.getElem?_drop]; simp
  have key1 : ∀ {h : List Nat}, h ≠ [] → h.length < k → ∃ x, h.head? = some x ∧ rankKey k (lastK k h) = (false, x) := by
    intro h hne hl
    rw [small hl]
    cases h with
    | nil => exact absurd rfl hne
    | cons x xs => exact ⟨x, rfl, by simp only [rankKey, if_pos hl]; rfl⟩
  have key2 : ∀ {h : List Nat}, h ≠ [] → ¬ h.length < k →
      ∃ x, h[h.length - k]? = some x ∧ rankKey k (lastK k h) = (true, x) := by
    intro h hne hl
    have hp : 0 < h.length := List.length_pos_iff.2 hne
    have i1 : h.length - k < h.length := by omega
    refine ⟨h[h.length - k], List.getElem?_eq_getElem i1, ?_⟩
    have : ¬ (lastK k h).length < k := by rw [Replacer.lastK_length]; omega
    unfold rankKey
    rw [if_neg this, big hl, List.getElem?_eq_getElem i1]
    rfl
  unfold Spec.Before
  by_cases hbl : b.length < k
  · rw [if_pos hbl]
    obtain ⟨y, hy1, hy2⟩ := key1 hb hbl
    by_cases hal : a.length < k
    · obtain ⟨x, hx1, hx2⟩ := key1 ha hal
      rw [hx2, hy2]; simp [rankLe, hx1, hy1, hal]
    · obtain ⟨x, hx1, hx2⟩ := key2 ha hal
      rw [hx2, hy2]; simp [rankLe]; intro h; exact absurd h hal
  · rw [if_neg hbl]
    obtain ⟨y, hy1, hy2⟩ := key2 hb hbl
    by_cases hal : a.length < k
    · obtain ⟨x, hx1, hx2⟩ := key1 ha hal
      rw [hx2, hy2]; simp [rankLe, hal]
    · obtain ⟨x, hx1, hx2⟩ := key2 ha hal
      rw [hx2, hy2]; simp [rankLe, hx1, hy1, hal]

theorem rank_spec {c : Cache K V} {s : Spec.State K V} (h : Rel c s) (hk : 1 ≤ c.k) {key : K} {v : V}
    {hist : List Nat} (hs : s key = some (v, hist)) :
    ∃ n, rank c key = some n ∧
      IsCount (fun key' => ∃ v' h', s key' = some (v', h') ∧ Spec.Before c.k h' hist) n := by
  obtain ⟨hg, hne⟩ := rel_back h hs
  unfold rank
  simp only [hg]
  have hperm := List.mergeSort_perm (c.cache.map fun p => rankKey c.k p.2.2) rankLe
  have hsorted := List.pairwise_mergeSort rankLe_trans rankLe_total (c.cache.map fun p => rankKey c.k p.2.2)
  have hmem : rankKey c.k (lastK c.k hist) ∈ (c.cache.map fun p => rankKey c.k p.2.2).mergeSort rankLe := by
    rw [hperm.mem_iff]
    exact List.mem_map_of_mem (f := fun p => rankKey c.k p.2.2) (AMap.mem_of_get hg)
  rw [findIdx_sorted _ _ hmem hsorted]
  refine ⟨_, rfl, ?_⟩
  rw [hperm.countP_eq, List.countP_map, List.countP_eq_length_filter]
  refine ⟨(c.cache.filter ((fun a => !rankLe (rankKey c.k (lastK c.k hist)) a) ∘
    fun p => rankKey c.k p.2.2)).map (·.1), ?_, ?_, by simp⟩
  · exact (List.Sublist.map _ List.filter_sublist).nodup h.wf
  · intro key'
    constructor
    · intro hm
      obtain ⟨⟨key2, v2, hh⟩, h1, h2⟩ := List.mem_map.1 hm
      simp at h2; subst h2
      obtain ⟨h3, h4⟩ := List.mem_filter.1 h1
      obtain ⟨h', e1, e2, e3⟩ := h.some_imp _ _ _ (AMap.get_of_mem h.wf h3)
      refine ⟨v2, h', e1, ?_⟩
      rw [← before_iff hk e3 hne, ← e2]
      exact h4
    · rintro ⟨v', h', e1, e2⟩
      obtain ⟨g1, g2⟩ := rel_back h e1
      refine List.mem_map.2 ⟨_, List.mem_filter.2 ⟨AMap.mem_of_get g1, ?_⟩, rfl⟩
      exact (before_iff hk g2 hne).2 e2

theorem step_sim {c : Cache K V} {s : Spec.State K V} (h : Rel c s) (hk : 1 ≤ c.k) (hk2 : c.k ≤ u64Max)
    (o : Op K V) : ∃ s', Spec.Step c.capacity c.k s o (step c o).2 s' ∧ Rel (step c o).1 s' ∧
      (step c o).1.capacity = c.capacity ∧ (step c o).1.k = c.k := by
  have hsize := rel_size h
  have one : ∀ now, [now] = lastK c.k [now] := by
    intro now; unfold lastK; simp; rw [show 1 - c.k = 0 by omega]; rfl
  have present : ∀ {key v hh} (w : V) (now : Nat), c.cache.get key = some (v, hh) → ∃ hist,
      s key = some (v, hist) ∧
      Rel { c with cache := c.cache.set key (w, pushTime c.k hh now) }
        (Spec.upd s key (some (w, hist ++ [now]))) := by
    intro key v hh w now hg
    obtain ⟨hist, h1, h2, h3⟩ := h.some_imp key v hh hg
    refine ⟨hist, h1, ?_⟩
    rw [h2, pushTime_lastK]
    apply rel_set h _ _ _ (by simp)
    rw [AMap.length_set_of_mem ((AMap.mem_keys_iff _ _).2 ⟨_, hg⟩)]
    exact h.cap
  cases o with
  | insert key v now =>
    simp only [step, insert]
    by_cases hc : c.capacity = 0
    · simp only [if_pos hc]; exact ⟨s, .insertZero key v now hc, h, by trivial, by trivial⟩
    · simp only [if_neg hc]
      cases hg : c.cache.get key with
      | some x =>
        obtain ⟨old, hh⟩ := x
        obtain ⟨hist, h1, h2⟩ := present v now hg
        exact ⟨_, .insertPresent key v now old hist hc h1, h2, by trivial, by trivial⟩
      | none =>
        have hs := (h.none_iff key).1 hg
        simp only
        by_cases hfull : c.cache.length ≥ c.capacity
        · have hne : c.cache.isEmpty = false := by
            cases hcc : c.cache with
            | nil => rw [hcc] at hfull; simp at hfull; omega
            | cons a b => rfl
          simp only [decide_eq_true hfull, hne, Bool.not_false, Bool.and_self, if_true]
          cases hv : victim c.k c.cache with
          | none =>
            have := victim_none hk2 hv
            rw [this] at hne; simp at hne
          | some vk =>
            obtain ⟨vv, hh, hgv, hvic⟩ := victim_spec h hk hk2 hv
            simp only
            have hg2 : (c.cache.erase vk).get key = none := by
              rw [AMap.get_erase]; split
              · rfl
              · exact hg
            rw [hg2]
            refine ⟨_, .insertFull key v now _ vk vv hs hsize (by omega) hfull hvic, ?_, by trivial, by trivial⟩
            have he := rel_erase h vk
            have hlen := AMap.length_erase_of_mem h.wf ((AMap.mem_keys_iff _ _).2 ⟨_, hgv⟩)
            have hcap := h.cap
            have := rel_set he key v [now] (by simp) (by
              simp only
              rw [AMap.length_set_of_not_mem ((AMap.get_eq_none_iff _ _).1 hg2)]; omega)
            simp only [← one] at this
            exact this
        · have hfull' : decide (c.cache.length ≥ c.capacity) = false := decide_eq_false hfull
          simp only [hfull', Bool.false_and, Bool.false_eq_true, if_false, hg]
          refine ⟨_, .insertRoom key v now _ hs hsize (by omega), ?_, by trivial, by trivial⟩
          have := rel_set h key v [now] (by simp) (by
              rw [AMap.length_set_of_not_mem ((AMap.get_eq_none_iff _ _).1 hg)]; omega)
          simp only [← one] at this
          exact this
  | get key now =>
    simp only [step, get]
    cases hg : c.cache.get key with
    | some x =>
      obtain ⟨v, hh⟩ := x
      obtain ⟨hist, h1, h2⟩ := present v now hg
      exact ⟨_, .getHit key now v hist h1, h2, by trivial, by trivial⟩
    | none => exact ⟨s, .getMiss key now ((h.none_iff key).1 hg), h, by trivial, by trivial⟩
  | touch key now =>
    simp only [step, touch]
    cases hg : c.cache.get key with
    | some x =>
      obtain ⟨v, hh⟩ := x
      obtain ⟨hist, h1, h2⟩ := present v now hg
      exact ⟨_, .touchHit key now v hist h1, h2, by trivial, by trivial⟩
    | none => exact ⟨s, .touchMiss key now ((h.none_iff key).1 hg), h, by trivial, by trivial⟩
  | contains key =>
    refine ⟨s, ?_, h, by trivial, by trivial⟩
    have : c.cache.has key = (s key).isSome := by
      have h0 := h.none_iff key
      unfold AMap.has
      clear present
      cases h1 : c.cache.get key <;> cases h2 : s key <;> simp_all
    simp only [step, this]
    exact .contains key
  | len => exact ⟨s, .len _ hsize, h, by trivial, by trivial⟩
  | clear =>
    exact ⟨_, .clear, ⟨fun _ => ⟨fun _ => rfl, fun _ => rfl⟩, fun _ _ _ hg => (nomatch hg), AMap.wf_nil, Nat.zero_le _⟩, by trivial, by trivial⟩
  | remove key =>
    refine ⟨_, ?_, rel_erase h key, by trivial, by trivial⟩
    have : (c.cache.get key).map (·.1) = (s key).map (·.1) := by
      cases hg : c.cache.get key with
      | none => rw [(h.none_iff key).1 hg]
      | some x => obtain ⟨hist, h1, _⟩ := h.some_imp key x.1 x.2 hg; rw [h1]; simp
    simp only [step, remove, this]
    exact .remove key
  | pop =>
    simp only [step, popLruK]
    by_cases he : c.cache.isEmpty = true
    · simp only [if_pos he]
      refine ⟨s, .popEmpty ?_, h, by trivial, by trivial⟩
      intro key
      rw [← h.none_iff, List.isEmpty_iff.1 he]; rfl
    · simp only [if_neg he]
      cases hv : victim c.k c.cache with
      | none => exact absurd (by rw [victim_none hk2 hv]; rfl) he
      | some vk =>
        obtain ⟨vv, hh, hgv, hvic⟩ := victim_spec h hk hk2 hv
        simp only [hgv, Option.map_some]
        exact ⟨_, .pop vk vv hvic, rel_erase h vk, by trivial, by trivial⟩
  | peek =>
    refine ⟨s, ?_, h, by trivial, by trivial⟩
    simp only [step, peekLruK]
    by_cases he : c.cache.isEmpty = true
    · simp only [if_pos he]
      refine .peekEmpty ?_
      intro key
      rw [← h.none_iff, List.isEmpty_iff.1 he]; rfl
    · simp only [if_neg he]
      cases hv : victim c.k c.cache with
      | none => exact absurd (by rw [victim_none hk2 hv]; rfl) he
      | some vk =>
        obtain ⟨vv, hh, hgv, hvic⟩ := victim_spec h hk hk2 hv
        simp only [hgv, Option.map_some]
        exact .peek vk vv hvic
  | accessHistory key =>
    refine ⟨s, ?_, h, by trivial, by trivial⟩
    have : accessHistory c key = (s key).map fun x => x.2.reverse.take c.k := by
      unfold accessHistory
      cases hg : c.cache.get key with
      | none => rw [(h.none_iff key).1 hg]; rfl
      | some x =>
        obtain ⟨hist, h1, h2, _⟩ := h.some_imp key x.1 x.2 hg
        rw [h1, Option.map_some, h2, reverse_lastK]; rfl
    simp only [step, this]
    exact .history key
  | accessCount key =>
    refine ⟨s, ?_, h, by trivial, by trivial⟩
    have : accessCount c key = (s key).map fun x => min x.2.length c.k := by
      unfold accessCount
      cases hg : c.cache.get key with
      | none => rw [(h.none_iff key).1 hg]; rfl
      | some x =>
        obtain ⟨hist, h1, h2, _⟩ := h.some_imp key x.1 x.2 hg
        rw [h1, Option.map_some, h2, Replacer.lastK_length]; rfl
    simp only [step, this]
    exact .count key
  | kDistance key =>
    refine ⟨s, ?_, h, by trivial, by trivial⟩
    simp only [step, kDistance]
    cases hg : c.cache.get key with
    | none =>
      have := (h.none_iff key).1 hg
      refine .distNone key ?_
      intro v h' hs; rw [this] at hs; cases hs
    | some x =>
      obtain ⟨v, hh⟩ := x
      obtain ⟨hist, h1, h2, h3⟩ := h.some_imp key v hh hg
      have hp : 0 < hist.length := List.length_pos_iff.2 h3
      simp only
      have hl : hh.length = min hist.length c.k := by rw [h2, Replacer.lastK_length]
      by_cases hge : hh.length ≥ c.k
      · rw [if_pos hge]
        have i1 : hist.length - c.k < hist.length := by omega
        have : hh[hh.length - c.k]? = some hist[hist.length - c.k] := by
          rw [hl, show min hist.length c.k - c.k = 0 by omega, h2]
          unfold lastK; rw [List.getElem?_drop]; simp
        rw [this]
        exact .dist key v hist _ h1 (by omega) (List.getElem?_eq_getElem i1)
      · rw [if_neg hge]
        refine .distNone key ?_
        intro v' h' hs
        rw [h1] at hs; simp at hs; obtain ⟨_, rfl⟩ := hs
        omega
  | rank key =>
    refine ⟨s, ?_, h, by trivial, by trivial⟩
    cases hs : s key with
    | none =>
      have hg := (h.none_iff key).2 hs
      simp only [step, rank, hg]
      exact .rankNone key hs
    | some x =>
      obtain ⟨v, hist⟩ := x
      obtain ⟨n, h1, h2⟩ := rank_spec h hk hs
      simp only [step, h1]
      exact .rank key v hist n hs h2

theorem rel_perm {c : Cache K V} {s : Spec.State K V} (h : Rel c s) {m : AMap K (V × List Nat)}
    (hp : c.cache.Perm m) : Rel { c with cache := m } s :=
  ⟨fun key => by rw [← h.none_iff, AMap.get_perm hp h.wf key],
   fun key v hh hg => h.some_imp key v hh ((AMap.get_perm hp h.wf key).trans hg),
   AMap.wf_perm hp h.wf, by have := hp.length_eq; have := h.cap; simp only; omega⟩

theorem run_sim {c c' : Cache K V} {os outs} (hr : Runs c os outs c') : ∀ {s : Spec.State K V}, Rel c s →
    1 ≤ c.k → c.k ≤ u64Max →
    ∃ s', Spec.Run c.capacity c.k s os outs s' ∧ Rel c' s' ∧ c'.capacity = c.capacity := by
  induction hr with
  | nil c => intro s h _ _; exact ⟨s, .nil s, h, rfl⟩
  | @cons c m o os outs c' hp _ ih =>
    intro s h hk hk2
    obtain ⟨s', h1, h2, h3, h4⟩ := step_sim (rel_perm h hp) hk hk2 o
    obtain ⟨s'', g1, g2, g3⟩ := ih h2 (by rw [h4]; exact hk) (by rw [h4]; exact hk2)
    rw [h3, h4] at g1
    exact ⟨s'', .cons h1 g1, g2, by rw [g3, h3]⟩

/-! ## Property -/

/-- **C48.** For every call sequence, clock and hash-map iteration order, the results of the LRU-K
cache are results the specification allows. -/
theorem C48_lruk_cache_refines_spec (cap k : Nat) (hk : 1 ≤ k) (hk2 : k ≤ u64Max) (os : List (Op K V))
    (outs : List (Out K V)) (c : Cache K V) (hr : Runs (withK cap k) os outs c) :
    ∃ s, Spec.Run cap k (fun _ => none) os outs s := by
  obtain ⟨s, h, _⟩ := run_sim hr (rel_new cap k) hk hk2
  exact ⟨s, h⟩

/-- **C48.** The capacity is never exceeded. -/
theorem C48_lruk_cache_capacity (cap k : Nat) (hk : 1 ≤ k) (hk2 : k ≤ u64Max) (os : List (Op K V))
    (outs : List (Out K V)) (c : Cache K V) (hr : Runs (withK cap k) os outs c) : c.cache.length ≤ cap := by
  obtain ⟨s, _, h, h2⟩ := run_sim hr (rel_new cap k) hk hk2
  have := h.cap
  have h3 : c.capacity = cap := h2
  omega

/-- The run that never reorders the map. -/
def run (c : Cache K V) : List (Op K V) → Cache K V × List (Out K V)
  | [] => (c, [])
  | o :: os => let p := step c o; let q := run p.1 os; (q.1, p.2 :: q.2)

theorem runs_run (os : List (Op K V)) : ∀ c : Cache K V, Runs c os (run c os).2 (run c os).1 := by
  induction os with
  | nil => intro c; exact .nil c
  | cons o os ih => intro c; exact .cons (List.Perm.refl _) (ih _)

/-- Non-vacuity: key 2 has only one access, so it goes first although key 1 is older. -/
example : ∃ c, Runs (withK 2 2 : Cache Nat Nat)
    [.insert 1 10 100, .get 1 101, .insert 2 20 102, .peek, .insert 3 30 103, .contains 2, .kDistance 1, .accessHistory 1]
    [.val none, .val (some 10), .val none, .entry (some (2, 20)), .val none, .bool false, .optNat (some 100),
     .times (some [101, 100])] c :=
  ⟨_, runs_run [.insert 1 10 100, .get 1 101, .insert 2 20 102, .peek, .insert 3 30 103, .contains 2, .kDistance 1,
    .accessHistory 1] (withK 2 2)⟩

end Verif.LruK
