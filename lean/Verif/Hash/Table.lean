import Verif.Hash.Directory

/-!
# Extendible hash table (`src/container/disk_extendable_hash_table.rs`, bucket and header pages), properties C20, C21

The table is used behind a mutex (extendable_hash_table_index.rs:129), so each call is one step. Pages stay in the buffer
pool: fetching a page that exists always succeeds (for pages that leave the pool see `Verif/Hash/Bytes`). Creating a page may
fail at any time.
-/

namespace Verif.Hash

variable {K V : Type} [DecidableEq K]

/-! ## Model -/

/-- `struct ExtendableHTableBucketPage` (extendable_hash_table_bucket_page.rs:61-70); `size` is the number of entries. -/
structure Bucket (K V : Type) where
  maxSize : Nat
  entries : List (K × V)
  deriving Repr

/-- `is_full` (extendable_hash_table_bucket_page.rs:107-109). -/
def Bucket.isFull (b : Bucket K V) : Bool := b.entries.length ≥ b.maxSize

/-- `insert` (extendable_hash_table_bucket_page.rs:78-87). -/
def Bucket.insert (b : Bucket K V) (k : K) (v : V) : Bucket K V × Bool :=
  if b.isFull then (b, false) else ({ b with entries := b.entries ++ [(k, v)] }, true)

/-- `remove` (extendable_hash_table_bucket_page.rs:89-98). -/
def Bucket.remove (b : Bucket K V) (k : K) : Bucket K V × Bool :=
  if b.entries.any (fun e => e.1 = k) then ({ b with entries := b.entries.eraseP (fun e => e.1 = k) }, true) else (b, false)

/-- `lookup` (extendable_hash_table_bucket_page.rs:100-105). -/
def Bucket.lookup (b : Bucket K V) (k : K) : Option V := (b.entries.find? (fun e => e.1 = k)).map (·.2)

/-- `struct DiskExtendableHashTable` (disk_extendable_hash_table.rs:209-221) with its header page, its only directory page
and the bucket pages. `hash` is the low half of the hash function; `next` is the pool's next page id. -/
structure Table (K V : Type) where
  hash : K → Nat
  headerDepth : Nat
  dirMax : Nat
  bucketMax : Nat
  header : List (Option Nat)
  dirPid : Nat
  dir : Dir
  pages : AMap Nat (Bucket K V)
  next : Nat

/-- `set_directory_page_id` (extendable_hash_table_header_page.rs:170-180). -/
def setDirectory (header : List (Option Nat)) (i : Nat) (p : Nat) : List (Option Nat) :=
  if i < header.length then header.set i (some p) else header ++ [some p]

/-- `hash_to_directory_index` (extendable_hash_table_header_page.rs:113-144). -/
def headerIndex (depth hash : Nat) : Nat :=
  let capped := min depth 31
  if capped = 0 then 0 else (hash >>> (32 - capped)) &&& (2 ^ capped - 1)

/-- `new` (disk_extendable_hash_table.rs:258-338), given that its three pages can be created; they get the ids 0, 1, 2.
`bucket_max_size` is cut to 16 bits (line 307). -/
def Table.new (hash : K → Nat) (headerDepth dirMax bucketMax : Nat) : Table K V :=
  { hash, headerDepth, dirMax, bucketMax,
    header := (List.range (2 ^ headerDepth)).foldl (fun h i => setDirectory h i 1) (List.replicate 512 none),
    dirPid := 1,
    dir := (Dir.init dirMax).setPid 0 (some 2),
    pages := [(2, { maxSize := bucketMax % 65536, entries := [] })],
    next := 3 }

/-- `get_directory_page` (disk_extendable_hash_table.rs:562-577). -/
def Table.directory (t : Table K V) (di : Nat) : Option Dir :=
  match t.header[di]? with
  | some (some p) => if p = t.dirPid then some t.dir else none
  | _ => none

/-- `get_bucket_page` (disk_extendable_hash_table.rs:591-605). -/
def Table.bucket (t : Table K V) (di bi : Nat) : Option (Nat × Bucket K V) :=
  match t.directory di with
  | none => none
  | some d =>
    if bi < arraySize then
      match d.pid bi with
      | none => none
      | some p => (t.pages.get p).map fun b => (p, b)
    else none

/-- The first steps of `insert`, `get_value` and `remove` (disk_extendable_hash_table.rs:372-414, 458-478, 502-533). -/
def Table.locate (t : Table K V) (k : K) : Option (Nat × Nat × Nat × Bucket K V) :=
  let di := headerIndex t.headerDepth (t.hash k)
  match t.directory di with
  | none => none
  | some d =>
    let bi := d.bucketIndex (t.hash k)
    (t.bucket di bi).map fun pb => (di, bi, pb.1, pb.2)

/-- One iteration of the redistribution loop (disk_extendable_hash_table.rs:685-694). -/
def place (hash : K → Nat) (mask bi : Nat) (p : Bucket K V × Bucket K V) (e : K × V) : Bucket K V × Bucket K V :=
  if hash e.1 &&& mask = bi then ((p.1.insert e.1 e.2).1, p.2) else (p.1, (p.2.insert e.1 e.2).1)

/-- `split_bucket_internal` (disk_extendable_hash_table.rs:624-701); `alloc` says whether `new_page` succeeds; `none` is a
panic. -/
def Table.split (t : Table K V) (di bi : Nat) (alloc : Bool) : Option (Table K V × Bool) :=
  match t.directory di with
  | none => some (t, false)
  | some d =>
    if d.ld bi ≥ t.dirMax then some (t, false)
    else if alloc = false then some (t, false)
    else
      let np := t.next
      let nb : Bucket K V := { maxSize := t.bucketMax % 65536, entries := [] }
      let t := { t with next := np + 1, pages := t.pages.set np nb }
      match t.bucket di bi with
      | none => some (t, false)
      | some (op, ob) =>
        match d.updateForSplit bi np with
        | none => none
        | some (d', false) => some ({ t with dir := d' }, false)
        | some (d', true) =>
          let mask := 2 ^ d'.ld bi - 1
          let r := ob.entries.foldl (place t.hash mask bi) ({ ob with entries := [] }, nb)
          some ({ t with dir := d', pages := (t.pages.set op r.1).set np r.2 }, true)

/-- The loop of `insert` (disk_extendable_hash_table.rs:369-435); the first argument counts the attempts that are left out of
`MAX_INSERT_RETRIES`. -/
def Table.insertLoop (k : K) (v : V) (alloc : Nat → Bool) : Nat → Table K V → Option (Table K V × Bool)
  | 0, t => some (t, false)
  | n + 1, t =>
    match t.locate k with
    | none => some (t, false)
    | some (di, bi, p, b) =>
      if b.isFull = false then
        some ({ t with pages := t.pages.set p (b.insert k v).1 }, (b.insert k v).2)
      else
        match t.split di bi (alloc n) with
        | none => none
        | some (t', true) => insertLoop k v alloc n t'
        | some (t', false) => some (t', false)

/-- `insert` (disk_extendable_hash_table.rs:367-436) with `MAX_INSERT_RETRIES = 10` (line 345). -/
def Table.insert (t : Table K V) (k : K) (v : V) (alloc : Nat → Bool) : Option (Table K V × Bool) :=
  t.insertLoop k v alloc 10

/-- `get_value` (disk_extendable_hash_table.rs:456-481). -/
def Table.getValue (t : Table K V) (k : K) : Option V :=
  match t.locate k with
  | none => none
  | some (_, _, _, b) => b.lookup k

/-- `delete_page` of the pool (buffer_pool_manager_async.rs:869-904) when the guard on page `pinned` is held. -/
def deletePage (pages : AMap Nat (Bucket K V)) (pinned : Nat) : Option Nat → AMap Nat (Bucket K V)
  | none => pages
  | some p => if p = pinned then pages else pages.erase p

/-- `remove` (disk_extendable_hash_table.rs:500-549) with `merge_bucket` (718-737). -/
def Table.remove (t : Table K V) (k : K) : Table K V × Bool :=
  match t.locate k with
  | none => (t, false)
  | some (_, bi, p, b) =>
    let r := b.remove k
    let t := { t with pages := t.pages.set p r.1 }
    if r.2 && r.1.entries.isEmpty then
      match t.dir.mergeBucket bi with
      | (d', none) => ({ t with dir := d' }, true)
      | (d', some q) => ({ t with dir := d', pages := deletePage t.pages p q }, true)
    else (t, r.2)

/-- The calls; `alloc` is the pool's answers to the requests for new pages during the call. -/
inductive Op (K V : Type) where
  | insert (k : K) (v : V) (alloc : Nat → Bool)
  | remove (k : K)
  | get (k : K)

/-- Results. -/
inductive Out (V : Type) where
  | bool (b : Bool)
  | val (v : Option V)
  deriving DecidableEq, Repr

/-- One call; `none` is a panic. -/
def Table.step (t : Table K V) : Op K V → Option (Table K V × Out V)
  | .insert k v alloc => (t.insert k v alloc).map fun r => (r.1, .bool r.2)
  | .remove k => let r := t.remove k; some (r.1, .bool r.2)
  | .get k => some (t, .val (t.getValue k))

/-- A sequence of calls. -/
def Table.run (t : Table K V) : List (Op K V) → Option (Table K V × List (Out V))
  | [] => some (t, [])
  | o :: os =>
    match t.step o with
    | none => none
    | some (t', out) =>
      match t'.run os with
      | none => none
      | some (t'', outs) => some (t'', out :: outs)

/-! ## Specification: the list of entries, oldest first

An insert may be refused for lack of space, so its answer is not determined by the list; what it does is. -/

/-- What a call with this answer does to the entries, and whether the answer is right. -/
def Spec.step (l : List (K × V)) : Op K V → Out V → List (K × V) × Prop
  | .insert k v _, .bool true => (l ++ [(k, v)], True)
  | .insert _ _ _, .bool false => (l, True)
  | .remove k, .bool b => (l.eraseP (fun e => e.1 = k), (b = true ↔ k ∈ l.map (·.1)))
  | .get k, .val v => (l, v = (l.find? (fun e => e.1 = k)).map (·.2))
  | _, _ => (l, False)

/-- All answers are right. -/
def Spec.Agrees : List (K × V) → List (Op K V) → List (Out V) → Prop
  | _, [], [] => True
  | l, o :: os, r :: rs => (Spec.step l o r).2 ∧ Spec.Agrees (Spec.step l o r).1 os rs
  | _, _, _ => False

/-! ## The conditions under which the table works -/

/-- Every bucket split during the insert is split through the lowest of the slots that share it. -/
def Table.splitsLow (k : K) (alloc : Nat → Bool) : Nat → Table K V → Bool
  | 0, _ => true
  | n + 1, t =>
    match t.locate k with
    | none => true
    | some (di, bi, _, b) =>
      if b.isFull = false then true
      else decide (bi < 2 ^ t.dir.ld bi) &&
        match t.split di bi (alloc n) with
        | some (t', true) => splitsLow k alloc n t'
        | _ => true

/-- Removing this key does not lead to a merge: some other key is left in its bucket, or the directory refuses. -/
def Table.noMerge (t : Table K V) (k : K) : Bool :=
  match t.locate k with
  | none => true
  | some (_, bi, _, b) => !((b.remove k).2 && (b.remove k).1.entries.isEmpty) || (t.dir.mergeBucket bi).2.isNone

/-- The condition on one call. -/
def Table.OpOk (t : Table K V) : Op K V → Bool
  | .insert k _ alloc => t.splitsLow k alloc 10
  | .remove k => t.noMerge k
  | .get _ => true

/-- The condition on a sequence of calls. -/
def Table.RunOk : Table K V → List (Op K V) → Bool
  | _, [] => true
  | t, o :: os => t.OpOk o && match t.step o with
    | none => true
    | some (t', _) => RunOk t' os

/-! ## Invariant -/

/-- The entries with a given key. -/
def ofKey (l : List (K × V)) (k : K) : List (K × V) := l.filter (fun e => e.1 = k)

/-- The table represents the list of entries. -/
structure Inv (t : Table K V) (l : List (K × V)) : Prop where
  header : ∀ h, t.header[headerIndex t.headerDepth h]? = some (some t.dirPid)
  maxDepth : t.dir.maxDepth = t.dirMax
  small : t.dirMax ≤ 9
  gd : t.dir.gd ≤ t.dirMax
  wf : WF t.dir
  slots : ∀ i, i < 2 ^ t.dir.gd → ∃ p b, t.dir.pid i = some p ∧ p < t.next ∧ t.pages.get p = some b ∧
    b.maxSize = t.bucketMax % 65536 ∧ b.entries.length ≤ t.bucketMax % 65536
  keys : ∀ k p b, t.dir.pid (t.hash k % 2 ^ t.dir.gd) = some p → t.pages.get p = some b → ofKey b.entries k = ofKey l k
  own : ∀ i, i < 2 ^ t.dir.gd → ∀ p b, t.dir.pid i = some p → t.pages.get p = some b →
    ∀ e ∈ b.entries, t.dir.pid (t.hash e.1 % 2 ^ t.dir.gd) = some p

theorem find_ofKey (l : List (K × V)) (k : K) : l.find? (fun e => e.1 = k) = (ofKey l k).head? := by
  unfold ofKey; rw [List.head?_filter]

theorem mem_ofKey (l : List (K × V)) (k : K) : k ∈ l.map (·.1) ↔ ofKey l k ≠ [] := by
  unfold ofKey
  rw [ne_eq, List.filter_eq_nil_iff, List.mem_map]
  constructor
  · rintro ⟨e, he, rfl⟩ h; exact absurd (h e he) (by simp)
  · intro h
    apply Classical.byContradiction
    intro hn; apply h
    intro e he; simp only [decide_eq_true_eq]; intro e2; exact hn ⟨e, he, e2⟩

theorem ofKey_eraseP (l : List (K × V)) (k k' : K) :
    ofKey (l.eraseP (fun e => e.1 = k)) k' = if k' = k then (ofKey l k').tail else ofKey l k' := by
  induction l with
  | nil => unfold ofKey; simp
  | cons e l ih =>
    by_cases h : e.1 = k
    · rw [List.eraseP_cons_of_pos (by simpa using h)]
      by_cases hk : k' = k
      · subst hk; simp [ofKey, h]
      · have : ¬ e.1 = k' := by rw [h]; exact fun e => hk e.symm
        simp [ofKey, hk, this]
    · rw [List.eraseP_cons_of_neg (by simpa using h)]
      by_cases h2 : e.1 = k'
      · have hk : ¬ k' = k := by rw [← h2]; exact h
        have ih' := ih
        simp only [ofKey, hk, if_false] at ih' ⊢
        simp [h2, ih']
      · have := ih
        simp only [ofKey] at this ⊢
        simp only [List.filter_cons, h2, decide_false, Bool.false_eq_true, if_false]
        exact this

theorem headerIndex_lt (depth hash : Nat) : headerIndex depth hash < 2 ^ depth := by
  unfold headerIndex
  simp only
  split
  · exact Nat.two_pow_pos _
  · rw [and_mask]
    have h1 : hash >>> (32 - min depth 31) % 2 ^ min depth 31 < 2 ^ min depth 31 := Nat.mod_lt _ (Nat.two_pow_pos _)
    have h2 : 2 ^ min depth 31 ≤ 2 ^ depth := Nat.pow_le_pow_right (by omega) (Nat.min_le_left _ _)
    omega

theorem header_init (p : Nat) (h0 : List (Option Nat)) (n : Nat) :
    ∀ i, i < n → ((List.range n).foldl (fun h i => setDirectory h i p) h0)[i]? = some (some p) := by
  have key : ∀ n, n ≤ ((List.range n).foldl (fun h i => setDirectory h i p) h0).length ∧
      ∀ i, i < n → ((List.range n).foldl (fun h i => setDirectory h i p) h0)[i]? = some (some p) := by
    intro n
    induction n with
    | zero => exact ⟨Nat.zero_le _, fun i hi => absurd hi (Nat.not_lt_zero _)⟩
    | succ n ih =>
      rw [List.range_succ, List.foldl_append]
      generalize (List.range n).foldl (fun h i => setDirectory h i p) h0 = h1 at ih ⊢
      obtain ⟨ih1, ih2⟩ := ih
      simp only [List.foldl_cons, List.foldl_nil, setDirectory]
      by_cases hl : n < h1.length
      · rw [if_pos hl]
        refine ⟨by rw [List.length_set]; omega, fun i hi => ?_⟩
        rw [List.getElem?_set]
        by_cases e : n = i
        · subst e; simp [hl]
        · rw [if_neg e]; exact ih2 i (by omega)
      · rw [if_neg hl]
        have hn : h1.length = n := by omega
        refine ⟨by simp [hn], fun i hi => ?_⟩
        rw [List.getElem?_append]
        by_cases e : i < h1.length
        · rw [if_pos e]; exact ih2 i (by omega)
        · rw [if_neg e, show i = h1.length by omega]; simp
  exact (key n).2

theorem inv_new (hash : K → Nat) (hd dm bm : Nat) (hdm : dm ≤ 9) :
    Inv (Table.new hash hd dm bm : Table K V) [] := by
  refine ⟨?_, rfl, hdm, Nat.zero_le _, wf_init dm 2, ?_, ?_, ?_⟩
  · intro h
    exact header_init 1 _ _ _ (headerIndex_lt _ _)
  · intro i hi
    have : i = 0 := by simp only [Table.new, Dir.setPid, Dir.init, Nat.pow_zero] at hi; omega
    subst this
    exact ⟨2, _, rfl, (by decide : (2:Nat) < 3), rfl, rfl, Nat.zero_le _⟩
  · intro k p b hp hb
    have : p = 2 := by
      simp only [Table.new, Dir.setPid, Dir.init, Nat.pow_zero, Nat.mod_one, if_true, Option.some.injEq] at hp
      exact hp.symm
    subst this
    cases hb; rfl
  · intro i hi p b hp hb
    have : i = 0 := by simp only [Table.new, Dir.setPid, Dir.init, Nat.pow_zero] at hi; omega
    subst this
    have : p = 2 := by
      simp only [Table.new, Dir.setPid, if_true, Option.some.injEq] at hp
      exact hp.symm
    subst this
    cases hb; intro e he; cases he

theorem pow_le_array {g : Nat} (h : g ≤ 9) : 2 ^ g ≤ arraySize := Nat.pow_le_pow_right (by omega) h

theorem directory_eq {t : Table K V} {l} (I : Inv t l) (h : Nat) :
    t.directory (headerIndex t.headerDepth h) = some t.dir := by
  unfold Table.directory
  rw [I.header h]; simp

theorem bucket_eq {t : Table K V} {l} (I : Inv t l) (h : Nat) {i : Nat} (hi : i < 2 ^ t.dir.gd) {p b}
    (hp : t.dir.pid i = some p) (hb : t.pages.get p = some b) :
    t.bucket (headerIndex t.headerDepth h) i = some (p, b) := by
  unfold Table.bucket
  rw [directory_eq I]
  have := pow_le_array (Nat.le_trans I.gd I.small)
  simp only
  rw [if_pos (by omega), hp]
  simp [hb]

theorem locate_eq {t : Table K V} {l} (I : Inv t l) (k : K) :
    ∃ p b, t.locate k = some (headerIndex t.headerDepth (t.hash k), t.hash k % 2 ^ t.dir.gd, p, b) ∧
      t.dir.pid (t.hash k % 2 ^ t.dir.gd) = some p ∧ p < t.next ∧ t.pages.get p = some b ∧
      b.maxSize = t.bucketMax % 65536 ∧ b.entries.length ≤ t.bucketMax % 65536 ∧ ofKey b.entries k = ofKey l k := by
  have hi : t.hash k % 2 ^ t.dir.gd < 2 ^ t.dir.gd := Nat.mod_lt _ (Nat.two_pow_pos _)
  obtain ⟨p, b, h1, h2, h3, h4, h5⟩ := I.slots _ hi
  refine ⟨p, b, ?_, h1, h2, h3, h4, h5, I.keys k p b h1 h3⟩
  unfold Table.locate
  simp only [directory_eq I, Dir.bucketIndex, and_mask]
  rw [bucket_eq I _ hi h1 h3]; rfl

/-- Replacing the contents of the bucket in which the entries of key `k` are. -/
theorem inv_setBucket {t : Table K V} {l l' : List (K × V)} (I : Inv t l) (k : K) {p : Nat} {b b' : Bucket K V}
    (hp : t.dir.pid (t.hash k % 2 ^ t.dir.gd) = some p) (hb : t.pages.get p = some b)
    (hm : b'.maxSize = t.bucketMax % 65536) (hl : b'.entries.length ≤ t.bucketMax % 65536)
    (hk : ofKey b'.entries k = ofKey l' k)
    (ho : ∀ k', k' ≠ k → ofKey b'.entries k' = ofKey b.entries k' ∧ ofKey l' k' = ofKey l k')
    (hn : ∀ e ∈ b'.entries, e.1 = k ∨ e ∈ b.entries) :
    Inv { t with pages := t.pages.set p b' } l' := by
  refine ⟨I.header, I.maxDepth, I.small, I.gd, I.wf, ?_, ?_, ?_⟩
  · intro i hi
    obtain ⟨q, c, h1, h2, h3, h4, h5⟩ := I.slots i hi
    by_cases e : p = q
    · subst e; exact ⟨p, b', h1, h2, by simp, hm, hl⟩
    · exact ⟨q, c, h1, h2, by simp only [AMap.get_set, if_neg e, h3], h4, h5⟩
  · intro k' q c hq hc
    simp only at hq hc ⊢
    by_cases e : p = q
    · subst e
      rw [AMap.get_set_self] at hc; cases hc
      by_cases hkk : k' = k
      · subst hkk; exact hk
      · rw [(ho k' hkk).1, (ho k' hkk).2]; exact I.keys k' p b hq hb
    · rw [AMap.get_set, if_neg e] at hc
      have hkk : k' ≠ k := by
        rintro rfl; apply e; rw [hp] at hq; exact Option.some.inj hq
      rw [(ho k' hkk).2]; exact I.keys k' q c hq hc
  · intro i hi q c hq hc e he
    simp only at hq hc ⊢
    by_cases e1 : p = q
    · subst e1
      rw [AMap.get_set_self] at hc; cases hc
      rcases hn e he with h | h
      · rw [h]; exact hp
      · exact I.own i hi p b hq hb e h
    · rw [AMap.get_set, if_neg e1] at hc
      exact I.own i hi q c hq hc e he

omit [DecidableEq K] in
theorem insert_room {m : Nat} {a : List (K × V)} (e : K × V) (h : a.length < m) :
    (Bucket.insert { maxSize := m, entries := a } e.1 e.2).1 = { maxSize := m, entries := a ++ [e] } := by
  unfold Bucket.insert Bucket.isFull
  simp only [decide_eq_true_eq]
  rw [if_neg (by omega)]

omit [DecidableEq K] in
theorem fold_place (hash : K → Nat) (mask bi m : Nat) (es : List (K × V)) : ∀ (a c : List (K × V)),
    a.length + c.length + es.length ≤ m →
    es.foldl (place hash mask bi) ({ maxSize := m, entries := a }, { maxSize := m, entries := c }) =
      ({ maxSize := m, entries := a ++ es.filter (fun e => decide (hash e.1 &&& mask = bi)) },
       { maxSize := m, entries := c ++ es.filter (fun e => !decide (hash e.1 &&& mask = bi)) }) := by
  induction es with
  | nil => intro a c _; simp
  | cons e es ih =>
    intro a c h
    simp only [List.length_cons] at h
    rw [List.foldl_cons]
    by_cases hb : hash e.1 &&& mask = bi
    · have : place hash mask bi ({ maxSize := m, entries := a }, { maxSize := m, entries := c }) e =
          ({ maxSize := m, entries := a ++ [e] }, { maxSize := m, entries := c }) := by
        unfold place; rw [if_pos hb, insert_room e (by omega)]
      rw [this, ih _ _ (by simp only [List.length_append, List.length_singleton]; omega)]
      simp [hb]
    · have : place hash mask bi ({ maxSize := m, entries := a }, { maxSize := m, entries := c }) e =
          ({ maxSize := m, entries := a }, { maxSize := m, entries := c ++ [e] }) := by
        unfold place; rw [if_neg hb, insert_room e (by omega)]
      rw [this, ih _ _ (by simp only [List.length_append, List.length_singleton]; omega)]
      simp [hb]

theorem ofKey_filter (es : List (K × V)) (P : K → Bool) (k : K) :
    ofKey (es.filter fun e => P e.1) k = if P k then ofKey es k else [] := by
  unfold ofKey
  rw [List.filter_filter]
  by_cases h : P k = true
  · rw [if_pos h]
    apply List.filter_congr
    intro e _
    by_cases h2 : e.1 = k
    · simp [h2, h]
    · simp [h2]
  · rw [if_neg h, List.filter_eq_nil_iff]
    intro e _
    simp only [Bool.and_eq_true, decide_eq_true_eq, not_and]
    rintro rfl; exact h

/-- Doubling the directory. -/
theorem inv_grow {t : Table K V} {l} (I : Inv t l) {d' : Dir} (hg : t.dir.grow = some (d', true)) :
    Inv { t with dir := d' } l := by
  obtain ⟨h1, h1', h2⟩ := grow_get hg
  have hp : 0 < 2 ^ t.dir.gd := Nat.two_pow_pos _
  refine ⟨I.header, by rw [← I.maxDepth]; exact h1', I.small, ?_, wf_grow I.wf hg, ?_, ?_, ?_⟩
  · simp only; rw [h1]
    unfold Dir.grow at hg
    split at hg
    · simp at hg
    · rw [← I.maxDepth]; omega
  · intro i hi
    simp only [h1] at hi
    obtain ⟨p, b, h3, h4⟩ := I.slots (i % 2 ^ t.dir.gd) (Nat.mod_lt _ hp)
    exact ⟨p, b, by rw [← h3]; exact (h2 i hi).2, h4⟩
  · intro k p b hq hb
    simp only [h1] at hq hb
    rw [(h2 _ (Nat.mod_lt _ (Nat.two_pow_pos _))).2, mod_mod_pow _ (Nat.le_succ _)] at hq
    exact I.keys k p b hq hb
  · intro i hi p b hq hb e he
    simp only [h1] at hi hq hb ⊢
    rw [(h2 _ (Nat.mod_lt _ (Nat.two_pow_pos _))).2, mod_mod_pow _ (Nat.le_succ _)]
    rw [(h2 i hi).2] at hq
    exact I.own _ (Nat.mod_lt _ hp) p b hq hb e he

/-- A new page that nothing points to. -/
theorem inv_alloc {t : Table K V} {l} (I : Inv t l) (nb : Bucket K V) :
    Inv { t with next := t.next + 1, pages := t.pages.set t.next nb } l := by
  have hne : ∀ i, i < 2 ^ t.dir.gd → ∀ p, t.dir.pid i = some p → t.next ≠ p := by
    intro i hi p hp
    obtain ⟨q, _, h1, h2, _⟩ := I.slots i hi
    rw [hp] at h1; cases h1; omega
  refine ⟨I.header, I.maxDepth, I.small, I.gd, I.wf, ?_, ?_, ?_⟩
  · intro i hi
    obtain ⟨p, b, h1, h2, h3, h4⟩ := I.slots i hi
    refine ⟨p, b, h1, by simp only; omega, ?_, h4⟩
    simp only [AMap.get_set]; rw [if_neg (hne i hi p h1)]; exact h3
  · intro k p b hq hb
    simp only at hq hb
    rw [AMap.get_set, if_neg (hne _ (Nat.mod_lt _ (Nat.two_pow_pos _)) p hq)] at hb
    exact I.keys k p b hq hb
  · intro i hi p b hq hb e he
    simp only at hi hq hb
    rw [AMap.get_set, if_neg (hne i hi p hq)] at hb
    exact I.own i hi p b hq hb e he

/-- The bucket with the entries that pass a test. -/
def part (m : Nat) (es : List (K × V)) (P : K × V → Bool) : Bucket K V := { maxSize := m, entries := es.filter P }

/-- Redirecting half of the slots of a bucket to the new page and redistributing its entries. -/
theorem inv_redirect {t : Table K V} {l} (I : Inv t l) {bi np op : Nat} {ob : Bucket K V} (hbi : bi < 2 ^ t.dir.gd)
    (hop : t.dir.pid bi = some op) (hob : t.pages.get op = some ob) (hl : t.dir.ld bi < t.dir.gd)
    (hlow : bi < 2 ^ t.dir.ld bi) (hnp : np < t.next) (hf : ∀ i, i < 2 ^ t.dir.gd → t.dir.pid i ≠ some np) :
    Inv { t with
      dir := t.dir.redirect bi np (t.dir.ld bi),
      pages := (t.pages.set op (part (t.bucketMax % 65536) ob.entries
          (fun e => decide (t.hash e.1 &&& (2 ^ (t.dir.ld bi + 1) - 1) = bi)))).set np (part (t.bucketMax % 65536) ob.entries
          (fun e => !decide (t.hash e.1 &&& (2 ^ (t.dir.ld bi + 1) - 1) = bi))) } l := by
  have hne : op ≠ np := by rintro rfl; exact hf bi hbi hop
  have hlen : ob.entries.length ≤ t.bucketMax % 65536 := by
    obtain ⟨p, b, h1, _, h3, _, h5⟩ := I.slots bi hbi
    rw [hop] at h1; cases h1; rw [hob] at h3; cases h3; exact h5
  have hopn : op < t.next := by
    obtain ⟨p, b, h1, h2, _⟩ := I.slots bi hbi
    rw [hop] at h1; cases h1; exact h2
  have w := I.wf
  have cls : ∀ i, i < 2 ^ t.dir.gd → (i % 2 ^ t.dir.ld bi = bi % 2 ^ t.dir.ld bi ↔ t.dir.pid i = some op) := by
    intro i hi
    rw [← hop]
    constructor
    · intro e; exact (w.same bi i hbi hi e.symm).1.symm
    · intro e; exact (w.only bi i hbi hi e.symm).symm
  have hpid : ∀ i, i < 2 ^ t.dir.gd → (t.dir.redirect bi np (t.dir.ld bi)).pid i =
      if i % 2 ^ t.dir.ld bi = bi % 2 ^ t.dir.ld bi then (if i.testBit (t.dir.ld bi) = true then some np else t.dir.pid bi)
      else t.dir.pid i := by
    intro i hi; simp only [Dir.redirect, and_mask, and_bit, hi, true_and]
  refine ⟨I.header, I.maxDepth, I.small, I.gd, wf_redirect w hbi hl hf, ?_, ?_, ?_⟩
  · intro i hi
    have hi' : i < 2 ^ t.dir.gd := hi
    simp only
    rw [hpid i hi']
    by_cases c : i % 2 ^ t.dir.ld bi = bi % 2 ^ t.dir.ld bi
    · rw [if_pos c]
      split
      · exact ⟨np, _, rfl, hnp, by rw [AMap.get_set_self], rfl,
          Nat.le_trans (List.length_filter_le _ _) hlen⟩
      · exact ⟨op, _, hop, hopn, by rw [AMap.get_set, if_neg (Ne.symm hne), AMap.get_set_self], rfl,
          Nat.le_trans (List.length_filter_le _ _) hlen⟩
    · rw [if_neg c]
      obtain ⟨p, b, h1, h2, h3, h4⟩ := I.slots i hi'
      have hpo : op ≠ p := by rintro rfl; exact c ((cls i hi').2 h1)
      have hpn : np ≠ p := by rintro rfl; exact hf i hi' h1
      exact ⟨p, b, h1, h2, by rw [AMap.get_set, if_neg hpn, AMap.get_set, if_neg hpo]; exact h3, h4⟩
  · intro k p b hq hb
    have hi : t.hash k % 2 ^ t.dir.gd < 2 ^ t.dir.gd := Nat.mod_lt _ (Nat.two_pow_pos _)
    have hq' : (t.dir.redirect bi np (t.dir.ld bi)).pid (t.hash k % 2 ^ t.dir.gd) = some p := hq
    simp only at hb
    rw [hpid _ hi] at hq'
    -- bits of the slot are bits of the hash
    have hm : t.hash k % 2 ^ t.dir.gd % 2 ^ t.dir.ld bi = t.hash k % 2 ^ t.dir.ld bi := mod_mod_pow _ (Nat.le_of_lt hl)
    have hbit : (t.hash k % 2 ^ t.dir.gd).testBit (t.dir.ld bi) = (t.hash k).testBit (t.dir.ld bi) := by
      rw [Nat.testBit_mod_two_pow]; simp [hl]
    rw [hm, hbit] at hq'
    have hbm : bi % 2 ^ t.dir.ld bi = bi := Nat.mod_eq_of_lt hlow
    by_cases c : t.hash k % 2 ^ t.dir.ld bi = bi % 2 ^ t.dir.ld bi
    · rw [if_pos c] at hq'
      have hold : ofKey ob.entries k = ofKey l k := by
        apply I.keys k op ob _ hob
        rw [← cls _ hi, hm]; exact c
      have htest : (t.hash k &&& (2 ^ (t.dir.ld bi + 1) - 1) = bi) ↔ (t.hash k).testBit (t.dir.ld bi) = false := by
        rw [and_mask, mod_succ, c, hbm]
        have : 0 < 2 ^ t.dir.ld bi := Nat.two_pow_pos _
        cases (t.hash k).testBit (t.dir.ld bi) <;> simp
      cases hbt : (t.hash k).testBit (t.dir.ld bi) with
      | true =>
        rw [hbt] at hq'; simp only [if_true, Option.some.injEq] at hq'
        subst hq'
        rw [AMap.get_set_self] at hb; cases hb
        simp only [part]
        rw [ofKey_filter ob.entries (fun x => !decide (t.hash x &&& (2 ^ (t.dir.ld bi + 1) - 1) = bi)) k]
        rw [if_pos (by simp only [Bool.not_eq_true', decide_eq_false_iff_not]; rw [htest, hbt]; simp)]
        exact hold
      | false =>
        rw [hbt] at hq'; simp only [Bool.false_eq_true, if_false] at hq'
        rw [hop] at hq'; cases hq'
        rw [AMap.get_set, if_neg (Ne.symm hne), AMap.get_set_self] at hb; cases hb
        simp only [part]
        rw [ofKey_filter ob.entries (fun x => decide (t.hash x &&& (2 ^ (t.dir.ld bi + 1) - 1) = bi)) k]
        rw [if_pos (by simp only [decide_eq_true_eq]; rw [htest, hbt])]
        exact hold
    · rw [if_neg c] at hq'
      have hpo : op ≠ p := by
        rintro rfl; apply c; have := (cls _ hi).2 hq'; rw [hm] at this; exact this
      have hpn : np ≠ p := by rintro rfl; exact hf _ hi hq'
      rw [AMap.get_set, if_neg hpn, AMap.get_set, if_neg hpo] at hb
      exact I.keys k p b hq' hb
  · intro i hi p b hq hb e he
    have hi' : i < 2 ^ t.dir.gd := hi
    have hq' : (t.dir.redirect bi np (t.dir.ld bi)).pid i = some p := hq
    have hj : t.hash e.1 % 2 ^ t.dir.gd < 2 ^ t.dir.gd := Nat.mod_lt _ (Nat.two_pow_pos _)
    show (t.dir.redirect bi np (t.dir.ld bi)).pid (t.hash e.1 % 2 ^ t.dir.gd) = some p
    simp only at hb
    have hm : t.hash e.1 % 2 ^ t.dir.gd % 2 ^ t.dir.ld bi = t.hash e.1 % 2 ^ t.dir.ld bi := mod_mod_pow _ (Nat.le_of_lt hl)
    have hbit : (t.hash e.1 % 2 ^ t.dir.gd).testBit (t.dir.ld bi) = (t.hash e.1).testBit (t.dir.ld bi) := by
      rw [Nat.testBit_mod_two_pow]; simp [hl]
    have hbm : bi % 2 ^ t.dir.ld bi = bi := Nat.mod_eq_of_lt hlow
    have htest : t.hash e.1 % 2 ^ t.dir.ld bi = bi % 2 ^ t.dir.ld bi →
        ((t.hash e.1 &&& (2 ^ (t.dir.ld bi + 1) - 1) = bi) ↔ (t.hash e.1).testBit (t.dir.ld bi) = false) := by
      intro c
      rw [and_mask, mod_succ, c, hbm]
      have : 0 < 2 ^ t.dir.ld bi := Nat.two_pow_pos _
      cases (t.hash e.1).testBit (t.dir.ld bi) <;> simp
    rw [hpid _ hj, hm, hbit]
    by_cases hpn : np = p
    · subst hpn
      rw [AMap.get_set_self] at hb; cases hb
      simp only [part, List.mem_filter, Bool.not_eq_true', decide_eq_false_iff_not] at he
      have c := (cls _ hj).2 (I.own bi hbi op ob hop hob e he.1)
      rw [hm] at c
      rw [if_pos c, if_pos]
      have := he.2
      rw [htest c] at this
      simpa using this
    · rw [AMap.get_set, if_neg hpn] at hb
      by_cases hpo : op = p
      · subst hpo
        rw [AMap.get_set_self] at hb; cases hb
        simp only [part, List.mem_filter, decide_eq_true_eq] at he
        have c := (cls _ hj).2 (I.own bi hbi op ob hop hob e he.1)
        rw [hm] at c
        have := he.2
        rw [htest c] at this
        rw [if_pos c, if_neg (by simp [this])]
        exact hop
      · rw [AMap.get_set, if_neg hpo] at hb
        rw [hpid i hi'] at hq'
        have hci : ¬ i % 2 ^ t.dir.ld bi = bi % 2 ^ t.dir.ld bi := by
          intro c
          rw [if_pos c] at hq'
          split at hq'
          · exact hpn (Option.some.inj hq')
          · rw [hop] at hq'; exact hpo (Option.some.inj hq')
        rw [if_neg hci] at hq'
        have h1 := I.own i hi' p b hq' hb e he
        have hc : ¬ t.hash e.1 % 2 ^ t.dir.ld bi = bi % 2 ^ t.dir.ld bi := by
          intro c
          have := (cls _ hj).1 (by rw [hm]; exact c)
          rw [h1] at this; exact hpo (Option.some.inj this).symm
        rw [if_neg hc]; exact h1

/-- A split through the lowest slot keeps the entries. -/
theorem inv_split {t : Table K V} {l} (I : Inv t l) (h : Nat) {bi : Nat} (alloc : Bool) (hbi : bi < 2 ^ t.dir.gd)
    (hlow : bi < 2 ^ t.dir.ld bi) :
    ∃ t' r, t.split (headerIndex t.headerDepth h) bi alloc = some (t', r) ∧ Inv t' l := by
  unfold Table.split
  rw [directory_eq I]
  simp only
  by_cases h1 : t.dir.ld bi ≥ t.dirMax
  · rw [if_pos h1]; exact ⟨_, _, rfl, I⟩
  rw [if_neg h1]
  by_cases h2 : alloc = false
  · rw [if_pos h2]; exact ⟨_, _, rfl, I⟩
  rw [if_neg h2]
  have I1 := inv_alloc I ({ maxSize := t.bucketMax % 65536, entries := [] } : Bucket K V)
  obtain ⟨op, ob, ho1, ho2, ho3, ho4, ho5⟩ := I.slots bi hbi
  have hfresh : ∀ i, i < 2 ^ t.dir.gd → t.dir.pid i ≠ some t.next := by
    intro i hi e
    obtain ⟨q, _, h3, h4, _⟩ := I.slots i hi
    rw [e] at h3; cases h3; omega
  have hob : (t.pages.set t.next ({ maxSize := t.bucketMax % 65536, entries := [] } : Bucket K V)).get op = some ob := by
    rw [AMap.get_set, if_neg (by omega)]; exact ho3
  have hbk := bucket_eq I1 h (i := bi) hbi ho1 hob
  simp only at hbk
  rw [hbk]
  simp only
  have harr := pow_le_array (Nat.le_trans I.gd I.small)
  unfold Dir.updateForSplit
  rw [if_neg (by omega), growLoop_eq I.wf hbi]
  have hob' : ob = { maxSize := t.bucketMax % 65536, entries := ob.entries } := by rw [← ho4]
  by_cases hge : t.dir.ld bi ≥ t.dir.gd
  · rw [if_pos hge]
    have hd := I.wf.depth bi hbi
    have hmax := I.maxDepth
    have hs := I.small
    have hg : ∃ d', t.dir.grow = some (d', true) := by
      unfold Dir.grow
      rw [if_neg (by omega), if_neg]
      · exact ⟨_, rfl⟩
      · have : 2 ^ (t.dir.gd + 1) ≤ arraySize := pow_le_array (by omega)
        omega
    obtain ⟨d', hg⟩ := hg
    rw [hg]
    simp only
    have I2 := inv_grow I1 (d' := d') hg
    have hlo := grow_low hg hbi
    have hgd := (grow_get hg).1
    have hbi' : bi < 2 ^ d'.gd := by rw [hgd, Nat.pow_succ]; omega
    have hfr := grow_fresh hg hfresh
    have I3 := inv_redirect I2 (bi := bi) (np := t.next) (op := op) (ob := ob) hbi' (by rw [← ho1]; exact hlo.2) hob
      (by simp only; rw [hlo.1, hgd]; omega) (by simp only; rw [hlo.1]; exact hlow) (Nat.lt_succ_self _) hfr
    simp only [hlo.1] at I3
    refine ⟨_, _, rfl, ?_⟩
    have hld : (d'.redirect bi t.next (t.dir.ld bi)).ld bi = t.dir.ld bi + 1 := by
      simp [Dir.redirect, hbi']
    simp only [hld]
    rw [hob']
    simp only
    rw [fold_place t.hash _ bi _ ob.entries [] [] (by simpa using ho5)]
    simpa [part] using I3
  · rw [if_neg hge]
    simp only
    have I3 := inv_redirect I1 (bi := bi) (np := t.next) (op := op) (ob := ob) hbi ho1 hob (by simp only; omega) hlow
      (Nat.lt_succ_self _) hfresh
    refine ⟨_, _, rfl, ?_⟩
    have hld : (t.dir.redirect bi t.next (t.dir.ld bi)).ld bi = t.dir.ld bi + 1 := by
      simp [Dir.redirect, hbi]
    simp only [hld]
    rw [hob']
    simp only
    rw [fold_place t.hash _ bi _ ob.entries [] [] (by simpa using ho5)]
    simpa [part] using I3

theorem ofKey_append (a c : List (K × V)) (k : K) : ofKey (a ++ c) k = ofKey a k ++ ofKey c k := by
  simp [ofKey]

theorem inv_insertLoop (k : K) (v : V) (alloc : Nat → Bool) (n : Nat) : ∀ {t : Table K V} {l}, Inv t l →
    t.splitsLow k alloc n = true →
    ∃ t' r, t.insertLoop k v alloc n = some (t', r) ∧ Inv t' (if r then l ++ [(k, v)] else l) := by
  induction n with
  | zero => intro t l I _; exact ⟨t, false, rfl, I⟩
  | succ n ih =>
    intro t l I hs
    obtain ⟨p, b, hloc, hp, hpn, hb, hm, hl, hk⟩ := locate_eq I k
    unfold Table.splitsLow at hs
    unfold Table.insertLoop
    rw [hloc] at hs ⊢
    simp only at hs ⊢
    cases hf : b.isFull with
    | false =>
      simp only [if_true, Bucket.insert, hf, Bool.false_eq_true, if_false]
      refine ⟨_, _, rfl, ?_⟩
      simp only [if_true]
      refine inv_setBucket I k hp hb hm ?_ ?_ ?_ ?_
      · simp only [Bucket.isFull, decide_eq_false_iff_not] at hf
        simp only [List.length_append, List.length_singleton]; omega
      · simp only [ofKey_append, hk]
      · intro k' hk'
        have : ofKey [(k, v)] k' = [] := by simp [ofKey, Ne.symm hk']
        simp only [ofKey_append, this, List.append_nil, and_self]
      · intro e he
        simp only [List.mem_append, List.mem_singleton] at he
        rcases he with h | rfl
        · exact .inr h
        · exact .inl rfl
    | true =>
      simp only [hf, Bool.true_eq_false, if_false, Bool.and_eq_true, decide_eq_true_eq] at hs ⊢
      have hi : t.hash k % 2 ^ t.dir.gd < 2 ^ t.dir.gd := Nat.mod_lt _ (Nat.two_pow_pos _)
      obtain ⟨t1, r1, h1, I1⟩ := inv_split I (t.hash k) (alloc n) hi hs.1
      rw [h1] at hs ⊢
      cases r1 with
      | true => exact ih I1 hs.2
      | false => exact ⟨t1, false, rfl, I1⟩

theorem inv_step {t : Table K V} {l} (I : Inv t l) {o : Op K V} (ho : t.OpOk o = true) :
    ∃ t' out, t.step o = some (t', out) ∧ (Spec.step l o out).2 ∧ Inv t' (Spec.step l o out).1 := by
  cases o with
  | insert k v alloc =>
    obtain ⟨t', r, h1, I1⟩ := inv_insertLoop k v alloc 10 I ho
    refine ⟨t', .bool r, by simp only [Table.step, Table.insert, h1]; rfl, ?_⟩
    cases r with
    | true => exact ⟨trivial, I1⟩
    | false => exact ⟨trivial, I1⟩
  | get k =>
    obtain ⟨p, b, hloc, hp, hpn, hb, hm, hl, hk⟩ := locate_eq I k
    refine ⟨t, _, rfl, ?_, I⟩
    simp only [Spec.step, Table.getValue, hloc, Bucket.lookup, find_ofKey, hk]
  | remove k =>
    obtain ⟨p, b, hloc, hp, hpn, hb, hm, hl, hk⟩ := locate_eq I k
    refine ⟨(t.remove k).1, .bool (t.remove k).2, rfl, ?_⟩
    have hany : b.entries.any (fun e => decide (e.1 = k)) = true ↔ k ∈ l.map (·.1) := by
      rw [mem_ofKey, ← hk, ← mem_ofKey]; simp
    have hI : Inv { t with pages := t.pages.set p (b.remove k).1 } (l.eraseP (fun e => e.1 = k)) := by
      unfold Bucket.remove
      split
      · refine inv_setBucket I k hp hb hm (Nat.le_trans (List.length_eraseP_le ..) hl) ?_ ?_
          (fun e he => .inr (List.mem_of_mem_eraseP he))
        · simp only [ofKey_eraseP, if_true, hk]
        · intro k' hk'
          simp only [ofKey_eraseP, if_neg hk', and_self]
      · next hn =>
        have he : l.eraseP (fun e => decide (e.1 = k)) = l := by
          apply List.eraseP_of_forall_not
          intro e he; simp only [decide_eq_true_eq]; intro h
          exact hn (hany.2 (List.mem_map.2 ⟨e, he, h⟩))
        rw [he]
        exact inv_setBucket I k hp hb hm hl hk (fun _ _ => ⟨rfl, rfl⟩) (fun e he => .inr he)
    have hb2 : (b.remove k).2 = true ↔ k ∈ l.map (·.1) := by
      rw [← hany]; unfold Bucket.remove; split <;> simp_all
    simp only [Table.OpOk, Table.noMerge, hloc, Bool.or_eq_true, Bool.not_eq_true', Option.isNone_iff_eq_none] at ho
    simp only [Spec.step, Table.remove, hloc]
    cases hem : ((b.remove k).2 && (b.remove k).1.entries.isEmpty) with
    | false => simp only [Bool.false_eq_true, if_false]; exact ⟨hb2, hI⟩
    | true =>
      simp only [if_true]
      have hn : (t.dir.mergeBucket (t.hash k % 2 ^ t.dir.gd)).2 = none := by
        rcases ho with ho | ho
        · rw [hem] at ho; cases ho
        · exact ho
      have hd : (t.dir.mergeBucket (t.hash k % 2 ^ t.dir.gd)) = (t.dir, none) := by
        unfold Dir.mergeBucket at hn ⊢
        simp only at hn ⊢
        split
        · rfl
        · next h0 =>
          rw [if_neg h0] at hn
          split
          · rfl
          · next h1 => rw [if_neg h1] at hn; cases hn
      rw [hd]
      simp only [Bool.and_eq_true] at hem
      exact ⟨by rw [← hb2]; simp [hem.1], hI⟩

/-- A bucket holds no more entries than the table. -/
theorem bucket_length {t : Table K V} {l} (I : Inv t l) {i p : Nat} {b : Bucket K V} (hi : i < 2 ^ t.dir.gd)
    (hp : t.dir.pid i = some p) (hb : t.pages.get p = some b) : b.entries.length ≤ l.length := by
  classical
  have hperm : b.entries.Perm (l.filter fun e => decide (t.dir.pid (t.hash e.1 % 2 ^ t.dir.gd) = some p)) := by
    rw [List.perm_iff_count]
    intro e
    have hc : ∀ m : List (K × V), m.count e = (ofKey m e.1).count e := by
      intro m
      unfold ofKey
      rw [List.count_filter (by simp)]
    rw [hc b.entries, hc (l.filter _), ofKey_filter l (fun k => decide (t.dir.pid (t.hash k % 2 ^ t.dir.gd) = some p))]
    by_cases h : t.dir.pid (t.hash e.1 % 2 ^ t.dir.gd) = some p
    · rw [if_pos (by simpa using h), I.keys e.1 p b h hb]
    · rw [if_neg (by simpa using h)]
      have : ofKey b.entries e.1 = [] := by
        unfold ofKey
        rw [List.filter_eq_nil_iff]
        intro e' he'
        simp only [decide_eq_true_eq]
        intro hk
        exact h (hk ▸ I.own i hi p b hp hb e' he')
      rw [this]
  rw [hperm.length_eq]
  exact List.length_filter_le _ _

omit [DecidableEq K] in
theorem split_bucketMax {t t' : Table K V} {di bi a r} (h : t.split di bi a = some (t', r)) : t'.bucketMax = t.bucketMax := by
  unfold Table.split at h
  repeat' (first | (simp only at h; split at h) | (split at h))
  all_goals first
    | (cases h; rfl)
    | (cases h; done)
    | (simp only [Option.some.injEq, Prod.mk.injEq] at h; rw [← h.1])

theorem insertLoop_bucketMax {k : K} {v : V} {alloc : Nat → Bool} (n : Nat) : ∀ {t t' : Table K V} {r},
    t.insertLoop k v alloc n = some (t', r) → t'.bucketMax = t.bucketMax := by
  induction n with
  | zero => intro t t' r h; cases h; rfl
  | succ n ih =>
    intro t t' r h
    unfold Table.insertLoop at h
    split at h
    · cases h; rfl
    · split at h
      · cases h; rfl
      · split at h
        · cases h
        · next hs => rw [ih h, split_bucketMax hs]
        · next hs => cases h; exact split_bucketMax hs

theorem step_bucketMax {t t' : Table K V} {o : Op K V} {out} (h : t.step o = some (t', out)) : t'.bucketMax = t.bucketMax := by
  cases o with
  | insert k v alloc =>
    simp only [Table.step, Option.map_eq_some_iff] at h
    obtain ⟨r, h1, h2⟩ := h
    cases h2
    exact insertLoop_bucketMax 10 (r := r.2) h1
  | get k => cases h; rfl
  | remove k =>
    cases h
    unfold Table.remove
    split
    · rfl
    · simp only; split
      · split <;> rfl
      · rfl

/-! ## Properties -/

/-- C20 and C21, for calls that split buckets only through their lowest slot and never merge: no call panics, and every
answer is the one the list of entries gives: a lookup finds the value of the oldest entry with that key, `remove` removes that
entry and says whether there was one, and a refused insert changes nothing. Missing: splits through another slot
(`C20_lookup_after_split_fails`) and merges (`C21_remove_merge_fails`). -/
theorem C20_C21_table_refines_list_partial (hash : K → Nat) (hd dm bm : Nat) (hdm : dm ≤ 9) (os : List (Op K V))
    (hok : (Table.new hash hd dm bm).RunOk os = true) :
    ∃ t outs, (Table.new hash hd dm bm).run os = some (t, outs) ∧ Spec.Agrees [] os outs := by
  have gen : ∀ (os : List (Op K V)) {t : Table K V} {l}, Inv t l → t.RunOk os = true →
      ∃ t' outs, t.run os = some (t', outs) ∧ Spec.Agrees l os outs := by
    intro os
    induction os with
    | nil => intro t l _ _; exact ⟨t, [], rfl, trivial⟩
    | cons o os ih =>
      intro t l I h
      simp only [Table.RunOk, Bool.and_eq_true] at h
      obtain ⟨t1, out, h1, h2, I1⟩ := inv_step I h.1
      rw [h1] at h
      obtain ⟨t2, outs, h3, h4⟩ := ih I1 h.2
      refine ⟨t2, out :: outs, ?_, h2, h4⟩
      simp only [Table.run, h1, h3]
  exact gen os (inv_new hash hd dm bm hdm) hok

/-- The entries after the calls and their answers. -/
def Spec.after : List (K × V) → List (Op K V) → List (Out V) → List (K × V)
  | l, o :: os, r :: rs => Spec.after (Spec.step l o r).1 os rs
  | l, _, _ => l

/-- C20: an insert is not refused while the table holds fewer entries than fit in one bucket, whatever the hash function. (The
same condition on the calls before as in the previous theorem.) -/
theorem C20_insert_accepted_partial (hash : K → Nat) (hd dm bm : Nat) (hdm : dm ≤ 9) (os : List (Op K V))
    (hok : (Table.new hash hd dm bm).RunOk os = true) (t : Table K V) (outs : List (Out V))
    (hrun : (Table.new hash hd dm bm).run os = some (t, outs)) (hroom : (Spec.after [] os outs).length < bm % 65536)
    (k : K) (v : V) (alloc : Nat → Bool) : ∃ t', t.insert k v alloc = some (t', true) := by
  have gen : ∀ (os : List (Op K V)) {t : Table K V} {l}, Inv t l → t.bucketMax = bm → t.RunOk os = true → ∀ {t' outs},
      t.run os = some (t', outs) → Inv t' (Spec.after l os outs) ∧ t'.bucketMax = bm := by
    intro os
    induction os with
    | nil => intro t l I hbm _ t' outs h; cases h; exact ⟨I, hbm⟩
    | cons o os ih =>
      intro t l I hbm h t' outs hr
      simp only [Table.RunOk, Bool.and_eq_true] at h
      obtain ⟨t1, out, h1, h2, I1⟩ := inv_step I h.1
      rw [h1] at h
      simp only [Table.run, h1] at hr
      cases h3 : t1.run os with
      | none => rw [h3] at hr; cases hr
      | some r =>
        rw [h3] at hr
        cases hr
        exact ih I1 (by rw [← hbm]; exact step_bucketMax h1) h.2 h3
  obtain ⟨I, hbm⟩ := gen os (inv_new hash hd dm bm hdm) rfl hok hrun
  obtain ⟨p, b, hloc, hp, hpn, hb, hm, hl, hk⟩ := locate_eq I k
  have hlen := bucket_length I (Nat.mod_lt _ (Nat.two_pow_pos _)) hp hb
  have hf : b.isFull = false := by
    simp only [Bucket.isFull, decide_eq_false_iff_not]; rw [hm, hbm]; omega
  unfold Table.insert Table.insertLoop
  rw [hloc]
  simp only [hf, if_true, Bucket.insert, Bool.false_eq_true, if_false]
  exact ⟨_, rfl⟩

/-- A hash function on natural numbers that keeps the number: the low bits select the slot. -/
def idHash : Nat → Nat := fun n => n % 2 ^ 32

/-- The hypotheses hold for a run with splits, a duplicate key, a removal and a refused insert. -/
example : (Table.new idHash 4 2 2 : Table Nat Nat).RunOk
    [.insert 0 10 (fun _ => true), .insert 1 11 (fun _ => true), .insert 2 12 (fun _ => true), .insert 0 20 (fun _ => true),
     .insert 3 13 (fun _ => true), .remove 0, .get 0, .insert 8 18 (fun _ => true), .insert 4 14 (fun _ => true), .get 2,
     .remove 5] = true ∧
   ((Table.new idHash 4 2 2 : Table Nat Nat).run
    [.insert 0 10 (fun _ => true), .insert 1 11 (fun _ => true), .insert 2 12 (fun _ => true), .insert 0 20 (fun _ => true),
     .insert 3 13 (fun _ => true), .remove 0, .get 0, .insert 8 18 (fun _ => true), .insert 4 14 (fun _ => true), .get 2,
     .remove 5]).map (·.2) = some
    [.bool true, .bool true, .bool true, .bool true, .bool true, .bool true, .val (some 20), .bool true, .bool false,
     .val (some 12), .bool false] := by decide +kernel

/-- C20 is false: with one entry per bucket, inserting 0, 1, 3, 2 splits the bucket of the even keys through slot 2 instead of
slot 0. Slot 0 keeps the old page, but the redistribution compares with 2 and moves the entry of key 0 to the new page:
`get_value(0)` finds nothing. All four inserts are reported as done. -/
theorem C20_lookup_after_split_fails :
    ((Table.new idHash 4 4 1 : Table Nat Nat).run
      [.insert 0 10 (fun _ => true), .insert 1 11 (fun _ => true), .insert 3 13 (fun _ => true), .get 0,
       .insert 2 12 (fun _ => true), .get 0]).map (·.2) =
    some [.bool true, .bool true, .bool true, .val (some 10), .bool true, .val none] := by decide +kernel

/-- C21 is false: removing the only key of a bucket deletes the page of its buddy, with the entries of other keys. -/
theorem C21_remove_merge_fails :
    ((Table.new idHash 4 4 1 : Table Nat Nat).run
      [.insert 0 10 (fun _ => true), .insert 1 11 (fun _ => true), .get 1, .remove 0, .get 1]).map (·.2) =
    some [.bool true, .bool true, .val (some 11), .bool true, .val none] := by decide +kernel

/-- Keys with equal hash are refused once their bucket is full: an insert can fail although the table is almost empty. -/
theorem C20_equal_hash_refused :
    ((Table.new (fun _ => 0) 4 4 1 : Table Nat Nat).run [.insert 0 5 (fun _ => true), .insert 1 6 (fun _ => true)]).map (·.2) =
    some [.bool true, .bool false] := by decide +kernel

end Verif.Hash
