import Verif.Base.Bytes

/-!
# Bytes of a hash bucket page (`extendable_hash_table_bucket_page.rs`), property C59

Keys are encoded by `postcard`; its encoder and decoder are parameters.
-/

namespace Verif.Hash

open Verif.Bytes

/-! ## Model -/

/-- A record identifier: page id and slot (`common/rid.rs`). -/
structure Rid where
  page : Nat
  slot : Nat
  deriving DecidableEq, Repr

/-- `struct ExtendableHTableBucketPage` (extendable_hash_table_bucket_page.rs:61-70) without id and pin count. -/
structure BucketPage (Key : Type) where
  data : List Byte
  localDepth : Nat
  size : Nat
  maxSize : Nat
  entries : List (Key × Rid)
  deriving DecidableEq, Repr

variable {Key : Type}

/-- `DB_PAGE_SIZE` (common/config.rs). -/
def pageSize : Nat := 4096
/-- `BUCKET_HEADER_SIZE` (extendable_hash_table_bucket_page.rs:58): a page id and two 16-bit numbers. -/
def bucketHeader : Nat := 12

/-- `new` (extendable_hash_table_bucket_page.rs:221-235); `ty` is the type byte, at offset 0. -/
def BucketPage.new (ty : Byte) : BucketPage Key :=
  { data := ty :: List.replicate (pageSize - 1) 0, localDepth := 0, size := 0, maxSize := 0, entries := [] }

/-- `init` (extendable_hash_table_bucket_page.rs:73-76). -/
def BucketPage.init (p : BucketPage Key) (m : Nat) : BucketPage Key := { p with maxSize := m }

/-- `insert` (extendable_hash_table_bucket_page.rs:78-87). -/
def BucketPage.insert (p : BucketPage Key) (k : Key) (r : Rid) : BucketPage Key × Bool :=
  if p.size ≥ p.maxSize then (p, false) else ({ p with entries := p.entries ++ [(k, r)], size := p.size + 1 }, true)

/-- `lookup` (extendable_hash_table_bucket_page.rs:100-105). -/
def BucketPage.lookup [DecidableEq Key] (p : BucketPage Key) (k : Key) : Option Rid :=
  (p.entries.find? fun e => e.1 = k).map (·.2)

/-- The bytes of one entry (extendable_hash_table_bucket_page.rs:155-171). -/
def entryBytes (enc : Key → List Byte) (e : Key × Rid) : List Byte :=
  toLE 4 (enc e.1).length ++ enc e.1 ++ toLE 8 e.2.page ++ toLE 4 e.2.slot

/-- The bytes `serialize_entries` writes after the header (extendable_hash_table_bucket_page.rs:141-171). -/
def bodyBytes (enc : Key → List Byte) (p : BucketPage Key) : List Byte :=
  toLE 1 p.localDepth ++ toLE 2 p.size ++ toLE 2 p.maxSize ++ p.entries.flatMap (entryBytes enc)

/-- `serialize_entries` (extendable_hash_table_bucket_page.rs:139-174); `none` is a panic for lack of room. It is never
called. -/
def BucketPage.serialize (enc : Key → List Byte) (p : BucketPage Key) : Option (BucketPage Key) :=
  let body := bodyBytes enc p
  if bucketHeader + body.length ≤ pageSize then
    some { p with data := p.data.take bucketHeader ++ body ++ p.data.drop (bucketHeader + body.length) }
  else none

/-- The loop of `deserialize_entries` (extendable_hash_table_bucket_page.rs:191-212); `none` is an error or a panic. -/
def readEntries (dec : List Byte → Option Key) : Nat → List Byte → Option (List (Key × Rid))
  | 0, _ => some []
  | n + 1, bs => do
    let (len, bs) ← readLE 4 bs
    let (vb, bs) ← take? len bs
    let v ← dec vb
    let (pg, bs) ← readLE 8 bs
    let (sl, bs) ← readLE 4 bs
    let es ← readEntries dec n bs
    return (v, ⟨pg, sl⟩) :: es

/-- `deserialize_entries` (extendable_hash_table_bucket_page.rs:177-215). -/
def BucketPage.deserialize (dec : List Byte → Option Key) (p : BucketPage Key) : Option (BucketPage Key) := do
  let (ld, bs) ← readLE 1 (p.data.drop bucketHeader)
  let (size, bs) ← readLE 2 bs
  let (maxSize, bs) ← readLE 2 bs
  let es ← readEntries dec size bs
  return { p with localDepth := ld, size := size, maxSize := maxSize, entries := es }

/-- What the pool does when the page leaves memory and comes back: it writes `get_data()` (bucket_page.rs:278-280,
buffer_pool_manager_async.rs:1195-1264) and loads those bytes with `set_data` into a new page (665-721). -/
def BucketPage.reload (dec : List Byte → Option Key) (ty : Byte) (p : BucketPage Key) : Option (BucketPage Key) :=
  BucketPage.deserialize dec { (BucketPage.new ty : BucketPage Key) with data := p.data }

/-! ## Lemmas -/

theorem readEntries_bytes {enc : Key → List Byte} {dec : List Byte → Option Key} (hdec : ∀ k, dec (enc k) = some k)
    (rest : List Byte) : ∀ (es : List (Key × Rid)),
    (∀ e ∈ es, (enc e.1).length < 2 ^ 32 ∧ e.2.page < 2 ^ 64 ∧ e.2.slot < 2 ^ 32) →
    readEntries dec es.length (es.flatMap (entryBytes enc) ++ rest) = some es := by
  intro es
  induction es with
  | nil => intro _; rfl
  | cons e es ih =>
    intro h
    obtain ⟨h1, h2, h3⟩ := h e List.mem_cons_self
    simp only [List.length_cons, List.flatMap_cons, entryBytes, List.append_assoc, readEntries]
    rw [readLE_toLE h1]
    simp only [Option.bind_eq_bind, Option.bind_some, take?_append, hdec]
    rw [readLE_toLE h2]
    simp only [Option.bind_some]
    rw [readLE_toLE h3]
    have := ih (fun e' he' => h e' (List.mem_cons_of_mem _ he'))
    simp only [Option.bind_some, this]
    rfl

/-! ## Properties -/

/-- C59, the layout: if `serialize_entries` were called before the page is written, the page would come back with the same
entries. The hypotheses say that the key encoding can be undone and the numbers have their types' ranges. Missing: nothing
calls it (`C59_reload_fails`), and a bucket whose entries do not fit in the page makes it panic. -/
theorem C59_serialize_round_trip_partial {enc : Key → List Byte} {dec : List Byte → Option Key}
    (hdec : ∀ k, dec (enc k) = some k) (ty : Byte) (p q : BucketPage Key) (hs : p.serialize enc = some q)
    (hdata : p.data.length = pageSize) (hld : p.localDepth < 2 ^ 8) (hmax : p.maxSize < 2 ^ 16)
    (hsize : p.size = p.entries.length) (hsz : p.size < 2 ^ 16)
    (he : ∀ e ∈ p.entries, (enc e.1).length < 2 ^ 32 ∧ e.2.page < 2 ^ 64 ∧ e.2.slot < 2 ^ 32) :
    q.data.length = pageSize ∧
    ∃ r, q.reload dec ty = some r ∧ r.localDepth = p.localDepth ∧ r.size = p.size ∧ r.maxSize = p.maxSize ∧
      r.entries = p.entries := by
  unfold BucketPage.serialize at hs
  simp only at hs
  split at hs
  · next hfit =>
    cases hs
    refine ⟨?_, ?_⟩
    · have h1 : (List.take bucketHeader p.data).length = 12 := by
        rw [List.length_take, hdata]; decide
      have h2 : bucketHeader = 12 := rfl
      simp only [List.length_append, h1, List.length_drop, hdata]
      omega
    · have h12 : bucketHeader ≤ p.data.length := by rw [hdata]; decide
      have hd : List.drop bucketHeader (p.data.take bucketHeader ++ bodyBytes enc p ++
          p.data.drop (bucketHeader + (bodyBytes enc p).length)) =
          bodyBytes enc p ++ p.data.drop (bucketHeader + (bodyBytes enc p).length) := by
        rw [List.append_assoc, List.drop_append, List.length_take, Nat.min_eq_left h12]
        rw [List.drop_eq_nil_of_le (by rw [List.length_take]; omega)]
        simp
      unfold BucketPage.reload BucketPage.deserialize
      simp only [hd]
      generalize p.data.drop (bucketHeader + (bodyBytes enc p).length) = rest
      simp only [bodyBytes, List.append_assoc]
      rw [readLE_toLE (w := 1) hld]
      simp only [Option.bind_eq_bind, Option.bind_some]
      rw [readLE_toLE (w := 2) hsz]
      simp only [Option.bind_some]
      rw [readLE_toLE (w := 2) hmax]
      simp only [Option.bind_some]
      have := readEntries_bytes hdec rest p.entries he
      rw [hsize, this]
      exact ⟨_, rfl, rfl, rfl, rfl, rfl⟩
  · cases hs

/-- A one-byte key encoding. -/
def byteEnc (k : Byte) : List Byte := [k]
/-- Its decoder. -/
def byteDec : List Byte → Option Byte
  | [b] => some b
  | _ => none

/-- The hypotheses of the round trip hold for a page with two entries. -/
example : (∀ k, byteDec (byteEnc k) = some k) ∧
    ((((BucketPage.new 7 : BucketPage Byte).init 4).insert 3 ⟨10, 1⟩).1.insert 5 ⟨2 ^ 40, 9⟩).1.entries.length = 2 ∧
    (((((BucketPage.new 7 : BucketPage Byte).init 4).insert 3 ⟨10, 1⟩).1.insert 5 ⟨2 ^ 40, 9⟩).1.serialize byteEnc).isSome :=
  ⟨fun _ => rfl, rfl, by decide +kernel⟩

/-- A lookup finds the oldest entry of its key, and nothing if and only if there is none; an insert that is not refused adds its entry after all others. -/
theorem C59_lookup_partial [DecidableEq Key] (ty : Byte) (m : Nat) (es : List (Key × Rid)) (hm : es.length ≤ m) (k : Key) :
    let p := es.foldl (fun p e => (BucketPage.insert p e.1 e.2).1) ((BucketPage.new ty : BucketPage Key).init m)
    (p.lookup k = none ↔ ∀ r, (k, r) ∉ es) ∧
    ∀ r, p.lookup k = some r ↔ ∃ before after, es = before ++ (k, r) :: after ∧ ∀ r', (k, r') ∉ before := by
  have key : ∀ (es : List (Key × Rid)) (p : BucketPage Key), p.size + es.length ≤ p.maxSize →
      (es.foldl (fun p e => (BucketPage.insert p e.1 e.2).1) p).entries = p.entries ++ es := by
    intro es
    induction es with
    | nil => intro p _; simp
    | cons e es ih =>
      intro p h
      simp only [List.length_cons] at h
      have hi : (BucketPage.insert p e.1 e.2).1 = { p with entries := p.entries ++ [(e.1, e.2)], size := p.size + 1 } := by
        unfold BucketPage.insert; rw [if_neg (by omega)]
      rw [List.foldl_cons, hi, ih _ (by show p.size + 1 + es.length ≤ p.maxSize; omega)]
      simp
  have he := key es ((BucketPage.new ty).init m) (by simpa [BucketPage.new, BucketPage.init] using hm)
  have he' : (es.foldl (fun p e => (BucketPage.insert p e.1 e.2).1) ((BucketPage.new ty : BucketPage Key).init m)).entries = es := by
    rw [he]; rfl
  intro p
  have hp : p.entries = es := he'
  simp only [BucketPage.lookup, hp]
  constructor
  · simp only [Option.map_eq_none_iff, List.find?_eq_none, decide_eq_true_eq]
    exact ⟨fun h r hm => h _ hm rfl, fun h x hx hk => h x.2 (by rw [← hk]; exact hx)⟩
  · intro r
    simp only [Option.map_eq_some_iff, List.find?_eq_some_iff_append, decide_eq_true_eq, Bool.not_eq_true', decide_eq_false_iff_not]
    constructor
    · rintro ⟨e, ⟨hk, b, a, hs, hb⟩, hr⟩
      refine ⟨b, a, ?_, fun r' hm => hb _ hm rfl⟩
      rw [hs, ← hk, ← hr]
    · rintro ⟨b, a, hs, hb⟩
      exact ⟨(k, r), ⟨rfl, b, a, hs, fun x hx hk => hb x.2 (by rw [← hk]; exact hx)⟩, rfl⟩

-- Of two entries of one key the older one is found.
example : (([(3, ⟨10, 1⟩), (5, ⟨11, 2⟩), (3, ⟨12, 3⟩)] : List (Byte × Rid)).foldl (fun p e => (BucketPage.insert p e.1 e.2).1) ((BucketPage.new 7).init 4)).lookup 3 = some ⟨10, 1⟩ := by
  decide +kernel

/-- C59 is false: whatever is inserted into a bucket page, the page that comes back from disk is empty and accepts nothing
more, for every key encoding. -/
theorem C59_reload_fails [DecidableEq Key] (dec : List Byte → Option Key) (ty : Byte) (m : Nat) (es : List (Key × Rid)) :
    ∃ r, (es.foldl (fun p e => (BucketPage.insert p e.1 e.2).1) ((BucketPage.new ty : BucketPage Key).init m)).reload dec ty =
      some r ∧ (∀ k, r.lookup k = none) ∧ ∀ k v, (r.insert k v).2 = false := by
  have hdata : ∀ (es : List (Key × Rid)) (p : BucketPage Key),
      (es.foldl (fun p e => (BucketPage.insert p e.1 e.2).1) p).data = p.data := by
    intro es
    induction es with
    | nil => intro p; rfl
    | cons e es ih =>
      intro p
      rw [List.foldl_cons, ih]
      unfold BucketPage.insert; split <;> rfl
  unfold BucketPage.reload
  rw [hdata]
  refine ⟨{ data := ty :: List.replicate (pageSize - 1) 0, localDepth := 0, size := 0, maxSize := 0, entries := [] }, ?_, ?_, ?_⟩
  · have hd : List.drop bucketHeader (ty :: List.replicate (pageSize - 1) (0 : Byte)) = List.replicate 4084 0 := by
      show List.drop 11 (List.replicate 4095 (0 : Byte)) = _
      rw [List.drop_replicate]
    have r : ∀ w n, w ≤ n → ofLE (List.replicate w 0) = 0 →
        readLE w (List.replicate n (0 : Byte)) = some (0, List.replicate (n - w) 0) := by
      intro w n h h0
      simp [readLE, take?, h, Nat.min_eq_left h, h0]
    unfold BucketPage.deserialize
    simp only [BucketPage.init, BucketPage.new, hd]
    rw [r 1 4084 (by omega) rfl]
    simp only [Option.bind_eq_bind, Option.bind_some]
    rw [r 2 _ (by omega) rfl]
    simp only [Option.bind_some]
    rw [r 2 _ (by omega) rfl]
    rfl
  · intro k; rfl
  · intro k v; rfl

end Verif.Hash
