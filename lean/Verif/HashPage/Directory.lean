/-!
# The directory page of an extendible hash table

`storage/page/page_types/hash_table_directory_page.rs`. `none` is a panic (overflow checks on, as in a debug build). Left out: page id and LSN, printing, and
that a panic while the lock of the page ids is held poisons it.
-/

namespace Verif.HashPage

/-- `HashTableDirectoryPage`, hash_table_directory_page.rs:75-81. -/
structure Dir where
  globalDepth : Nat
  localDepths : List Nat
  pageIds : List Nat
  deriving Repr, DecidableEq

/-- `new`, hash_table_directory_page.rs:91-99, with `DIRECTORY_ARRAY_SIZE` = 512 (65). -/
def Dir.new : Dir := ⟨0, List.replicate 512 0, List.replicate 512 0⟩

/-- `get_bucket_page_id`, hash_table_directory_page.rs:138-141. -/
def Dir.pageId (d : Dir) (i : Nat) : Option Nat := d.pageIds[i]?

/-- `set_bucket_page_id`, hash_table_directory_page.rs:149-152. -/
def Dir.setPageId (d : Dir) (i p : Nat) : Option Dir := if i < d.pageIds.length then some { d with pageIds := d.pageIds.set i p } else none

/-- `get_local_depth`, hash_table_directory_page.rs:223-225. -/
def Dir.localDepth (d : Dir) (i : Nat) : Option Nat := d.localDepths[i]?

/-- `set_local_depth`, hash_table_directory_page.rs:233-235; a `u8`. -/
def Dir.setLocalDepth (d : Dir) (i n : Nat) : Option Dir :=
  if i < d.localDepths.length ∧ n < 256 then some { d with localDepths := d.localDepths.set i n } else none

/-- `incr_local_depth`, hash_table_directory_page.rs:242-244. -/
def Dir.incrLocalDepth (d : Dir) (i : Nat) : Option Dir := (d.localDepth i).bind fun n => d.setLocalDepth i (n + 1)

/-- `decr_local_depth`, hash_table_directory_page.rs:251-253. -/
def Dir.decrLocalDepth (d : Dir) (i : Nat) : Option Dir := (d.localDepth i).bind fun n => if n = 0 then none else d.setLocalDepth i (n - 1)

/-- `incr_global_depth`, hash_table_directory_page.rs:195-197; a `u32`. -/
def Dir.incrGlobalDepth (d : Dir) : Option Dir := if d.globalDepth + 1 < 2 ^ 32 then some { d with globalDepth := d.globalDepth + 1 } else none

/-- `decr_global_depth`, hash_table_directory_page.rs:200-202. -/
def Dir.decrGlobalDepth (d : Dir) : Option Dir := if d.globalDepth = 0 then none else some { d with globalDepth := d.globalDepth - 1 }

/-- `1 << n` on a `u32`. -/
def shl1 (n : Nat) : Option Nat := if n < 32 then some (1 <<< n) else none

/-- `get_split_image_index`, hash_table_directory_page.rs:163-165. -/
def Dir.splitImage (d : Dir) (i : Nat) : Option Nat :=
  (d.localDepth i).bind fun n => if n = 0 then none else (shl1 (n - 1)).map fun m => i ^^^ m

/-- `get_global_depth_mask`, hash_table_directory_page.rs:172-174. -/
def Dir.globalMask (d : Dir) : Option Nat := (shl1 d.globalDepth).map (· - 1)

/-- `get_local_depth_mask`, hash_table_directory_page.rs:185-187. -/
def Dir.localMask (d : Dir) (i : Nat) : Option Nat := (d.localDepth i).bind fun n => (shl1 n).map (· - 1)

/-- `get_local_high_bit`, hash_table_directory_page.rs:264-266. -/
def Dir.highBit (d : Dir) (i : Nat) : Option Nat := (d.localDepth i).bind fun n => if n = 0 then none else shl1 (n - 1)

/-- `size`, hash_table_directory_page.rs:210-212. -/
def Dir.size (d : Dir) : Option Nat := shl1 d.globalDepth

/-- `can_shrink`, hash_table_directory_page.rs:205-207. -/
def Dir.canShrink (d : Dir) : Option Bool :=
  if d.globalDepth > 0 then d.size.bind fun s => (shl1 (d.globalDepth - 1)).map fun m => decide (s ≤ m) else some false

/-- `verify_integrity`, hash_table_directory_page.rs:273-276: a comment and no code. -/
def Dir.verify (_ : Dir) : Option Unit := some ()

/-- A call that changes the directory. -/
inductive DirCall where
  | setPageId (i p : Nat)
  | setLocalDepth (i n : Nat)
  | incrLocalDepth (i : Nat)
  | decrLocalDepth (i : Nat)
  | incrGlobalDepth
  | decrGlobalDepth
  deriving Repr, DecidableEq

/-- The call. -/
def Dir.call (d : Dir) : DirCall → Option Dir
  | .setPageId i p => d.setPageId i p
  | .setLocalDepth i n => d.setLocalDepth i n
  | .incrLocalDepth i => d.incrLocalDepth i
  | .decrLocalDepth i => d.decrLocalDepth i
  | .incrGlobalDepth => d.incrGlobalDepth
  | .decrGlobalDepth => d.decrGlobalDepth

/-- Calls one after another, up to a panic. -/
def Dir.calls (d : Dir) (cs : List DirCall) : Option Dir := cs.foldlM Dir.call d

/-! ## What a directory promises -/

/-- Two numbers differ in bit `b` and nowhere else. -/
def DifferAt (b i j : Nat) : Prop := ∀ c, i.testBit c = j.testBit c ↔ c ≠ b

/-- The lowest `n` bits. -/
def LowBits (n m : Nat) : Prop := ∀ c, m.testBit c = decide (c < n)

/-- Every bucket is pointed at twice or more: the last bit of the directory index is not needed (the documentation of the module,
hash_table_directory_page.rs:1-58, and of `can_shrink`). -/
def Dir.Shrinkable (d : Dir) : Prop := 0 < d.globalDepth ∧ ∀ i, i < 2 ^ d.globalDepth → ∃ n, d.localDepths[i]? = some n ∧ n < d.globalDepth

/-- The documentation of `verify_integrity`, hash_table_directory_page.rs:268-272, for the entries in use. -/
def Dir.Integrity (d : Dir) : Prop :=
  (∀ i n, i < 2 ^ d.globalDepth → d.localDepths[i]? = some n → n ≤ d.globalDepth) ∧
  (∀ i n p, i < 2 ^ d.globalDepth → d.localDepths[i]? = some n → d.pageIds[i]? = some p →
    ((List.range (2 ^ d.globalDepth)).filter fun j => d.pageIds[j]? == some p).length = 2 ^ (d.globalDepth - n)) ∧
  (∀ i j, i < 2 ^ d.globalDepth → j < 2 ^ d.globalDepth → d.pageIds[i]? = d.pageIds[j]? → d.localDepths[i]? = d.localDepths[j]?)

theorem shl1_eq {n m : Nat} (h : shl1 n = some m) : n < 32 ∧ m = 2 ^ n := by
  unfold shl1 at h
  split at h
  · rename_i hn
    cases h
    exact ⟨hn, by rw [Nat.shiftLeft_eq, Nat.one_mul]⟩
  · cases h

theorem differ_xor (b i : Nat) : DifferAt b i (i ^^^ 2 ^ b) := by
  intro c
  rw [Nat.testBit_xor, Nat.testBit_two_pow]
  by_cases h : c = b
  · subst h; cases i.testBit c <;> simp
  · have : ¬ b = c := fun e => h e.symm
    cases i.testBit c <;> simp [h, this]

theorem splitImage_eq {d : Dir} {i j : Nat} (h : d.splitImage i = some j) :
    ∃ n, d.localDepth i = some (n + 1) ∧ n < 32 ∧ j = i ^^^ 2 ^ n := by
  unfold Dir.splitImage at h
  cases hn : d.localDepth i with
  | none => rw [hn] at h; cases h
  | some n =>
    rw [hn] at h
    simp only [Option.bind_some] at h
    split at h
    · cases h
    · rename_i h0
      cases hm : shl1 (n - 1) with
      | none => rw [hm] at h; cases h
      | some m =>
        rw [hm] at h
        cases h
        obtain ⟨h1, rfl⟩ := shl1_eq hm
        obtain ⟨n, rfl⟩ : ∃ k, n = k + 1 := ⟨n - 1, by omega⟩
        exact ⟨n, rfl, h1, rfl⟩

/-- The split image of an index differs from it in the highest bit of its local depth, and nowhere else; it is another index of the directory if the depth is
not larger than the global one; and the split image of the split image, at the same local depth, is the index. -/
theorem C148_image {d : Dir} {i j : Nat} (h : d.splitImage i = some j) :
    ∃ n, d.localDepth i = some (n + 1) ∧ DifferAt n i j ∧ j ≠ i ∧ (n < d.globalDepth → i < 2 ^ d.globalDepth → j < 2 ^ d.globalDepth) ∧
      (d.localDepth j = some (n + 1) → d.splitImage j = some i) := by
  obtain ⟨n, h1, h2, rfl⟩ := splitImage_eq h
  refine ⟨n, h1, differ_xor n i, ?_, fun hg hi => ?_, fun hj => ?_⟩
  · intro e
    have := differ_xor n i n
    rw [e] at this
    exact (this.1 rfl) rfl
  · exact Nat.xor_lt_two_pow hi (Nat.pow_lt_pow_right (by decide) hg)
  · unfold Dir.splitImage
    rw [hj]
    have : n + 1 - 1 = n := by omega
    simp only [Option.bind_some, Nat.add_one_ne_zero, if_false, this, shl1, h2, if_true, Option.map_some, Nat.shiftLeft_eq, Nat.one_mul]
    rw [Nat.xor_assoc, Nat.xor_self, Nat.xor_zero]

/-- ... but for a bucket of local depth 0 it panics. -/
theorem C148_image_fails {d : Dir} {i : Nat} (h : d.localDepth i = some 0) : d.splitImage i = none ∧ d.highBit i = none := by
  unfold Dir.splitImage Dir.highBit
  rw [h]
  exact ⟨rfl, rfl⟩

/-- The masks have as many ones as the depths say, and the high bit is the bit in which the split image differs. -/
theorem C148_masks {d : Dir} {i g l b j : Nat} (hg : d.globalMask = some g) (hl : d.localMask i = some l) (hb : d.highBit i = some b)
    (hj : d.splitImage i = some j) :
    LowBits d.globalDepth g ∧ (∃ n, d.localDepth i = some n ∧ LowBits n l) ∧ j = i ^^^ b ∧ d.size = some (g + 1) := by
  have low : ∀ {n m : Nat}, (shl1 n).map (· - 1) = some m → LowBits n m ∧ shl1 n = some (m + 1) := by
    intro n m h
    cases hs : shl1 n with
    | none => rw [hs] at h; cases h
    | some s =>
      rw [hs] at h
      cases h
      obtain ⟨_, rfl⟩ := shl1_eq hs
      refine ⟨fun c => Nat.testBit_two_pow_sub_one n c, ?_⟩
      have := Nat.two_pow_pos n
      rw [show 2 ^ n - 1 + 1 = 2 ^ n by omega]
  obtain ⟨g1, g2⟩ := low hg
  refine ⟨g1, ?_, ?_, g2⟩
  · unfold Dir.localMask at hl
    cases hn : d.localDepth i with
    | none => rw [hn] at hl; cases hl
    | some n => rw [hn] at hl; exact ⟨n, rfl, (low hl).1⟩
  · obtain ⟨n, h1, h2, rfl⟩ := splitImage_eq hj
    unfold Dir.highBit at hb
    rw [h1] at hb
    simp only [Option.bind_some, Nat.add_one_ne_zero, if_false, Nat.add_sub_cancel] at hb
    rw [(shl1_eq hb).2]

/-- What was stored at an index is read there, and nothing else changes. -/
theorem C148_store {d d' : Dir} :
    (∀ {i p}, d.setPageId i p = some d' → (∀ j, d'.pageId j = if j = i then some p else d.pageId j) ∧
      (∀ j, d'.localDepth j = d.localDepth j) ∧ d'.globalDepth = d.globalDepth) ∧
    (∀ {i n}, d.setLocalDepth i n = some d' → (∀ j, d'.localDepth j = if j = i then some n else d.localDepth j) ∧
      (∀ j, d'.pageId j = d.pageId j) ∧ d'.globalDepth = d.globalDepth) := by
  refine ⟨fun {i p} h => ?_, fun {i n} h => ?_⟩
  · unfold Dir.setPageId at h
    split at h
    · rename_i hi
      cases h
      refine ⟨fun j => ?_, fun _ => rfl, rfl⟩
      simp only [Dir.pageId, List.getElem?_set]
      by_cases hj : i = j
      · subst hj; simp [hi]
      · rw [if_neg hj, if_neg (Ne.symm hj)]
    · cases h
  · unfold Dir.setLocalDepth at h
    split at h
    · rename_i hi
      cases h
      refine ⟨fun j => ?_, fun _ => rfl, rfl⟩
      simp only [Dir.localDepth, List.getElem?_set]
      by_cases hj : i = j
      · subst hj; simp [hi.1]
      · rw [if_neg hj, if_neg (Ne.symm hj)]
    · cases h

/-- Incrementing and decrementing a local depth changes it by one, there and only there, and undo each other. -/
theorem C148_depths {d d' : Dir} {i : Nat} (h : d.incrLocalDepth i = some d') :
    (∃ n, d.localDepth i = some n ∧ ∀ j, d'.localDepth j = if j = i then some (n + 1) else d.localDepth j) ∧
    (d.globalDepth = d'.globalDepth ∧ ∀ j, d'.pageId j = d.pageId j) ∧ d'.decrLocalDepth i = some d := by
  unfold Dir.incrLocalDepth at h
  cases hn : d.localDepth i with
  | none => rw [hn] at h; cases h
  | some n =>
    rw [hn] at h
    simp only [Option.bind_some] at h
    obtain ⟨s1, s2, s3⟩ := (C148_store (d := d) (d' := d')).2 h
    refine ⟨⟨n, rfl, s1⟩, ⟨s3.symm, s2⟩, ?_⟩
    have hd' : d'.localDepth i = some (n + 1) := by rw [s1 i, if_pos rfl]
    unfold Dir.decrLocalDepth
    rw [hd']
    simp only [Option.bind_some, Nat.add_one_ne_zero, if_false, Nat.add_sub_cancel]
    unfold Dir.setLocalDepth at h ⊢
    split at h
    · rename_i hi
      cases h
      rw [if_pos ⟨by simpa using hi.1, by omega⟩]
      unfold Dir.localDepth at hn
      have : d.localDepths.set i n = d.localDepths := by
        apply List.ext_getElem?
        intro j
        rw [List.getElem?_set]
        split
        · rename_i e; subst e; rw [if_pos hi.1, hn]
        · rfl
      simp [List.set_set, this]
    · cases h

theorem never_shrinks (d : Dir) : d.canShrink ≠ some true := by
  unfold Dir.canShrink
  split
  · rename_i h
    unfold Dir.size
    cases hs : shl1 d.globalDepth with
    | none => simp
    | some s =>
      obtain ⟨hlt, rfl⟩ := shl1_eq hs
      have hm : shl1 (d.globalDepth - 1) = some (2 ^ (d.globalDepth - 1)) := by
        unfold shl1
        rw [if_pos (by omega), Nat.shiftLeft_eq, Nat.one_mul]
      simp only [Option.bind_some, hm, Option.map_some, ne_eq, Option.some.injEq, decide_eq_true_eq]
      exact Nat.not_le.2 (Nat.pow_lt_pow_right (by decide) (by omega))
  · simp

/-- `can_shrink` never says yes, not even for a directory that was just doubled: the directory never gets smaller. -/
theorem C148_shrink_fails : (∀ d : Dir, d.canShrink ≠ some true) ∧
    ∃ d, Dir.new.calls [.incrGlobalDepth] = some d ∧ d.Shrinkable ∧ d.canShrink = some false := by
  refine ⟨never_shrinks, ⟨1, List.replicate 512 0, List.replicate 512 0⟩, rfl, ⟨by decide, fun i hi => ⟨0, ?_, by decide⟩⟩, by decide +kernel⟩
  rw [List.getElem?_replicate, if_pos]
  have : i < 2 := hi
  omega

/-- Doubling the directory doubles its size, leaves everything else as it is, and is undone by halving it; below depth 31 neither panics. -/
theorem C148_double (d : Dir) (h : d.globalDepth < 31) :
    ∃ d', d.incrGlobalDepth = some d' ∧ d'.decrGlobalDepth = some d ∧ (∃ s, d.size = some s ∧ d'.size = some (2 * s)) ∧
      (∀ i, d'.pageId i = d.pageId i) ∧ ∀ i, d'.localDepth i = d.localDepth i := by
  refine ⟨{ d with globalDepth := d.globalDepth + 1 }, ?_, ?_, ⟨2 ^ d.globalDepth, ?_, ?_⟩, fun _ => rfl, fun _ => rfl⟩
  · unfold Dir.incrGlobalDepth
    rw [if_pos (by omega)]
  · unfold Dir.decrGlobalDepth
    simp
  · unfold Dir.size shl1
    rw [if_pos (by omega), Nat.shiftLeft_eq, Nat.one_mul]
  · unfold Dir.size shl1
    show (if d.globalDepth + 1 < 32 then _ else _) = _
    rw [if_pos (by omega), Nat.shiftLeft_eq, Nat.one_mul, Nat.pow_succ, Nat.mul_comm]

/-- The page has 512 entries, of depths that fit in a byte. -/
def Dir.Fit (d : Dir) : Prop := d.pageIds.length = 512 ∧ d.localDepths.length = 512 ∧ ∀ n ∈ d.localDepths, n < 256

theorem fit_setLocalDepth {d d' : Dir} {i n : Nat} (hf : d.Fit) (h : d.setLocalDepth i n = some d') : d'.Fit := by
  unfold Dir.setLocalDepth at h
  split at h
  · rename_i hi
    cases h
    refine ⟨hf.1, by simpa using hf.2.1, fun m hm => ?_⟩
    rcases List.mem_or_eq_of_mem_set hm with h | h
    · exact hf.2.2 m h
    · rw [h]; exact hi.2
  · cases h

theorem fit_call {d d' : Dir} {c : DirCall} (hf : d.Fit) (h : d.call c = some d') : d'.Fit := by
  cases c with
  | setPageId i p =>
    simp only [Dir.call, Dir.setPageId] at h
    split at h
    · cases h; exact ⟨by simpa using hf.1, hf.2⟩
    · cases h
  | setLocalDepth i n => exact fit_setLocalDepth hf h
  | incrLocalDepth i =>
    simp only [Dir.call, Dir.incrLocalDepth, Option.bind_eq_some_iff] at h
    obtain ⟨n, _, h⟩ := h
    exact fit_setLocalDepth hf h
  | decrLocalDepth i =>
    simp only [Dir.call, Dir.decrLocalDepth, Option.bind_eq_some_iff] at h
    obtain ⟨n, _, h⟩ := h
    split at h
    · cases h
    · exact fit_setLocalDepth hf h
  | incrGlobalDepth =>
    simp only [Dir.call, Dir.incrGlobalDepth] at h
    split at h
    · cases h; exact hf
    · cases h
  | decrGlobalDepth =>
    simp only [Dir.call, Dir.decrGlobalDepth] at h
    split at h
    · cases h
    · cases h; exact hf

theorem fit_calls (cs : List DirCall) : ∀ {d d' : Dir}, d.Fit → d.calls cs = some d' → d'.Fit := by
  induction cs with
  | nil => intro d d' hf h; cases h; exact hf
  | cons c cs ih =>
    intro d d' hf h
    simp only [Dir.calls, List.foldlM_cons, Option.bind_eq_bind, Option.bind_eq_some_iff] at h
    obtain ⟨e, h1, h2⟩ := h
    exact ih (fit_call hf h1) h2

/-- After any calls, an index below 512 can be read and written, its depth raised unless it is 255 and lowered unless it is 0, and its split image computed
if its depth is between 1 and 32; anything else panics. -/
theorem C148_total {cs : List DirCall} {d : Dir} (h : Dir.new.calls cs = some d) (i : Nat) :
    ((d.pageId i).isSome ↔ i < 512) ∧ ((d.localDepth i).isSome ↔ i < 512) ∧ (∀ p, (d.setPageId i p).isSome ↔ i < 512) ∧
    (∀ n, (d.setLocalDepth i n).isSome ↔ i < 512 ∧ n < 256) ∧
    ((d.incrLocalDepth i).isSome ↔ i < 512 ∧ d.localDepth i ≠ some 255) ∧
    ((d.decrLocalDepth i).isSome ↔ i < 512 ∧ d.localDepth i ≠ some 0) ∧
    ((d.splitImage i).isSome ↔ ∃ n, d.localDepth i = some n ∧ 1 ≤ n ∧ n ≤ 32) := by
  have hf : d.Fit := fit_calls cs (d := Dir.new) ⟨List.length_replicate, List.length_replicate, fun n hn => by rw [List.eq_of_mem_replicate hn]; decide⟩ h
  obtain ⟨f1, f2, f3⟩ := hf
  by_cases hi : i < 512
  · have hi2 : i < d.localDepths.length := by omega
    have hd : d.localDepth i = some d.localDepths[i] := List.getElem?_eq_getElem hi2
    have hlt : d.localDepths[i] < 256 := f3 _ (List.getElem_mem hi2)
    generalize d.localDepths[i] = n at hd hlt
    refine ⟨?_, ?_, fun p => ?_, fun m => ?_, ?_, ?_, ?_⟩
    · simp [Dir.pageId, f1]
    · simp [hd, hi]
    · simp [Dir.setPageId, f1, hi]
    · simp only [Dir.setLocalDepth, f2, hi, true_and]; split <;> simp_all
    · simp only [Dir.incrLocalDepth, hd, Option.bind_some, Dir.setLocalDepth, f2, hi, true_and, ne_eq, Option.some.injEq]
      split <;> simp <;> omega
    · simp only [Dir.decrLocalDepth, hd, Option.bind_some, Dir.setLocalDepth, f2, hi, true_and, ne_eq, Option.some.injEq]
      rw [if_pos (show n - 1 < 256 by omega)]
      split <;> simp_all
    · simp only [Dir.splitImage, hd, Option.bind_some, shl1, Option.some.injEq, exists_eq_left']
      split
      · simp; omega
      · split <;> simp <;> omega
  · have hd : d.localDepth i = none := List.getElem?_eq_none (by omega)
    refine ⟨?_, ?_, fun p => ?_, fun m => ?_, ?_, ?_, ?_⟩
    · simp [Dir.pageId, f1]
    · simp [hd, hi]
    · simp [Dir.setPageId, f1, hi]
    · simp [Dir.setLocalDepth, f2, hi]
    · simp [Dir.incrLocalDepth, hd, hi]
    · simp [Dir.decrLocalDepth, hd, hi]
    · simp [Dir.splitImage, hd]

/-- The global depth can be raised beyond the 512 entries of the page: then the directory says that it has 1024, and the last half cannot be read. -/
theorem C148_size_fails : ∃ d, Dir.new.calls (List.replicate 10 .incrGlobalDepth) = some d ∧ d.size = some 1024 ∧ d.pageId 512 = none :=
  ⟨⟨10, List.replicate 512 0, List.replicate 512 0⟩, rfl, by decide +kernel, by decide +kernel⟩

/-- Two entries, the first of local depth 5 although the global depth is 1. -/
def broken : Dir := ⟨1, 5 :: List.replicate 511 0, 7 :: List.replicate 511 0⟩

/-- `verify_integrity` accepts a directory that has none. -/
theorem C148_verify_fails : Dir.new.calls [.incrGlobalDepth, .setLocalDepth 0 5, .setPageId 0 7] = some broken ∧ broken.verify = some () ∧ ¬ broken.Integrity := by
  refine ⟨by decide +kernel, rfl, fun h => ?_⟩
  have := h.1 0 5 (by decide) rfl
  exact absurd this (by decide)

/-! ## Non-vacuity -/

/-- Four entries, a bucket of depth 2 at 1 and 3 each, one of depth 1 at 0 and 2. -/
def four : Dir := ⟨2, [1, 2, 1, 2] ++ List.replicate 508 0, [10, 11, 10, 13] ++ List.replicate 508 0⟩

example : Dir.new.calls [.incrGlobalDepth, .incrGlobalDepth, .setPageId 0 10, .setPageId 1 11, .setPageId 2 10, .setPageId 3 13, .incrLocalDepth 0, .incrLocalDepth 2,
    .setLocalDepth 1 2, .setLocalDepth 3 3, .decrLocalDepth 3] = some four := by decide +kernel

example : four.splitImage 1 = some 3 ∧ four.splitImage 3 = some 1 ∧ four.globalMask = some 3 ∧ four.localMask 1 = some 3 ∧ four.highBit 1 = some 2 := by decide +kernel

example (j : Nat) (h : four.splitImage 1 = some j) : DifferAt 1 1 j := by
  obtain ⟨n, h1, h2, _⟩ := C148_image h
  cases (show n = 1 from by have := h1.symm.trans (show four.localDepth 1 = some 2 from rfl); simpa using this)
  exact h2

end Verif.HashPage
