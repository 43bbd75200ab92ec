import Verif.Wal.Record

/-!
# Reading the log (`src/recovery/log_iterator.rs:250-440`)

A log file is its bytes. `read_exact` past the end is an end-of-file error (io/executor.rs:522-534); other read errors are not modelled.
-/

namespace Verif.Wal

open Verif.Bytes (Byte)
open Verif.Wire

/-- `read_log_sized` (disk manager 1332-1359, io/executor.rs:522-534): `n` bytes at `off`, or end of file. -/
def readAt (file : List Byte) (off n : Nat) : Option (List Byte) :=
  if off + n ≤ file.length then some ((file.drop off).take n) else none

/-- One round of the loop in `next` (log_iterator.rs:298-421). -/
inductive Try where
  | eof
  | skip (off : Nat)
  | got (r : Rec) (off : Nat)

/-- `i32::from_le_bytes(..)` then `record_size <= 0 || record_size > 1_000_000` (log_iterator.rs:314-317). A header whose top bit is set is
negative, hence invalid, and so is every number above one million: one comparison on the unsigned value says both. -/
def badSize (n : Nat) : Bool := n == 0 || 1000000 < n

/-- One attempt at offset `off` (log_iterator.rs:299-421). -/
def tryAt (file : List Byte) (off : Nat) : Try :=
  match readAt file off 4 with
  | none => .eof
  | some h =>
    let n := Bytes.ofLE h
    if badSize n then
      if n = 0 then .skip ((off / 4096 + 1) * 4096) else .skip (off + 1)
    else match readAt file off n with
      | none => .eof
      | some bs => match fromBytes bs with
        | none => .skip (off + 1)
        | some r => if r.kind = .invalid then .skip (off + 1) else .got r (off + n)

/-- `next` (log_iterator.rs:289-432): at most `k` attempts (100 in the code). `none`: the iterator is at its end. -/
def nextAt (file : List Byte) : Nat → Nat → Option (Rec × Nat)
  | 0, _ => none
  | k + 1, off => match tryAt file off with
    | .eof => none
    | .skip off' => nextAt file k off'
    | .got r off' => some (r, off')

/-- `while let Some(r) = it.next().await` (log_recovery.rs:378): the records with the offset each was found at. The first number bounds
the rounds. -/
def collectAt (file : List Byte) : Nat → Nat → List Rec
  | 0, _ => []
  | k + 1, off => match nextAt file 100 off with
    | none => []
    | some (r, off') => r :: collectAt file k off'

/-- All records of a file. Every record takes at least one byte, so the number of rounds is enough. -/
def readLog (file : List Byte) : List Rec := collectAt file (file.length + 1) 0

/-- `append_log` (io/executor.rs:567-578): at the end of the file. -/
def appendLog (file : List Byte) (r : Rec) : List Byte := file ++ toBytes r

/-- What the write path produces for a sequence of records. -/
def writeLog (rs : List Rec) : List Byte := rs.foldl appendLog []

/-- A record the reader accepts: its numbers fit, it is not `Invalid`, and its frame is at most a million bytes. -/
def Readable (r : Rec) : Prop := r.Ok ∧ r.kind ≠ .invalid ∧ (toBytes r).length ≤ 1000000

theorem foldl_append (rs : List Rec) (f : List Byte) : rs.foldl appendLog f = f ++ rs.flatMap toBytes := by
  induction rs generalizing f with
  | nil => simp
  | cons r rs ih => simp [ih, appendLog]

theorem writeLog_eq (rs : List Rec) : writeLog rs = rs.flatMap toBytes := by simp [writeLog, foldl_append]

theorem readAt_mid (a b c : List Byte) : readAt (a ++ (b ++ c)) a.length b.length = some b := by
  simp [readAt, List.length_append]

theorem header {r : Rec} (h : Readable r) : Bytes.ofLE ((toBytes r).take 4) = (toBytes r).length ∧ 4 ≤ (toBytes r).length := by
  have hl := length_toBytes r
  have h3 := h.2.2
  refine ⟨?_, by omega⟩
  rw [hl]
  rw [toBytes, List.take_left' (by simp)]
  have hlt : 4 + (encRec r).length < 2 ^ 32 := by
    have : (1000000 : Nat) < 2 ^ 32 := by decide
    omega
  rw [Nat.mod_eq_of_lt hlt]
  exact Bytes.ofLE_toLE (by have : (256 ^ 4 : Nat) = 2 ^ 32 := by decide
                            omega)

theorem tryAt_record {r : Rec} (h : Readable r) (a c : List Byte) :
    tryAt (a ++ (toBytes r ++ c)) a.length = .got r (a.length + (toBytes r).length) := by
  obtain ⟨h1, h2⟩ := header h
  have hr4 : readAt (a ++ (toBytes r ++ c)) a.length 4 = some ((toBytes r).take 4) := by
    have := readAt_mid a ((toBytes r).take 4) ((toBytes r).drop 4 ++ c)
    rw [← List.append_assoc ((toBytes r).take 4), List.take_append_drop, List.length_take, Nat.min_eq_left h2] at this
    exact this
  have hbad : badSize (toBytes r).length = false := by
    have := h.2.2
    simp [badSize]; constructor
    · intro e; rw [e] at h2; simp at h2
    · omega
  simp only [tryAt, hr4, h1, hbad, readAt_mid, fromBytes_toBytes h.1]
  simp [h.2.1]

/-- What follows the records makes the reader stop: every attempt within its limit ends at the end of the file, or runs out. -/
def Stops (file : List Byte) (off : Nat) : Prop := nextAt file 100 off = none

theorem collectAt_records (rs : List Rec) (a tail : List Byte) (k : Nat) (hk : rs.length < k) (h : ∀ r ∈ rs, Readable r)
    (hs : Stops (a ++ (rs.flatMap toBytes ++ tail)) (a.length + (rs.flatMap toBytes).length)) :
    collectAt (a ++ (rs.flatMap toBytes ++ tail)) k a.length = rs := by
  induction rs generalizing a k with
  | nil =>
    cases k with
    | zero => simp at hk
    | succ k =>
      simp only [List.flatMap_nil, List.nil_append, List.length_nil, Nat.add_zero] at hs ⊢
      simp only [collectAt]; rw [hs]
  | cons r rs ih =>
    cases k with
    | zero => simp at hk
    | succ k =>
      have hr := h r (by simp)
      have e : a ++ ((r :: rs).flatMap toBytes ++ tail) = a ++ (toBytes r ++ (rs.flatMap toBytes ++ tail)) := by simp
      rw [e] at hs ⊢
      simp only [collectAt]
      have : nextAt (a ++ (toBytes r ++ (rs.flatMap toBytes ++ tail))) 100 a.length = some (r, a.length + (toBytes r).length) := by
        rw [nextAt, tryAt_record hr]
      rw [this]
      have hrec := ih (a ++ toBytes r) k (by simpa using hk) (fun x hx => h x (by simp [hx])) (by
        simp only [List.append_assoc, List.length_append]
        simp only [List.flatMap_cons, List.length_append] at hs
        rw [Nat.add_assoc]
        exact hs)
      simp only [List.append_assoc, List.length_append] at hrec
      simp only [hrec]

theorem length_flatMap_ge (rs : List Rec) : rs.length ≤ (rs.flatMap toBytes).length := by
  induction rs with
  | nil => simp
  | cons r rs ih =>
    have := length_toBytes r
    simp only [List.flatMap_cons, List.length_append, List.length_cons]; omega

theorem readLog_records {rs : List Rec} {tail : List Byte} (h : ∀ r ∈ rs, Readable r)
    (hs : Stops (rs.flatMap toBytes ++ tail) (rs.flatMap toBytes).length) : readLog (rs.flatMap toBytes ++ tail) = rs := by
  have := collectAt_records rs [] tail ((rs.flatMap toBytes ++ tail).length + 1) (by
    have := length_flatMap_ge rs
    simp only [List.length_append]; omega) h (by simpa using hs)
  simpa [readLog] using this

/-- A tail shorter than a header, or a strict prefix of a record's frame, is the end of the file. -/
theorem stops_torn {r : Rec} (h : Readable r) (a : List Byte) (n : Nat) (hn : n < (toBytes r).length) :
    Stops (a ++ (toBytes r).take n) a.length := by
  obtain ⟨h1, h2⟩ := header h
  have hlen : ((toBytes r).take n).length = n := by rw [List.length_take]; omega
  suffices tryAt (a ++ (toBytes r).take n) a.length = .eof by
    show nextAt _ 100 _ = none
    rw [nextAt, this]
  by_cases hn4 : n < 4
  · simp only [tryAt]
    rw [readAt, if_neg (by rw [List.length_append, hlen]; omega)]
  · have hr4 : readAt (a ++ (toBytes r).take n) a.length 4 = some ((toBytes r).take 4) := by
      rw [readAt, if_pos (by rw [List.length_append, hlen]; omega), List.drop_left' rfl, List.take_take, Nat.min_eq_left (by omega)]
    have hbad : badSize (toBytes r).length = false := by
      have := h.2.2
      simp [badSize]; constructor
      · intro e; rw [e] at h2; simp at h2
      · omega
    have hr : readAt (a ++ (toBytes r).take n) a.length (toBytes r).length = none := by
      rw [readAt, if_neg (by rw [List.length_append, hlen]; omega)]
    simp only [tryAt, hr4, h1, hbad, hr]
    simp

theorem ofLE_zeros (n : Nat) : Bytes.ofLE (List.replicate n (0 : Byte)) = 0 := by
  induction n with
  | zero => rfl
  | succ n ih => simp [List.replicate_succ, Bytes.ofLE, ih]

/-- A tail of zero bytes makes the reader stop, wherever in it the reader is. -/
theorem stops_zeros (a : List Byte) (z k off : Nat) (ho : a.length ≤ off) : nextAt (a ++ List.replicate z 0) k off = none := by
  induction k generalizing off with
  | zero => rfl
  | succ k ih =>
    rw [nextAt]
    simp only [tryAt]
    by_cases hle : off + 4 ≤ (a ++ List.replicate z (0 : Byte)).length
    · have hl : (a ++ List.replicate z (0 : Byte)).length = a.length + z := by simp
      have : readAt (a ++ List.replicate z 0) off 4 = some (List.replicate 4 0) := by
        rw [readAt, if_pos hle]
        congr 1
        rw [List.drop_append, List.drop_eq_nil_of_le ho, List.nil_append, List.drop_replicate, List.take_replicate]
        congr 1
        omega
      simp only [this, ofLE_zeros, badSize]
      simp only [beq_self_eq_true, Bool.true_or, if_true]
      apply ih
      have : off < (off / 4096 + 1) * 4096 := by omega
      omega
    · rw [readAt, if_neg hle]

end Verif.Wal
