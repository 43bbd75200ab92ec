import Verif.Wal.Manager

/-!
# C29, C30 and C63: rows and log records survive encoding, the log is read back up to the crash, commits are on disk
-/

namespace Verif.Wal

open Verif.Bytes (Byte)
open Verif.Wire

/-! ## C63: values, rows and row headers survive encoding -/

/-- Any value, however nested, decodes to itself, and the bytes after it are left alone. -/
theorem C63_value_roundtrip {v : Value} (h : v.ok) (rest : List Byte) : decValue (encValue v).length (encValue v ++ rest) = some (v, rest) :=
  decValue_encValue v _ v.depth_le h rest

/-- Any row decodes to itself. -/
theorem C63_row_roundtrip {vs : List Value} (h : TupleOk vs) (rest : List Byte) : decTuple (encTuple vs ++ rest) = some (vs, rest) :=
  decTuple_encTuple h rest

/-- Any row header decodes to itself. -/
theorem C63_meta_roundtrip {m : Meta} (h : m.ok) (rest : List Byte) : decMeta (encMeta m ++ rest) = some (m, rest) :=
  decMeta_encMeta h rest

/-- Different rows have different encodings. -/
theorem C63_rows_distinguished {vs ws : List Value} (hv : TupleOk vs) (hw : TupleOk ws) (he : encTuple vs = encTuple ws) : vs = ws := by
  have h1 := decTuple_encTuple hv []
  have h2 := decTuple_encTuple hw []
  rw [he, h2] at h1
  simpa using h1.symm

/-- An integer value, as `Value::new(i)` makes it (value.rs). -/
def intV (i : Int) : Value := .mk (.integer i) (.length 4) false 4 none

/-- A string value. -/
def strV (s : List Byte) : Value := .mk (.varLen s) (.length s.length) true 12 none

/-- A row with a NULL, a negative number, a string and a nested vector meets the hypotheses. -/
example : TupleOk [.mk .null (.length 0) false 4 none, intV (-5), strV [65, 66],
    .mk (.vector [.mk (.array [intV 1]) (.elem 4) true 17 none]) (.elem 17) true 16 (some [intV 2])] := by
  refine ⟨by decide, ?_⟩
  simp [Values.ok, Value.ok, Val.ok, intV, strV, InRange]

/-! ## C30: reading the log -/

/-- Whatever is written to an empty log file is read back. -/
theorem C30_read_back {rs : List Rec} (h : ∀ r ∈ rs, Readable r) : readLog (writeLog rs) = rs := by
  have := readLog_records (tail := []) h (by
    have := stops_zeros (rs.flatMap toBytes) 0 100 (rs.flatMap toBytes).length (Nat.le_refl _)
    simpa [Stops] using this)
  simpa [writeLog_eq] using this

/-- A record written in part is not read, and does not hide the records before it. -/
theorem C30_torn_tail {rs : List Rec} {r : Rec} {n : Nat} (h : ∀ r ∈ rs, Readable r) (hr : Readable r) (hn : n < (toBytes r).length) :
    readLog (writeLog rs ++ (toBytes r).take n) = rs := by
  rw [writeLog_eq]
  exact readLog_records h (stops_torn hr _ n hn)

/-- Nor do zero bytes after the records. -/
theorem C30_zero_tail {rs : List Rec} (z : Nat) (h : ∀ r ∈ rs, Readable r) : readLog (writeLog rs ++ List.replicate z 0) = rs := by
  rw [writeLog_eq]
  exact readLog_records h (stops_zeros _ z 100 _ (Nat.le_refl _))

theorem take_split (rs : List Rec) (n : Nat) (hn : n < (rs.flatMap toBytes).length) :
    ∃ (k : Nat) (r : Rec) (m : Nat), rs[k]? = some r ∧ m < (toBytes r).length ∧ n = ((rs.take k).flatMap toBytes).length + m ∧
      (rs.flatMap toBytes).take n = (rs.take k).flatMap toBytes ++ (toBytes r).take m := by
  induction rs generalizing n with
  | nil => simp at hn
  | cons r rs ih =>
    by_cases hlt : n < (toBytes r).length
    · exact ⟨0, r, n, rfl, hlt, by simp, by simp [List.take_append_of_le_length (Nat.le_of_lt hlt)]⟩
    · have hn' : n - (toBytes r).length < (rs.flatMap toBytes).length := by
        simp only [List.flatMap_cons, List.length_append] at hn; omega
      obtain ⟨k, r', m, h1, h2, h3, h4⟩ := ih _ hn'
      refine ⟨k + 1, r', m, by simpa using h1, h2, ?_, ?_⟩
      · simp only [List.take_succ_cons, List.flatMap_cons, List.length_append]; omega
      · simp only [List.flatMap_cons, List.take_succ_cons, List.append_assoc]
        rw [List.take_append, List.take_of_length_le (by omega), h4]

theorem length_flatMap_take_mono (rs : List Rec) {i j : Nat} (h : i ≤ j) :
    ((rs.take i).flatMap toBytes).length ≤ ((rs.take j).flatMap toBytes).length := by
  have : rs.take i = (rs.take j).take i := by rw [List.take_take, Nat.min_eq_left h]
  rw [this]
  conv => rhs; rw [← List.take_append_drop i (rs.take j)]
  rw [List.flatMap_append, List.length_append]
  exact Nat.le_add_right _ _

/-- A crash that cuts the log at any byte leaves exactly the records before the cut: all that are complete, and no others. -/
theorem C30_crash_at_any_byte {rs : List Rec} (h : ∀ r ∈ rs, Readable r) (n : Nat) :
    ∃ k, readLog ((writeLog rs).take n) = rs.take k ∧ (∀ j, j ≤ rs.length → (writeLog (rs.take j)).length ≤ n → j ≤ k) ∧
      (writeLog (rs.take k)).length ≤ n := by
  simp only [writeLog_eq]
  by_cases hn : n < (rs.flatMap toBytes).length
  · obtain ⟨k, r, m, h1, h2, h3, h4⟩ := take_split rs n hn
    have hr : Readable r := h r (List.mem_of_getElem? h1)
    refine ⟨k, ?_, fun j _ hj => ?_, by omega⟩
    · rw [h4]
      exact readLog_records (fun x hx => h x (List.mem_of_mem_take hx)) (stops_torn hr _ m h2)
    · rcases Nat.lt_or_ge k j with hkj | hkj
      · have h5 := length_flatMap_take_mono rs (show k + 1 ≤ j from hkj)
        obtain ⟨hk, he⟩ := List.getElem?_eq_some_iff.mp h1
        rw [List.take_succ_eq_append_getElem hk, List.flatMap_append, List.length_append, he] at h5
        simp at h5
        simp at h3 hj
        omega
      · exact hkj
  · refine ⟨rs.length, ?_, fun j hj _ => hj, by rw [List.take_length]; omega⟩
    rw [List.take_of_length_le (by omega), List.take_length]
    have := C30_read_back h
    rwa [writeLog_eq] at this

/-- A `Begin`, an update of a row and a `Commit`, as the engine would make them. -/
def sample : List Rec :=
  [(newTxnRec 7 (2 ^ 64 - 1) .begin).withLsn 0, (newUpdateRec 7 0 ⟨3, 1⟩ [intV 10] [intV 20]).withLsn 1,
   (newTxnRec 7 1 .commit).withLsn 2]

theorem refreshSize_eq (n : Nat) (r : Rec) : refreshSize n r = { r with size := (refreshSize n r).size } := by
  induction n generalizing r with
  | zero => rfl
  | succ n ih =>
    simp only [refreshSize]
    split
    · rfl
    · rw [ih]

theorem ok_withSize {r : Rec} (h : r.Ok) {i : Int} (hi : InRange 32 i) {lsn : Nat} (hl : lsn < 2 ^ 64) :
    ({ r with size := i, lsn := lsn } : Rec).Ok :=
  { h with size := hi, lsn := hl }

/-- A record from a constructor, once it has its LSN, is readable if its fields are in range and it is not too long. -/
theorem readable_refresh {r : Rec} (h : r.Ok) {lsn : Nat} (hl : lsn < 2 ^ 64) (hk : r.kind ≠ .invalid)
    (hi : InRange 32 (refreshSize 5 r).size) (hs : (toBytes ((refreshSize 5 r).withLsn lsn)).length ≤ 1000000) :
    Readable ((refreshSize 5 r).withLsn lsn) := by
  refine ⟨?_, ?_, hs⟩
  · rw [refreshSize_eq]
    exact ok_withSize h hi hl
  · rw [refreshSize_eq]
    exact hk

theorem ok_blank {txn prev : Nat} (h1 : txn < 2 ^ 64) (h2 : prev < 2 ^ 64) (k : Kind) : (blank txn prev k).Ok := by
  constructor <;> simp [blank, InRange, h1, h2]

theorem sample_readable : ∀ r ∈ sample, Readable r := by
  have ok : ∀ i : Int, InRange 32 i → TupleOk [intV i] := fun i h => by
    refine ⟨by simp, ?_⟩
    simp [Values.ok, Value.ok, Val.ok, intV, h]
  intro r hr
  simp only [sample, List.mem_cons, List.not_mem_nil, or_false] at hr
  rcases hr with rfl | rfl | rfl
  · exact readable_refresh (ok_blank (by decide) (by decide) _) (by decide) (by decide) (by decide +kernel) (by decide +kernel)
  · refine readable_refresh (r := { blank 7 0 .update with updateRid := some ⟨3, 1⟩, oldTuple := some [intV 10], newTuple := some [intV 20] })
      (lsn := 1) { ok_blank (txn := 7) (prev := 0) (by decide) (by decide) .update with ur := ?_, ot := ?_, nt := ?_ }
      (by decide) (by decide) (by decide +kernel) (by decide +kernel)
    · rintro x h; cases h; exact ⟨by decide, by decide⟩
    · rintro x h; cases h; exact ok 10 (by decide)
    · rintro x h; cases h; exact ok 20 (by decide)
  · exact readable_refresh (ok_blank (by decide) (by decide) _) (by decide) (by decide) (by decide +kernel) (by decide +kernel)

/-- What can be seen of a record at a glance. -/
def Rec.view (r : Rec) : Nat × Nat × Kind := (r.lsn, r.txn, r.kind)

/-- The sample log is read back, and so is what a cut in its middle leaves. -/
example : (readLog (writeLog sample)).map Rec.view = [(0, 7, .begin), (1, 7, .update), (2, 7, .commit)] ∧
    (readLog ((writeLog sample).take 60)).map Rec.view = [(0, 7, .begin)] := by
  rw [C30_read_back sample_readable]
  decide +kernel

/-! ### The size a record states -/

theorem length_encVar_pos (k n : Nat) : (encVar k n).length ≤ k := by
  induction k generalizing n with
  | zero => simp [encVar]
  | succ k ih =>
    unfold encVar
    split
    · simp
    · have := ih (n / 128)
      simp; omega

theorem length_encVar_mono (k : Nat) {n m : Nat} (h : n ≤ m) : (encVar k n).length ≤ (encVar k m).length := by
  induction k generalizing n m with
  | zero => simp [encVar]
  | succ k ih =>
    unfold encVar
    split
    · split <;> simp
    · rw [if_neg (by omega)]
      have := ih (Nat.div_le_div_right (c := 128) h)
      simpa using this

/-- The length of a record depends on its stated size through one variable-length integer only. -/
theorem length_size (r : Rec) : ∃ b, ∀ n : Nat, (encRec { r with size := (n : Int) }).length = (encVar 5 (2 * n)).length + b := by
  refine ⟨(encRec r).length - (encI32 r.size).length, fun n => ?_⟩
  have hz : zigzag (n : Int) = 2 * n := by unfold zigzag; rw [if_pos (by omega)]; omega
  simp only [encRec, encI32, List.length_append, hz, encU32]
  omega

theorem refreshSize_fixed (r : Rec) (h0 : r.size = 0) : ((toBytes (refreshSize 5 r)).length : Int) = (refreshSize 5 r).size := by
  obtain ⟨b, hb⟩ := length_size r
  have step : ∀ k (n : Nat), refreshSize (k + 1) { r with size := (n : Int) } =
      if 4 + ((encVar 5 (2 * n)).length + b) = n then { r with size := (n : Int) } else refreshSize k { r with size := ((4 + ((encVar 5 (2 * n)).length + b) : Nat) : Int) } := by
    intro k n
    simp only [refreshSize, hb]
    split <;> split <;> first | rfl | omega
  have len : ∀ n : Nat, ((toBytes { r with size := (n : Int) }).length : Int) = ((4 + ((encVar 5 (2 * n)).length + b) : Nat) : Int) := fun n => by
    rw [length_toBytes, hb]
  have hr : r = { r with size := ((0 : Nat) : Int) } := by cases r; cases h0; rfl
  rw [hr]
  have mono : ∀ n m : Nat, n ≤ m → (encVar 5 (2 * n)).length ≤ (encVar 5 (2 * m)).length := fun n m h => length_encVar_mono 5 (by omega)
  have le : ∀ n : Nat, (encVar 5 (2 * n)).length ≤ 5 := fun n => length_encVar_pos 5 _
  -- the sizes tried grow, and with them the length of the stated size, which is at most five
  have main : ∀ k (n m : Nat), m = 4 + ((encVar 5 (2 * n)).length + b) → n ≤ m → 5 ≤ (encVar 5 (2 * n)).length + k →
      ((toBytes (refreshSize k { r with size := (m : Int) })).length : Int) = (refreshSize k { r with size := (m : Int) }).size := by
    intro k
    induction k with
    | zero =>
      intro n m hm hnm h5
      simp only [refreshSize]
      rw [len]
      have := mono n m hnm
      have := le m
      show ((_ : Nat) : Int) = ((m : Nat) : Int)
      omega
    | succ k ih =>
      intro n m hm hnm h5
      rw [step]
      split
      · next he => rw [len, he]
      · next he =>
        have := mono n m hnm
        refine ih m _ rfl ?_ ?_ <;> omega
  rw [step]
  split
  · next he => rw [len, he]
  · have h1 : (encVar 5 (2 * 0)).length = 1 := rfl
    exact main 4 0 _ rfl (Nat.zero_le _) (by omega)

/-- The size a record states is the number of bytes it is written with, for every record the constructors make, at the time they make it. Missing:
the number the log gives it later, see `C131_size_fails`; records of 2^31 bytes or more. -/
theorem C131_size_partial (txn prev : Nat) (k : Kind) (rid : Rid) (old new : List Value) :
    (newTxnRec txn prev k).size = (toBytes (newTxnRec txn prev k)).length ∧
    (newUpdateRec txn prev rid old new).size = (toBytes (newUpdateRec txn prev rid old new)).length ∧
    (newInsertDeleteRec txn prev k rid new).size = (toBytes (newInsertDeleteRec txn prev k rid new)).length := by
  refine ⟨(refreshSize_fixed _ rfl).symm, (refreshSize_fixed _ rfl).symm, (refreshSize_fixed _ ?_).symm⟩
  split <;> rfl

example : (newUpdateRec 7 0 ⟨3, 1⟩ [] []).size = 31 := by decide +kernel

/-- Giving a record its number shortens it and leaves the size it states as it was: the first record of every log states nine bytes more than it has. -/
theorem C131_size_fails (txn prev : Nat) (k : Kind) :
    ((newTxnRec txn prev k).withLsn 0).size = (toBytes ((newTxnRec txn prev k).withLsn 0)).length + 9 := by
  have h := (C131_size_partial txn prev k ⟨0, 0⟩ [] []).1
  have hl : (newTxnRec txn prev k).lsn = 2 ^ 64 - 1 := by
    rw [newTxnRec, refreshSize_eq]; rfl
  generalize newTxnRec txn prev k = r at *
  rw [length_toBytes] at *
  simp only [encRec, Rec.withLsn, List.length_append, hl] at *
  have h1 : (encU64 (2 ^ 64 - 1)).length = 10 := by decide +kernel
  have h2 : (encU64 0).length = 1 := by decide +kernel
  omega

/-! ## C64: what the log accepts stays readable -/

/-- Records appended after a restart are read back if the crash left whole records only. Missing: a log that ends in the middle of a record,
and records longer than a million bytes. -/
theorem C64_append_after_restart_partial {rs new : List Rec} (h : ∀ r ∈ rs ++ new, Readable r) :
    readLog (new.foldl appendLog (writeLog rs)) = rs ++ new := by
  have := C30_read_back h
  rwa [writeLog, List.foldl_append] at this

/-- The hypothesis is met. -/
example : ∀ r ∈ sample ++ sample, Readable r := by
  intro r hr
  rcases List.mem_append.mp hr with h | h <;> exact sample_readable r h

/-- After a crash has cut the log in the middle of a record, new records go after the remains and are lost: here a transaction that began
and committed after the restart leaves no trace. -/
theorem C64_append_after_torn_tail_fails :
    ∃ (rs new : List Rec) (r : Rec) (n : Nat), (∀ x ∈ rs ++ new ++ [r], Readable x) ∧ n < (toBytes r).length ∧
      new.map Rec.view = [(0, 7, .begin), (1, 7, .update), (2, 7, .commit)] ∧
      (readLog (new.foldl appendLog (writeLog rs ++ (toBytes r).take n))).map Rec.view = rs.map Rec.view := by
  refine ⟨sample, sample, (newTxnRec 8 (2 ^ 64 - 1) .begin).withLsn 3, 10, ?_, by decide +kernel, by decide +kernel, by decide +kernel⟩
  intro x hx
  simp only [List.mem_append, List.mem_singleton] at hx
  rcases hx with (hx | hx) | rfl
  · exact sample_readable x hx
  · exact sample_readable x hx
  · exact readable_refresh (ok_blank (by decide) (by decide) _) (by decide) (by decide) (by decide +kernel) (by decide +kernel)

/-- A record whose frame is longer than a million bytes is written, but the reader steps over its header. -/
theorem C64_long_record_fails {r : Rec} (a c : List Byte) (h1 : 1000000 < (toBytes r).length) (h2 : (toBytes r).length < 2 ^ 32) :
    tryAt (a ++ (toBytes r ++ c)) a.length = .skip (a.length + 1) := by
  have hr4 : readAt (a ++ (toBytes r ++ c)) a.length 4 = some ((toBytes r).take 4) := by
    have := readAt_mid a ((toBytes r).take 4) ((toBytes r).drop 4 ++ c)
    rw [← List.append_assoc ((toBytes r).take 4), List.take_append_drop, List.length_take, Nat.min_eq_left (by omega)] at this
    exact this
  have hl := length_toBytes r
  have hh : Bytes.ofLE ((toBytes r).take 4) = (toBytes r).length := by
    rw [hl] at h2 ⊢
    rw [toBytes, List.take_left' (by simp), Nat.mod_eq_of_lt h2]
    exact Bytes.ofLE_toLE (by have : (256 ^ 4 : Nat) = 2 ^ 32 := by decide
                              omega)
  have hbad : badSize (toBytes r).length = true := by simp [badSize, h1]
  simp only [tryAt, hr4, hh, hbad]
  rw [if_pos trivial, if_neg (by omega)]

end Verif.Wal
