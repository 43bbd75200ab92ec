import Verif.Disk.Compression

/-!
# C116: compressed data comes back
-/

namespace Verif.Disk

open Verif.Bytes

/-- A lossless compressor: what it compresses, at any level, it gives back. -/
def Codec.Lossless (c : Codec) : Prop := ∀ level data, c.decode (c.encode level data) = some data

theorem unrun_plain : ∀ l : List Byte, (0xFF : Byte) ∉ l → unrun l = l
  | [], _ => rfl
  | [b], _ => rfl
  | [b, c], h => by
    have hb : b ≠ 0xFF := fun e => h (by simp [e])
    rw [unrun, if_neg hb, unrun]
  | b :: c :: d :: rest, h => by
    have hb : b ≠ 0xFF := fun e => h (by simp [e])
    rw [unrun, if_neg hb, unrun_plain (c :: d :: rest) fun e => h (List.mem_cons_of_mem _ e)]

theorem decompress_plain (lz4 zstd : Codec) (l : List Byte) (h : (0xFF : Byte) ∉ l) (h0 : l.head? ≠ some 0xF0) (h1 : l.head? ≠ some 0xF1) :
    decompressData lz4 zstd l = .bytes l := by
  unfold decompressData
  split
  · rfl
  · rename_i b rest
    have hb : b ≠ 0xFF := fun e => h (by simp [e])
    rw [if_neg (fun e => h0 (by simp [e])), if_neg (fun e => h1 (by simp [e]))]
    split
    · rfl
    · rw [if_neg (fun e => hb e.1), unrun_plain _ h]
    · rw [unrun_plain _ h]

/-- What holds of C116: with lossless libraries, data compressed with LZ4 or Zstd at any level comes back, whatever it is and however much was
compressed before. Data stored with no compression comes back if it does not begin with one of the two marks and no byte is 255. The sizes
reported are the sums over all calls. Missing: other data stored with no compression, for which the claim is false (`C116_none_fails`). -/
theorem C116_compression_partial (lz4 zstd : Codec) (hl : lz4.Lossless) (hz : zstd.Lossless) (s : CompStats) (data : List Byte) (a : Algorithm)
    (level : Nat)
    (h : a = .lz4 ∨ a = .zstd ∨ ((0xFF : Byte) ∉ data ∧ data.head? ≠ some 0xF0 ∧ data.head? ≠ some 0xF1)) :
    decompressData lz4 zstd (compressData lz4 zstd s data a level).2 = .bytes data ∧
      (compressData lz4 zstd s data a level).1.before = s.before + data.length ∧
      (compressData lz4 zstd s data a level).1.after = s.after + (compressData lz4 zstd s data a level).2.length := by
  refine ⟨?_, rfl, rfl⟩
  show decompressData lz4 zstd (packed lz4 zstd data a level) = _
  cases a with
  | none =>
    rcases h with h | h | ⟨h, h0, h1⟩
    · cases h
    · cases h
    · exact decompress_plain lz4 zstd data h h0 h1
  | lz4 =>
    unfold packed
    by_cases hd : data = []
    · simp [hd, decompressData]
    · simp only [hd, if_false]
      unfold decompressData
      simp only [if_true, hl 0 data]
  | zstd =>
    unfold packed
    by_cases hd : data = []
    · simp [hd, decompressData]
    · simp only [hd, if_false]
      have h01 : ¬ (0xF1 : Byte) = 0xF0 := by decide
      unfold decompressData
      simp only [if_true, if_neg h01, hz level data]

/-- A lossless compressor exists: the one that copies. -/
def copier : Codec := ⟨fun _ d => d, some⟩

theorem copier_lossless : copier.Lossless := fun _ _ => rfl

/-- A compressor that shortens runs of zeros. -/
def zeros : Codec :=
  ⟨fun _ d => if d.length < 256 ∧ d = List.replicate d.length 0 then [0, Fin.ofNat 256 d.length] else 1 :: d,
   fun c => match c with
     | [0, n] => some (List.replicate n.val 0)
     | _ :: d => some d
     | [] => none⟩

theorem zeros_lossless : zeros.Lossless := by
  intro _ d
  simp only [zeros]
  by_cases h : d.length < 256 ∧ d = List.replicate d.length 0
  · have hv : (Fin.ofNat 256 d.length : Byte).val = d.length := Nat.mod_eq_of_lt h.1
    rw [if_pos h]
    show some (List.replicate (Fin.ofNat 256 d.length : Byte).val 0) = _
    rw [hv, ← h.2]
  · rw [if_neg h]
    simp

example : (compressData zeros copier ⟨0, 0⟩ (List.replicate 100 0) .lz4 6).2 = [0xF0, 0, 100] ∧
    decompressData zeros copier [0xF0, 0, 100] = .bytes (List.replicate 100 0) ∧
    (compressData zeros copier ⟨5, 5⟩ [1, 2, 3] .none 0).1.before = 8 := by decide

/-- C116 is false of data stored with no compression: a pair 255, 0 comes back as one byte, three bytes beginning with 255 come back as a run,
and data that begins with the mark of a compressor that refuses the rest panics. -/
theorem C116_none_fails :
    (∀ lz4 zstd s level,
      decompressData lz4 zstd (compressData lz4 zstd s [0xFF, 0] .none level).2 = .bytes [0xFF] ∧
      decompressData lz4 zstd (compressData lz4 zstd s [0xFF, 3, 7] .none level).2 = .bytes [7, 7, 7]) ∧
    ∀ (lz4 zstd : Codec) s level rest, lz4.decode rest = none →
      decompressData lz4 zstd (compressData lz4 zstd s (0xF0 :: rest) .none level).2 = .panic := by
  refine ⟨fun lz4 zstd s level => ⟨rfl, rfl⟩, fun lz4 zstd s level rest h => ?_⟩
  show decompressData lz4 zstd (0xF0 :: rest) = _
  unfold decompressData
  simp only [if_true, h]

/-- The compressor of the example refuses the empty text. -/
example : zeros.decode [] = none := rfl

end Verif.Disk
