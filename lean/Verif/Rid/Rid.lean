import Verif.Base.Bytes

/-!
# Record identifiers (`src/common/rid.rs`), property C07
-/

namespace Verif.Rid

open Verif.Bytes

/-! ## Model -/

/-- `struct RID` (rid.rs:203-208): a `u64` page id and a `u32` slot number. -/
structure RID where
  pageId : BitVec 64
  slotNum : BitVec 32
  deriving DecidableEq, Repr

/-- `RID::from_i64` (rid.rs:239-244). The argument is an `i64`, a mathematical integer here;
`rid as u64` keeps the bits, `as u32` truncates, `as PageId` zero-extends. -/
def fromI64 (rid : Int) : RID :=
  let bits := BitVec.ofInt 64 rid
  let pageIdU32 := (bits >>> 32).truncate 32
  let slotNum := bits.truncate 32
  { pageId := pageIdU32.zeroExtend 64, slotNum := slotNum }

/-- `RID::to_i64` (rid.rs:251-258). The result is an `i64` as an integer. -/
def toI64 (r : RID) : Option Int :=
  if r.pageId > 0xFFFFFFFF#64 then none
  else
    let packed := (r.pageId <<< 32) ||| (r.slotNum.zeroExtend 64)
    some packed.toInt

/-- `RID::to_bytes_le` (rid.rs:272-277). -/
def toBytesLE (r : RID) : List Byte :=
  toLE 8 r.pageId.toNat ++ toLE 4 r.slotNum.toNat

/-- `RID::try_deserialize` (rid.rs:280-287). -/
def tryDeserialize (data : List Byte) : Option RID :=
  if data.length < 12 then none
  else some {
    pageId := BitVec.ofNat 64 (ofLE (data.take 8)),
    slotNum := BitVec.ofNat 32 (ofLE ((data.drop 8).take 4)) }

/-! ## Property -/

/-- C07, byte form: decoding the encoding, followed by anything, gives the identifier back. -/
theorem C07_rid_bytes_round_trip (r : RID) (rest : List Byte) :
    tryDeserialize (toBytesLE r ++ rest) = some r ∧ (toBytesLE r).length = 12 := by
  have hl : (toBytesLE r).length = 12 := by simp [toBytesLE]
  refine ⟨?_, hl⟩
  unfold tryDeserialize
  rw [if_neg (by simp [hl])]
  have h8 : (toLE 8 r.pageId.toNat).length = 8 := length_toLE _ _
  have h4 : (toLE 4 r.slotNum.toNat).length = 4 := length_toLE _ _
  have e1 : (toBytesLE r ++ rest).take 8 = toLE 8 r.pageId.toNat := by
    unfold toBytesLE
    rw [List.append_assoc, List.take_append_of_le_length (by omega), List.take_of_length_le (by omega)]
  have e2 : ((toBytesLE r ++ rest).drop 8).take 4 = toLE 4 r.slotNum.toNat := by
    unfold toBytesLE
    rw [List.append_assoc, List.drop_append_of_le_length (by omega), List.drop_of_length_le (by omega),
      List.nil_append, List.take_append_of_le_length (by omega), List.take_of_length_le (by omega)]
  rw [e1, e2, ofLE_toLE (by have := r.pageId.isLt; simpa using this),
    ofLE_toLE (by have := r.slotNum.isLt; simpa using this)]
  simp

/-- C07, byte form: only a too-short buffer is rejected, and the first twelve bytes of an accepted buffer
are the encoding of what was decoded, so no two buffers that differ there decode alike. -/
theorem C07_rid_bytes_canonical (data : List Byte) :
    (tryDeserialize data = none ↔ data.length < 12) ∧
    ∀ r, tryDeserialize data = some r → toBytesLE r = data.take 12 := by
  unfold tryDeserialize
  by_cases h : data.length < 12
  · simp [h]
  · simp only [if_neg h]
    refine ⟨by simp [h], ?_⟩
    rintro r ⟨⟩
    unfold toBytesLE
    have hl1 : (data.take 8).length = 8 := by simp; omega
    have hl2 : ((data.drop 8).take 4).length = 4 := by simp; omega
    have b1 := ofLE_lt (data.take 8)
    have b2 := ofLE_lt ((data.drop 8).take 4)
    have r1 := toLE_ofLE (data.take 8)
    have r2 := toLE_ofLE ((data.drop 8).take 4)
    rw [hl1] at b1 r1
    rw [hl2] at b2 r2
    simp only [BitVec.toNat_ofNat]
    rw [Nat.mod_eq_of_lt (by simpa using b1), Nat.mod_eq_of_lt (by simpa using b2), r1, r2]
    rw [← List.take_add]

theorem or_toNat (p : BitVec 64) (s : BitVec 32) (h : p.toNat < 2 ^ 32) :
    ((p <<< 32) ||| (s.zeroExtend 64)).toNat = p.toNat * 2 ^ 32 + s.toNat := by
  have hs := s.isLt
  rw [BitVec.toNat_or, BitVec.toNat_shiftLeft]
  have h1 : p.toNat <<< 32 % 2 ^ 64 = p.toNat <<< 32 := by
    rw [Nat.mod_eq_of_lt]; rw [Nat.shiftLeft_eq]; omega
  have h2 : (s.zeroExtend 64).toNat = s.toNat := by
    simp only [BitVec.toNat_setWidth]
    rw [Nat.mod_eq_of_lt]; omega
  rw [h1, h2, ← Nat.shiftLeft_add_eq_or_of_lt hs, Nat.shiftLeft_eq]

/-- C07, integer form: packing fails exactly when the page id does not fit in 32 bits, the packed integer is
an `i64`, and unpacking it gives the identifier back. -/
theorem C07_rid_i64_round_trip (r : RID) :
    (toI64 r = none ↔ 2 ^ 32 ≤ r.pageId.toNat) ∧
    ∀ i, toI64 r = some i → fromI64 i = r ∧ -2 ^ 63 ≤ i ∧ i < 2 ^ 63 := by
  have hgt : (r.pageId > 0xFFFFFFFF#64) ↔ 2 ^ 32 ≤ r.pageId.toNat := by
    rw [gt_iff_lt, BitVec.lt_def]
    simp
    omega
  unfold toI64
  by_cases h : r.pageId > 0xFFFFFFFF#64
  · rw [if_pos h]
    exact ⟨⟨fun _ => hgt.1 h, fun _ => rfl⟩, fun i hi => by cases hi⟩
  · rw [if_neg h]
    have hlt : r.pageId.toNat < 2 ^ 32 := by rw [hgt] at h; omega
    refine ⟨⟨fun hn => by simp at hn, fun hn => by omega⟩, ?_⟩
    intro i hi
    simp only [Option.some.injEq] at hi
    subst hi
    have hs := r.slotNum.isLt
    refine ⟨?_, ?_, ?_⟩
    · unfold fromI64
      simp only [BitVec.ofInt_toInt]
      have hv := or_toNat r.pageId r.slotNum hlt
      cases r with
      | mk p s =>
        simp only at hv hlt hs ⊢
        congr 1
        · apply BitVec.eq_of_toNat_eq
          simp only [BitVec.truncate_eq_setWidth, BitVec.toNat_setWidth, BitVec.toNat_ushiftRight, hv]
          rw [Nat.shiftRight_eq_div_pow]
          omega
        · apply BitVec.eq_of_toNat_eq
          simp only [BitVec.truncate_eq_setWidth, BitVec.toNat_setWidth, hv]
          omega
    · have := BitVec.le_toInt ((r.pageId <<< 32) ||| (r.slotNum.zeroExtend 64))
      simpa using this
    · have := BitVec.toInt_lt (x := (r.pageId <<< 32) ||| (r.slotNum.zeroExtend 64))
      simpa using this

/-- C07, integer form, the other way: every `i64` unpacks to an identifier that packs back to it. So the
packing is a bijection between `i64` and the identifiers with a 32-bit page id. -/
theorem C07_rid_i64_onto (i : Int) (h1 : -2 ^ 63 ≤ i) (h2 : i < 2 ^ 63) : toI64 (fromI64 i) = some i := by
  unfold toI64 fromI64
  simp only
  have hb := (BitVec.ofInt 64 i).isLt
  have hp : (((BitVec.ofInt 64 i >>> 32).truncate 32).zeroExtend 64).toNat = (BitVec.ofInt 64 i).toNat / 2 ^ 32 := by
    simp only [BitVec.truncate_eq_setWidth, BitVec.toNat_setWidth, BitVec.toNat_ushiftRight]
    rw [Nat.shiftRight_eq_div_pow]
    omega
  rw [if_neg]
  · congr 1
    have : ((((BitVec.ofInt 64 i >>> 32).truncate 32).zeroExtend 64) <<< 32 |||
        ((BitVec.ofInt 64 i).truncate 32).zeroExtend 64) = BitVec.ofInt 64 i := by
      apply BitVec.eq_of_toNat_eq
      rw [or_toNat _ _ (by rw [hp]; omega), hp]
      simp only [BitVec.truncate_eq_setWidth, BitVec.toNat_setWidth]
      omega
    rw [this]
    rw [BitVec.toInt_ofInt]
    apply Int.bmod_eq_of_le <;> simpa using by omega
  · rw [gt_iff_lt, BitVec.lt_def, hp]
    simp
    omega

/-- Non-vacuity: an ordinary identifier, one with the top bit of the packed word set, and one that does
not fit. -/
example : toI64 ⟨7, 3⟩ = some 30064771075 ∧ toI64 ⟨0xFFFFFFFF, 1⟩ = some (-4294967295) ∧
    toI64 ⟨0x100000000, 1⟩ = none ∧ tryDeserialize (toBytesLE ⟨0x100000000, 9⟩) = some ⟨0x100000000, 9⟩ := by
  decide

end Verif.Rid
