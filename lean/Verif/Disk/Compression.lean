import Verif.Base.Bytes

/-!
# The compression engine (`storage/disk/async_disk/compression.rs`)

The compressors of the crates `lz4_flex` and `zstd` are parameters.
-/

namespace Verif.Disk

open Verif.Bytes

/-- A library compressor: `encode` takes a level, `decode` refuses some inputs. `compress_prepend_size`, `decompress_size_prepended` and
`zstd::stream::encode_all`, `decode_all`; the level of LZ4 is not used. -/
structure Codec where
  encode : Nat → List Byte → List Byte
  decode : List Byte → Option (List Byte)

/-- `CompressionAlgorithm` (compression.rs:24-31). -/
inductive Algorithm where
  | none | lz4 | zstd
  deriving DecidableEq

/-- `bytes_before_compression` and `bytes_after_compression` (compression.rs:35-40); the ratio is their quotient. -/
structure CompStats where
  before : Nat
  after : Nat

/-- What a call gives; `panic` is a failed `expect`. -/
inductive Unpacked where
  | bytes (b : List Byte)
  | panic
  deriving DecidableEq

/-- The bytes `compress_data` gives (compression.rs:59-118). The errors of the Zstd encoder, which end in a panic, are not modelled. -/
def packed (lz4 zstd : Codec) (data : List Byte) (a : Algorithm) (level : Nat) : List Byte := match a with
  | .none => data
  | .lz4 => if data = [] then [] else 0xF0 :: lz4.encode 0 data
  | .zstd => if data = [] then [] else 0xF1 :: zstd.encode level data

/-- `compress_data` (compression.rs:59-84). -/
def compressData (lz4 zstd : Codec) (s : CompStats) (data : List Byte) (a : Algorithm) (level : Nat) : CompStats × List Byte :=
  let r := packed lz4 zstd data a level
  (⟨s.before + data.length, s.after + r.length⟩, r)

/-- The loop over the older run length format (compression.rs:151-191). -/
def unrun : List Byte → List Byte
  | [] => []
  | [b] => [b]
  | [b, c] =>
    if b = 0xFF then
      if c = 0 then [0xFF]
      else if c = 0xFE then []
      else [b, c]
    else b :: unrun [c]
  | b :: c :: d :: rest =>
    if b = 0xFF then
      if c = 0 then 0xFF :: unrun (d :: rest)
      else if c = 0xFE then unrun (d :: rest)
      else List.replicate c.val d ++ unrun rest
    else b :: unrun (c :: d :: rest)

/-- `decompress_data` (compression.rs:121-192). -/
def decompressData (lz4 zstd : Codec) (c : List Byte) : Unpacked := match c with
  | [] => .bytes []
  | b :: rest =>
    if b = 0xF0 then (match lz4.decode rest with
      | some d => .bytes d
      | none => .panic)
    else if b = 0xF1 then (match zstd.decode rest with
      | some d => .bytes d
      | none => .panic)
    else match rest with
      | [] => .bytes [b]
      | [c1, c2, c3, c4, c5] =>
        if b = 0xFF ∧ c1 = 0xFE then .bytes (List.replicate (c2.val + 256 * c3.val + 65536 * c4.val + 16777216 * c5.val) 0)
        else .bytes (unrun (b :: rest))
      | _ => .bytes (unrun (b :: rest))

end Verif.Disk
