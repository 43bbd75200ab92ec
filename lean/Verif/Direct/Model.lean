import Verif.Io.Model

/-!
# Direct I/O (`src/storage/disk/direct_io.rs`), on Linux

A file is its bytes. What the operating system does is a script: each call of `read_at` or `write_at` takes the next entry, which says that
the call fails, or how many bytes it moves at most (one more than the number given). When the script is used up the call never returns.
The calls are recorded with their address, offset and length. Buffers are given by their address; the allocator is a parameter, an address
for each size and alignment. That memory runs out is not modelled.
-/

namespace Verif.Direct

open Verif.Bytes (Byte)
open Verif.Io (Data writeAt)

/-- `DirectIOConfig` (direct_io.rs:163-167). -/
structure Config where
  enabled : Bool
  alignment : Nat

/-- The outcome of a call. -/
inductive R (α : Type) where
  | ok (a : α)
  | err
  | panic
  | stuck
  deriving DecidableEq

/-- A call of the operating system: the address, offset and length. -/
abbrev Call := Nat × Nat × Nat

/-- `usize::is_power_of_two`. -/
def isPow2 (n : Nat) : Bool := n != 0 && (List.range 64).any fun k => n == 2 ^ k

/-- `is_aligned`, `is_offset_aligned` and `is_size_aligned` (direct_io.rs:247-260, 417-422) on a number. -/
def multiple (n align : Nat) : Bool := align == 0 || n % align == 0

/-- `is_aligned` (direct_io.rs:247-252). -/
def isAligned (addr len align : Nat) : Bool := len == 0 || multiple addr align

/-- `validate_alignment` (direct_io.rs:275-285). -/
def validAlignment (a : Nat) : Bool := a != 0 && isPow2 a

/-- `round_up_to_alignment` (direct_io.rs:402-413); `none` is the panic. -/
def roundUp (size align : Nat) : Option Nat :=
  if align = 0 then some size
  else if size + (align - 1) < 2 ^ 64 then some ((size + (align - 1)) / align * align) else none

/-- Whether `Layout::from_size_align` accepts (direct_io.rs:297-324); otherwise `AlignedBuffer::new` panics. -/
def layoutOk (size align : Nat) : Bool := isPow2 align && size + (align - 1) < 2 ^ 63

/-- `read_exact_at` (direct_io.rs:432-443): the script, the calls so far, the address, the offset, how much is left, what has been read. -/
def readLoop (f : Data) : List (Option Nat) → List Call → Nat → Nat → Nat → Data → List Call × R Data
  | script, calls, addr, off, n, acc =>
    if n = 0 then (calls, .ok acc)
    else match script with
      | [] => (calls, .stuck)
      | none :: _ => (calls ++ [(addr, off, n)], .err)
      | some k :: script =>
        let got := (f.drop off).take (min (k + 1) n)
        if got = [] then (calls ++ [(addr, off, n)], .err)
        else readLoop f script (calls ++ [(addr, off, n)]) (addr + got.length) (off + got.length) (n - got.length) (acc ++ got)
termination_by structural script => script

/-- `write_all_at` (direct_io.rs:468-482): the script, the calls so far, the file, the address, the offset, the bytes left. -/
def writeLoop : List (Option Nat) → List Call → Data → Nat → Nat → Data → List Call × Data × R Unit
  | script, calls, f, addr, off, d =>
    if d = [] then (calls, f, .ok ())
    else match script with
      | [] => (calls, f, .stuck)
      | none :: _ => (calls ++ [(addr, off, d.length)], f, .err)
      | some k :: script =>
        let m := min (k + 1) d.length
        writeLoop script (calls ++ [(addr, off, d.length)]) (writeAt f off (d.take m)) (addr + m) (off + m) (d.drop m)
termination_by structural script => script

/-- `read_aligned` (direct_io.rs:512-551). -/
def readAligned (alloc : Nat → Nat → Nat) (cfg : Config) (f : Data) (script : List (Option Nat)) (off size : Nat) : List Call × R Data :=
  if size = 0 then (if layoutOk 0 (max cfg.alignment 1) then ([], .ok []) else ([], .panic))
  else if cfg.enabled && !(validAlignment cfg.alignment && multiple off cfg.alignment) then ([], .err)
  else match (if cfg.enabled then roundUp size cfg.alignment else some size) with
    | none => ([], .panic)
    | some n =>
      if layoutOk n (max cfg.alignment 1) then readLoop f script [] (alloc n (max cfg.alignment 1)) off n []
      else ([], .panic)

/-- `read_aligned_into` (direct_io.rs:554-594), into a buffer of `len` bytes at `addr`. -/
def readAlignedInto (alloc : Nat → Nat → Nat) (cfg : Config) (f : Data) (script : List (Option Nat)) (off addr len : Nat) : List Call × R Data :=
  if len = 0 then ([], .ok [])
  else if cfg.enabled then
    if !(validAlignment cfg.alignment && multiple off cfg.alignment) then ([], .err)
    else if !(isAligned addr len cfg.alignment && multiple len cfg.alignment) then
      match roundUp len cfg.alignment with
      | none => ([], .panic)
      | some n =>
        if layoutOk n cfg.alignment then
          match readLoop f script [] (alloc n cfg.alignment) off n [] with
          | (cs, .ok d) => (cs, .ok (d.take len))
          | r => r
        else ([], .panic)
    else readLoop f script [] addr off len []
  else readLoop f script [] addr off len []

/-- `write_aligned` (direct_io.rs:597-645), of bytes at `addr`. -/
def writeAligned (alloc : Nat → Nat → Nat) (cfg : Config) (f : Data) (script : List (Option Nat)) (off addr : Nat) (d : Data) : List Call × Data × R Unit :=
  if d = [] then ([], f, .ok ())
  else if cfg.enabled && !(validAlignment cfg.alignment && multiple off cfg.alignment && multiple d.length cfg.alignment) then ([], f, .err)
  else if cfg.enabled && !isAligned addr d.length cfg.alignment then
    if layoutOk d.length cfg.alignment then writeLoop script [] f (alloc d.length cfg.alignment) off d
    else ([], f, .panic)
  else writeLoop script [] f addr off d

end Verif.Direct
