import Verif.Coalesce.Model

/-!
# The size analysis of the write coalescer (`src/storage/disk/async_disk/memory/coalescing/size_analyzer.rs`)

All quantities are 64-bit. A build with overflow checks panics when one does not fit, a build without wraps around: the parameter `c` says which
of the two it is, and `none` is the panic. `usize` is 64 bits.

Quotients of sizes are compared with 1/2, 1/4 and 1/5 as rational numbers. The code divides in `f64`. For sizes below 2^52 bytes the rounded
quotient is on the same side of the constant as the exact one: the difference of the exact quotient from the constant is then more than half the
distance between neighbouring doubles.
-/

namespace Verif.Coalesce.Size

open Verif.Io (Data)

/-- A sum, a difference and a product of 64 bits: `c` says whether overflow is checked. -/
def add (c : Bool) (a b : Nat) : Option Nat :=
  if a + b < 2 ^ 64 then some (a + b) else if c then none else some ((a + b) % 2 ^ 64)

@[inherit_doc add]
def sub (c : Bool) (a b : Nat) : Option Nat :=
  if b ≤ a then some (a - b) else if c then none else some (a + 2 ^ 64 - b)

@[inherit_doc add]
def mul (c : Bool) (a b : Nat) : Option Nat :=
  if a * b < 2 ^ 64 then some (a * b) else if c then none else some (a * b % 2 ^ 64)

/-- `Iterator::sum`. -/
def sum (c : Bool) (l : List Nat) : Option Nat := l.foldlM (add c) 0

/-- `PageRange` (size_analyzer.rs:228-233). -/
structure PageRange where
  start : Nat
  last : Nat
  bytes : Nat
  deriving DecidableEq, Repr

/-- `CoalescedSizeInfo` (size_analyzer.rs:237-252). -/
structure Info where
  total : Nat
  data : Nat
  metadata : Nat
  ranges : Nat
  savings : Nat
  padding : Nat
  efficient : Bool
  deriving DecidableEq, Repr

/-- `sort_unstable` on page ids: any sort gives this list. -/
def sortPages : List Nat → List Nat
  | [] => []
  | p :: ps => put p (sortPages ps)
where
  /-- Into its place. -/
  put (p : Nat) : List Nat → List Nat
    | [] => [p]
    | q :: qs => if p ≤ q then p :: q :: qs else q :: put p qs

/-- The size `build_page_ranges` takes a page to have (size_analyzer.rs:369-372, 376-379). -/
def pageBytes (pending : Map Data) (p : Nat) : Nat := ((get pending p).map List.length).getD 4096

/-- The loop of `build_page_ranges` (size_analyzer.rs:375-407), with the range so far. -/
def grow (c : Bool) (pending : Map Data) (s e b : Nat) : List Nat → Option (List PageRange)
  | [] => some (if s ≤ e then [⟨s, e, b⟩] else [])
  | p :: ps => do
    let next ← add c e 1
    if p = next then
      let b' ← add c b (pageBytes pending p)
      grow c pending s p b' ps
    else
      let rest ← grow c pending p p (pageBytes pending p) ps
      some (⟨s, e, b⟩ :: rest)

/-- `build_page_ranges` (size_analyzer.rs:352-408). -/
def buildRanges (c : Bool) (pages : List Nat) (pending : Map Data) : Option (List PageRange) :=
  match sortPages pages with
  | [] => some []
  | p :: ps => grow c pending p p (pageBytes pending p) ps

/-- `analyze_page_gaps` (size_analyzer.rs:411-427): first page, last page, bytes. -/
def gaps (c : Bool) : List PageRange → Option (List (Nat × Nat × Nat))
  | r :: r' :: rs => do
    let after ← add c r.last 1
    if r'.start > after then
      let first ← add c r.last 1
      let last ← sub c r'.start 1
      let d ← sub c last first
      let n ← add c d 1
      let b ← mul c n 4096
      let rest ← gaps c (r' :: rs)
      some ((first, last, b) :: rest)
    else gaps c (r' :: rs)
  | _ => some []

/-- `calculate_effective_span` (size_analyzer.rs:430-459); the inner `none` is the code's `None`. -/
def span (c : Bool) (ranges : List PageRange) (gs : List (Nat × Nat × Nat)) : Option (Option Nat) :=
  match ranges.head?, ranges.getLast? with
  | some first, some last => do
    let d ← sum c (ranges.map (·.bytes))
    let g ← sum c (gs.map (·.2.2))
    if d > 0 ∧ 2 * g > d then some (some d)
    else
      let w ← sub c last.last first.start
      let n ← add c w 1
      let b ← mul c n 4096
      some (some b)
  | _, _ => some none

/-- The bytes noted for the pages of a range (size_analyzer.rs:472-475). -/
def rangeMeta (c : Bool) (r : PageRange) : Option Nat := do
  let w ← sub c r.last r.start
  let n ← add c w 1
  mul c n 8

/-- `calculate_metadata_overhead` (size_analyzer.rs:462-479). -/
def metadata (c : Bool) (ranges : List PageRange) (gs : List (Nat × Nat × Nat)) : Option Nat := do
  let a ← mul c ranges.length 32
  let bs ← ranges.mapM (rangeMeta c)
  let b ← sum c bs
  let g ← mul c gs.length 16
  let ab ← add c a b
  add c ab g

/-- `calculate_alignment_overhead` (size_analyzer.rs:482-501). -/
def alignment (c : Bool) (data : Nat) (ranges : List PageRange) : Option Nat := do
  let a ← mul c ranges.length 64
  add c a (if data % 4096 ≠ 0 then 4096 - data % 4096 else 0)

/-- `estimate_compression_savings` (size_analyzer.rs:504-523). The threshold is in percent. The ratio is 0.3 plus the lesser of √n / 10 and 0.4:
it reaches the threshold if the threshold is at most 0.3, or at most 0.7 with (threshold - 0.3)² ≤ n / 100. What is saved then, a product of
floats, is the parameter `est`. -/
def savings (est : Nat → Nat → Nat) (data : Nat) (ranges : List PageRange) (threshold : Nat) : Nat :=
  if ranges.length < 2 then 0
  else if threshold ≤ 30 ∨ threshold ≤ 70 ∧ (threshold - 30) ^ 2 ≤ 100 * ranges.length then est data ranges.length
  else 0

/-- `analyze_coalescing_efficiency` (size_analyzer.rs:526-550); the greatest ratio of gaps is in percent. -/
def efficient (c : Bool) (data total : Nat) (gs : List (Nat × Nat × Nat)) (most : Nat) : Option Bool :=
  if data = 0 then some false
  else do
    let over := if total > data then total - data else 0
    let g ← sum c (gs.map (·.2.2))
    some (decide (4 * over < data) && decide (100 * g ≤ most * data))

/-- `(size + alignment - 1) & !(alignment - 1)` (size_analyzer.rs:553-562). -/
def roundUp (c : Bool) (size align : Nat) : Option Nat := do
  let a ← add c size align
  let b ← sub c a 1
  let m ← sub c align 1
  some (b &&& (2 ^ 64 - (m + 1)))

/-- `calculate_aligned_size` (size_analyzer.rs:553-556). -/
def alignedSize (c : Bool) (size : Nat) : Option Nat := roundUp c size 64

/-- `calculate_padding` (size_analyzer.rs:559-562). -/
def padding (c : Bool) (size align : Nat) : Option Nat := do
  let a ← roundUp c size align
  sub c a size

/-- One round of the loop that adds up the pending data (size_analyzer.rs:305-309). -/
def addPending (c : Bool) (pending : Map Data) (n p : Nat) : Option Nat :=
  match get pending p with
  | some d => add c n d.length
  | none => some n

/-- The bytes of pending data of the listed pages, added to those of the new data (size_analyzer.rs:303-309). -/
def dataSize (c : Bool) (pages : List Nat) (new : Data) (pending : Map Data) : Option Nat := pages.foldlM (addPending c pending) new.length

/-- `calculate_detailed_coalesced_size` (size_analyzer.rs:277-349), which `get_coalescing_size_analysis` (engine.rs:684-695) hands on. -/
def analyze (c : Bool) (est : Nat → Nat → Nat) (pages : List Nat) (new : Data) (pending : Map Data) : Option Info :=
  if pages.isEmpty then do
    let t ← alignedSize c new.length
    let p ← padding c new.length 64
    some ⟨t, new.length, 0, 1, 0, p, true⟩
  else do
    let ranges ← buildRanges c pages pending
    let data ← dataSize c pages new pending
    let gs ← gaps c ranges
    let sp ← span c ranges gs
    let m ← metadata c ranges gs
    let a ← alignment c data ranges
    let s := savings est data ranges 75
    let base := sp.getD data
    let x ← add c base m
    let y ← add c x a
    let total ← sub c y s
    let eff ← efficient c data total gs 20
    some ⟨total, data, m, ranges.length, s, a, eff⟩

/-- `calculate_coalesced_size` (size_analyzer.rs:265-274). -/
def coalescedSize (c : Bool) (est : Nat → Nat → Nat) (pages : List Nat) (new : Data) (pending : Map Data) : Option Nat :=
  (analyze c est pages new pending).map (·.total)

/-- `validate_page_ranges` (size_analyzer.rs:565-581): `false` is the error. -/
def validate : List PageRange → Bool
  | r :: r' :: rs => if r'.start ≤ r.last then false else validate (r' :: rs)
  | _ => true

end Verif.Coalesce.Size
