/-!
# Binary floating point, as bit patterns

`Val::Decimal` holds an `f64` and `Val::Float` an `f32` (`src/types_db/value.rs:17-18`). A float is modelled by its IEEE 754 bit
pattern, the number `to_bits` returns. The operations are the ones `value.rs` uses: the comparison operators, `is_nan`, and the `as`
conversions between floats and integers. Rust defines all of them exactly (round to nearest, ties to even; float to integer truncates,
saturates and sends NaN to zero), so nothing is left abstract here. Arithmetic on floats is not modelled.
-/

namespace Verif.Sql

/-- A binary format: `m` fraction bits and `e` exponent bits. -/
structure Fmt where
  m : Nat
  e : Nat

/-- `f64`. -/
def f64 : Fmt := ⟨52, 11⟩
/-- `f32`. -/
def f32 : Fmt := ⟨23, 8⟩

namespace Fmt

/-- The sign bit. -/
def neg (f : Fmt) (x : Nat) : Bool := x / 2 ^ (f.m + f.e) % 2 == 1
/-- The bits below the sign bit. -/
def mag (f : Fmt) (x : Nat) : Nat := x % 2 ^ (f.m + f.e)
/-- The magnitude of the infinities; larger magnitudes are the NaNs. -/
def inf (f : Fmt) : Nat := (2 ^ f.e - 1) * 2 ^ f.m
/-- `is_nan`. -/
def nan (f : Fmt) (x : Nat) : Bool := f.inf < f.mag x
/-- The position of a float that is not a NaN on the number line: the magnitude bits grow with the number, and both zeros are at 0. -/
def key (f : Fmt) (x : Nat) : Int := if f.neg x then - (f.mag x : Int) else f.mag x

/-- `partial_cmp`. -/
def cmp (f : Fmt) (x y : Nat) : Option Ordering :=
  if f.nan x || f.nan y then none else some (compare (f.key x) (f.key y))

/-- The `NAN` constants, `0x7ff8_0000_0000_0000` and `0x7fc0_0000`. -/
def quiet (f : Fmt) : Nat := f.inf + 2 ^ (f.m - 1)

/-- Put a sign on magnitude bits. -/
def signed (f : Fmt) (s : Bool) (m : Nat) : Nat := if s then 2 ^ (f.m + f.e) + m else m

/-- `canonical_f64_bits`, `canonical_f32_bits` (value.rs:2288-2308); the last case is `x` itself. -/
def canon (f : Fmt) (x : Nat) : Nat :=
  if f.mag x = 0 then 0 else if f.nan x then f.quiet else f.signed (f.neg x) (f.mag x)

/-- The exponent bias. -/
def bias (f : Fmt) : Int := 2 ^ (f.e - 1) - 1

/-- The magnitude of a finite float is `mant x * 2 ^ expo x`. -/
def mant (f : Fmt) (x : Nat) : Nat :=
  let E := f.mag x / 2 ^ f.m
  if E = 0 then f.mag x % 2 ^ f.m else 2 ^ f.m + f.mag x % 2 ^ f.m
def expo (f : Fmt) (x : Nat) : Int :=
  let E := f.mag x / 2 ^ f.m
  if E = 0 then 1 - f.bias - f.m else E - f.bias - f.m

/-- `n / 2 ^ s` rounded to the nearest number, ties to even. -/
def roundShift (n s : Nat) : Nat :=
  let q := n / 2 ^ s
  let r := n % 2 ^ s
  if 2 ^ s < 2 * r ∨ (2 ^ s = 2 * r ∧ q % 2 = 1) then q + 1 else q

/-- The magnitude bits of the float nearest to `n * 2 ^ x`. -/
def ofDyadic (f : Fmt) (n : Nat) (x : Int) : Nat :=
  if n = 0 then 0 else
    let ulp := max (x + (n.log2 + 1) - (f.m + 1)) (1 - f.bias - f.m)
    let q := if ulp ≤ x then n * 2 ^ (x - ulp).toNat else roundShift n (ulp - x).toNat
    let bits := ((ulp + f.bias + f.m).toNat - 1) * 2 ^ f.m + q
    if f.inf ≤ bits then f.inf else bits

/-- `i as f64`, `i as f32`. -/
def ofInt (f : Fmt) (i : Int) : Nat := f.signed (i < 0) (f.ofDyadic i.natAbs 0)

/-- `x as f32`, `x as f64` for a float `x` of format `f`. -/
def convert (f g : Fmt) (x : Nat) : Nat :=
  if f.nan x then g.signed (f.neg x) g.quiet
  else if f.mag x = f.inf then g.signed (f.neg x) g.inf
  else g.signed (f.neg x) (g.ofDyadic (f.mant x) (f.expo x))

/-- `x as i64` and the like, for the integer type from `lo` to `hi`. -/
def toInt (f : Fmt) (lo hi : Int) (x : Nat) : Int :=
  if f.nan x then 0
  else if f.mag x = f.inf then (if f.neg x then lo else hi)
  else
    let t : Nat := if 0 ≤ f.expo x then f.mant x * 2 ^ (f.expo x).toNat else f.mant x / 2 ^ (- f.expo x).toNat
    max lo (min hi (if f.neg x then - (t : Int) else t))

end Fmt

-- 1.0, -2.0, 0.1, 0.1f32, 2^53 + 1 rounds to 2^53, i64::MAX rounds to 2^63, the largest f32, truncation.
example : f64.ofInt 1 = 0x3ff0000000000000 ∧ f64.ofInt (-2) = 0xc000000000000000 := by decide +kernel
example : f64.convert f32 0x3fb999999999999a = 0x3dcccccd ∧ f32.convert f64 0x3dcccccd = 0x3fb99999a0000000 := by decide +kernel
example : f64.ofInt (2 ^ 53 + 1) = f64.ofInt (2 ^ 53) ∧ f64.ofInt (2 ^ 53 + 3) = f64.ofInt (2 ^ 53 + 4) := by decide +kernel
example : f64.ofInt (2 ^ 63 - 1) = 0x43e0000000000000 ∧ f64.convert f32 0x7fefffffffffffff = f32.inf := by decide +kernel
example : f64.toInt (-128) 127 0x400d99999999999a = 3 ∧ f64.toInt (-128) 127 0xc07f400000000000 = -128 := by decide +kernel
example : f32.convert f64 1 = 0x36a0000000000000 ∧ f64.convert f32 0x36a0000000000000 = 1 := by decide +kernel

end Verif.Sql
