import Verif.Sql.FloatOps

/-!
# C136: arithmetic on DECIMAL and FLOAT gives the number nearest to the exact result

A DECIMAL is an `f64`, a FLOAT an `f32`. `Fmt.exact` is the number a float stands for, counted in units of the smallest positive float of its format; there are `Fmt.unit` of those in 1.
`Fmt.Rounds f p q z` says that `z` is the float nearest to `p / q`.
-/

namespace Verif.Sql

open Verif.Wire Verif.Bytes

/-! ## Specification -/

/-- The exact result of an operation on the numbers `p / u` and `q / u`, as a fraction of the unit; a division by zero has none. -/
def ArOp.fraction (u : Nat) : ArOp → Int → Int → Option (Int × Nat)
  | .add, p, q => some (p + q, 1)
  | .sub, p, q => some (p - q, 1)
  | .mul, p, q => some (p * q, u)
  | .div, p, q => if q = 0 then none else some (p * u * q.sign, q.natAbs)

/-- The value is this many units of `f64`, without being rounded when it is made a DECIMAL: a DECIMAL or FLOAT that is a number, or an integer of at most 53 bits. -/
inductive Units64 : Value → Int → Prop where
  | decimal {a x} : val a = .decimal x → f64.mag x < f64.inf → Units64 a (f64.exact x)
  | float {a x} : val a = .float x → f32.mag x < f32.inf → Units64 a (f32.exact x * 2 ^ 925)
  | int {a i} : intOf a = some i → i.natAbs < 2 ^ 53 → Units64 a (i * f64.unit)

/-- The value is this many units of `f32`, without being rounded when it is made a FLOAT: a FLOAT that is a number, or an integer of at most 24 bits. -/
inductive Units32 : Value → Int → Prop where
  | float {a x} : val a = .float x → f32.mag x < f32.inf → Units32 a (f32.exact x)
  | int {a i} : intOf a = some i → i.natAbs < 2 ^ 24 → Units32 a (i * f32.unit)

/-- The outcome is the number of format `f` nearest to the exact result, or the error for a division by zero. -/
def Nearest (f : Fmt) (mk : Nat → Value) (op : ArOp) (p q : Int) (r : ArR) : Prop := match op.fraction f.unit p q with
  | some (n, d) => ∃ z, r = .ok (mk z) ∧ f.Rounds n d z
  | none => r = .divZero

/-! ## Proof -/

namespace Fmt

theorem exact_flip {f : Fmt} {x : Nat} : f.exact (f.flip x) = - f.exact x := by
  have hlt : f.mag x < 2 ^ (f.m + f.e) := Nat.mod_lt _ (Nat.two_pow_pos _)
  unfold exact flip
  rw [mag_signed hlt, neg_signed hlt]
  cases f.neg x <;> simp

theorem mag_flip {f : Fmt} {x : Nat} : f.mag (f.flip x) = f.mag x := mag_signed (Nat.mod_lt _ (Nat.two_pow_pos _))

theorem sign_exact {f : Fmt} {y : Nat} (h : f.mag y ≠ 0) : (f.exact y).sign = if f.neg y then -1 else 1 := by
  have hsy : 0 < f.scaled (f.mag y) := by have := scaled_lt (f := f) (show 0 < f.mag y by omega); rw [scaled_zero] at this; exact this
  unfold exact
  split
  · exact Int.sign_eq_neg_one_of_neg (by omega)
  · exact Int.sign_eq_one_of_pos (by omega)

theorem exact_zero_iff {f : Fmt} {y : Nat} : f.exact y = 0 ↔ f.mag y = 0 := by
  have h1 := exact_natAbs f y
  have h2 := scaled_eq_iff (f := f) (g := f.mag y) (g' := 0)
  rw [scaled_zero] at h2
  omega

end Fmt

theorem onFloat_nearest {f : Fmt} {mk : Nat → Value} {op : ArOp} {x y : Nat} (hm : 1 ≤ f.m) (he : 2 ≤ f.e) (hx : f.mag x < f.inf) (hy : f.mag y < f.inf) :
    Nearest f mk op (f.exact x) (f.exact y) (onFloat f mk op x y) := by
  have nx : f.nan x = false := by simp [Fmt.nan]; omega
  have ny : f.nan y = false := by simp [Fmt.nan]; omega
  have hz : f.cmp y 0 = some .eq ↔ f.mag y = 0 := by
    have n0 : f.nan 0 = false := by simp [Fmt.nan, Fmt.mag]
    have e0 : f.exact 0 = 0 := Fmt.exact_zero_iff.2 (by simp [Fmt.mag])
    rw [Fmt.cmp_exact ny n0, e0, Option.some.injEq, Int.compare_eq_eq, Fmt.exact_zero_iff]
  cases op with
  | add => exact ⟨_, rfl, (Fmt.add_rounds hm hx hy).1⟩
  | sub =>
    refine ⟨_, rfl, ?_⟩
    have := (Fmt.add_rounds (y := f.flip y) hm hx (by rw [Fmt.mag_flip]; exact hy)).1
    rw [Fmt.exact_flip] at this
    rw [Fmt.sub, ny, if_neg (by simp), Int.sub_eq_add_neg]
    exact this
  | mul => exact ⟨_, rfl, (Fmt.mul_rounds hm he hx hy).1⟩
  | div =>
    by_cases h0 : f.mag y = 0
    · simp only [Nearest, ArOp.fraction, onFloat]
      rw [if_pos (Fmt.exact_zero_iff.2 h0), if_pos (hz.2 h0)]
    · simp only [Nearest, ArOp.fraction, onFloat]
      rw [if_neg (fun h => h0 (Fmt.exact_zero_iff.1 h)), if_neg (fun h => h0 (hz.1 h))]
      refine ⟨_, rfl, ?_⟩
      have := (Fmt.div_rounds hm he hx hy h0).1
      rw [Fmt.sign_exact h0, Fmt.exact_natAbs]
      exact this

theorem ofInt_finite64 {i : Int} (h : i.natAbs < 2 ^ 53) : f64.mag (f64.ofInt i) < f64.inf := by
  rw [← Fmt.scaled_lt_iff (f := f64), ← Fmt.exact_natAbs, Fmt.exact_ofInt64 h, Int.natAbs_mul, Int.natAbs_natCast]
  have : 2 ^ 53 * f64.unit < f64.scaled f64.inf := by decide +kernel
  exact Nat.lt_of_le_of_lt (Nat.mul_le_mul_right _ (Nat.le_of_lt h)) this

theorem ofInt_finite32 {i : Int} (h : i.natAbs < 2 ^ 24) : f32.mag (f32.ofInt i) < f32.inf := by
  rw [← Fmt.scaled_lt_iff (f := f32), ← Fmt.exact_natAbs, Fmt.exact_ofInt32 h, Int.natAbs_mul, Int.natAbs_natCast]
  have : 2 ^ 24 * f32.unit < f32.scaled f32.inf := by decide +kernel
  exact Nat.lt_of_le_of_lt (Nat.mul_le_mul_right _ (Nat.le_of_lt h)) this

theorem convert_finite {x : Nat} (h : f32.mag x < f32.inf) : f64.mag (f32.convert f64 x) < f64.inf := by
  rw [← Fmt.scaled_lt_iff (f := f64), ← Fmt.exact_natAbs, (Fmt.exact_convert h).1, Int.natAbs_mul, Fmt.exact_natAbs]
  have h1 : f32.scaled (f32.mag x) < f32.scaled f32.inf := Fmt.scaled_lt h
  have h2 : f32.scaled f32.inf * 2 ^ 925 < f64.scaled f64.inf := by decide +kernel
  have h3 : (2 ^ 925 : Int).natAbs = 2 ^ 925 := by rw [Int.natAbs_pow]; rfl
  rw [h3]
  exact Nat.lt_of_le_of_lt (Nat.mul_le_mul_right _ (Nat.le_of_lt h1)) h2

theorem operand_int {a : Value} {i : Int} (h : intOf a = some i) : ∃ t, operand a = some (.int t i) := by
  unfold intOf at h
  unfold operand
  split at h <;> simp_all

theorem operand_decimal {a : Value} {x : Nat} (h : val a = .decimal x) : operand a = some (.decimal x) := by unfold operand; rw [h]
theorem operand_float {a : Value} {x : Nat} (h : val a = .float x) : operand a = some (.float x) := by unfold operand; rw [h]

/-- Arithmetic with a DECIMAL and another number, or with two, gives the DECIMAL nearest to the exact result, or the error for a division by zero. -/
theorem C136_decimal_partial (op : ArOp) {a b : Value} {p q : Int} (ha : Units64 a p) (hb : Units64 b q) (hd : (∃ x, val a = .decimal x) ∨ ∃ x, val b = .decimal x) :
    Nearest f64 mkDecimal op p q (arith op a b) := by
  have key : ∀ x y, f64.mag x < f64.inf → f64.mag y < f64.inf → f64.exact x = p → f64.exact y = q → Nearest f64 mkDecimal op p q (onFloat f64 mkDecimal op x y) :=
    fun x y hx hy e1 e2 => e1 ▸ e2 ▸ onFloat_nearest (by decide) (by decide) hx hy
  have other : ∀ {c : Value} {i : Int} {x : Nat}, intOf c = some i → val c = .decimal x → False := fun h1 h2 => by unfold intOf at h1; rw [h2] at h1; cases h1
  have other' : ∀ {c : Value} {y x : Nat}, val c = .float y → val c = .decimal x → False := fun h1 h2 => by rw [h1] at h2; cases h2
  unfold arith
  cases ha with
  | decimal ea fa =>
    have oa := operand_decimal ea
    cases hb with
    | decimal eb fb =>
      have ob := operand_decimal eb
      rw [oa, ob]; exact key _ _ fa fb rfl rfl
    | float eb fb =>
      have ob := operand_float eb
      rw [oa, ob]; exact key _ _ fa (convert_finite fb) rfl (Fmt.exact_convert fb).1
    | int eb fb =>
      obtain ⟨t, ob⟩ := operand_int eb
      rw [oa, ob]; exact key _ _ fa (ofInt_finite64 fb) rfl (Fmt.exact_ofInt64 fb)
  | float ea fa =>
    have oa := operand_float ea
    cases hb with
    | decimal eb fb =>
      have ob := operand_decimal eb
      rw [oa, ob]; exact key _ _ (convert_finite fa) fb (Fmt.exact_convert fa).1 rfl
    | float eb fb => exact (hd.elim (fun ⟨_, h⟩ => other' ea h) fun ⟨_, h⟩ => other' eb h).elim
    | int eb fb => exact (hd.elim (fun ⟨_, h⟩ => other' ea h) fun ⟨_, h⟩ => other eb h).elim
  | int ea fa =>
    obtain ⟨t, oa⟩ := operand_int ea
    cases hb with
    | decimal eb fb =>
      have ob := operand_decimal eb
      rw [oa, ob]; exact key _ _ (ofInt_finite64 fa) fb (Fmt.exact_ofInt64 fa) rfl
    | float eb fb => exact (hd.elim (fun ⟨_, h⟩ => other ea h) fun ⟨_, h⟩ => other' eb h).elim
    | int eb fb => exact (hd.elim (fun ⟨_, h⟩ => other ea h) fun ⟨_, h⟩ => other eb h).elim

/-- The same for FLOAT. -/
theorem C136_float_partial (op : ArOp) {a b : Value} {p q : Int} (ha : Units32 a p) (hb : Units32 b q) (hd : (∃ x, val a = .float x) ∨ ∃ x, val b = .float x) :
    Nearest f32 mkFloat op p q (arith op a b) := by
  have key : ∀ x y, f32.mag x < f32.inf → f32.mag y < f32.inf → f32.exact x = p → f32.exact y = q → Nearest f32 mkFloat op p q (onFloat f32 mkFloat op x y) :=
    fun x y hx hy e1 e2 => e1 ▸ e2 ▸ onFloat_nearest (by decide) (by decide) hx hy
  have other : ∀ {c : Value} {i : Int} {x : Nat}, intOf c = some i → val c = .float x → False := fun h1 h2 => by unfold intOf at h1; rw [h2] at h1; cases h1
  unfold arith
  cases ha with
  | float ea fa =>
    have oa := operand_float ea
    cases hb with
    | float eb fb =>
      have ob := operand_float eb
      rw [oa, ob]; exact key _ _ fa fb rfl rfl
    | int eb fb =>
      obtain ⟨t, ob⟩ := operand_int eb
      rw [oa, ob]; exact key _ _ fa (ofInt_finite32 fb) rfl (Fmt.exact_ofInt32 fb)
  | int ea fa =>
    obtain ⟨t, oa⟩ := operand_int ea
    cases hb with
    | float eb fb =>
      have ob := operand_float eb
      rw [oa, ob]; exact key _ _ (ofInt_finite32 fa) fb (Fmt.exact_ofInt32 fa) rfl
    | int eb fb => exact (hd.elim (fun ⟨_, h⟩ => other ea h) fun ⟨_, h⟩ => other eb h).elim

/-- A result that a DECIMAL or FLOAT can hold is exact. -/
theorem C136_exact {f : Fmt} {p : Int} {q z z' : Nat} (h : f.Rounds p q z) (hz : f.nan z' = false) (he : f.exact z' * q = p) : f.exact z * q = p := by
  have := h.nearest z' hz
  omega

/-- Integers become the nearest DECIMAL or FLOAT, however large they are. -/
theorem C136_integer {f : Fmt} (hm : 1 ≤ f.m) (he : 2 ≤ f.e) (i : Int) : f.Rounds (i * f.unit) 1 (f.ofInt i) := by
  have hu : 0 < f.unit := Nat.two_pow_pos _
  by_cases h0 : i = 0
  · subst h0
    rw [Int.zero_mul]
    exact Fmt.rounds_of_near (by omega) (by simpa [Fmt.ofDyadic] using Fmt.near_zero f 1) (fun h => absurd rfl h)
  · refine Fmt.rounds_of_near (by omega) ?_ fun _ => ?_
    · rw [Int.natAbs_mul, Int.natAbs_natCast]
      have ue := Fmt.unit_exp he
      unfold Fmt.unit
      generalize f.m + 2 ^ (f.e - 1) - 2 = U at *
      refine Fmt.ofDyadic_near (a := 0) (b := U) (g := 1) hm (by omega) (by omega) (by omega) (fun t _ => ?_) (.inl rfl)
      rw [Nat.pow_zero, Nat.mul_one, Nat.mul_one]
      have hp := Nat.two_pow_pos U
      exact ⟨fun h => Nat.mul_lt_mul_of_pos_right h hp, fun h => by rw [h], fun h => Nat.mul_lt_mul_of_pos_right h hp⟩
    · rw [decide_eq_decide]
      constructor
      · exact fun h => Int.mul_neg_of_neg_of_pos h (by omega)
      · intro h
        rcases Int.lt_or_le i 0 with h1 | h1
        · exact h1
        · exact absurd (Int.mul_nonneg h1 (show (0 : Int) ≤ f.unit by omega)) (by omega)

/-- The unary minus is exact. -/
theorem C136_negate {a : Value} {x : Nat} (h : val a = .decimal x) : ∃ z, negate a = .ok (mkDecimal z) ∧ f64.exact z = - f64.exact x :=
  ⟨_, by unfold negate; rw [h]; rfl, Fmt.exact_flip⟩

/-- The signs of results that are zero, or rounded to zero: a sum that is zero is `-0` only if both operands are negative; in products and quotients signs multiply. -/
theorem C136_zero {f : Fmt} {x y : Nat} (hm : 1 ≤ f.m) (he : 2 ≤ f.e) (hx : f.mag x < f.inf) (hy : f.mag y < f.inf) :
    (f.exact x + f.exact y = 0 → f.neg (f.add x y) = (f.neg x && f.neg y)) ∧ f.neg (f.mul x y) = (f.neg x != f.neg y) ∧
    (f.mag y ≠ 0 → f.neg (f.div x y) = (f.neg x != f.neg y)) :=
  ⟨(Fmt.add_rounds hm hx hy).2, (Fmt.mul_rounds hm he hx hy).2, fun h => (Fmt.div_rounds hm he hx hy h).2⟩

/-- Operands that are not numbers: NaN with anything is NaN, infinities stay what they are in sums, `∞ - ∞`, `∞ * 0` and `∞ / ∞` are NaN, and signs multiply. A division by zero is an
error even then. -/
theorem C136_special {f : Fmt} {x y : Nat} (hm : 1 ≤ f.m) (he : 2 ≤ f.e) :
    ((f.nan x = true ∨ f.nan y = true) → f.nan (f.add x y) = true ∧ f.nan (f.mul x y) = true ∧ f.nan (f.div x y) = true) ∧
    (f.nan x = false → f.nan y = false →
      (f.mag x = f.inf → f.mag y ≠ f.inf ∨ f.neg x = f.neg y → f.add x y = x) ∧
      (f.mag y = f.inf → f.mag x ≠ f.inf ∨ f.neg x = f.neg y → f.mag (f.add x y) = f.inf ∧ f.neg (f.add x y) = f.neg y) ∧
      (f.mag x = f.inf → f.mag y = f.inf → f.neg x ≠ f.neg y → f.nan (f.add x y) = true) ∧
      ((f.mag x = f.inf ∨ f.mag y = f.inf) → f.mag x ≠ 0 → f.mag y ≠ 0 → f.mag (f.mul x y) = f.inf ∧ f.neg (f.mul x y) = (f.neg x != f.neg y)) ∧
      ((f.mag x = f.inf ∧ f.mag y = 0 ∨ f.mag x = 0 ∧ f.mag y = f.inf) → f.nan (f.mul x y) = true) ∧
      (f.mag x = f.inf → f.mag y ≠ f.inf → f.mag (f.div x y) = f.inf ∧ f.neg (f.div x y) = (f.neg x != f.neg y)) ∧
      (f.mag x ≠ f.inf → f.mag y = f.inf → f.mag (f.div x y) = 0 ∧ f.neg (f.div x y) = (f.neg x != f.neg y)) ∧
      (f.mag x = f.inf → f.mag y = f.inf → f.nan (f.div x y) = true)) := by
  have hinf := Fmt.inf_lt_pow (f := f)
  have i0 : 0 < f.inf := Nat.mul_pos (by have : 2 ^ 1 ≤ 2 ^ f.e := Nat.pow_le_pow_right (by omega) (by omega); omega) (Nat.two_pow_pos _)
  have qn : f.nan f.quiet = true := by
    have h1 : f.quiet < 2 ^ (f.m + f.e) := by
      unfold Fmt.quiet Fmt.inf
      rw [Nat.pow_add, Nat.mul_comm (2 ^ f.m)]
      have h2 : 2 ^ (f.m - 1) < 2 ^ f.m := Nat.pow_lt_pow_right (by omega) (by omega)
      have h3 := Nat.two_pow_pos f.e
      have h4 : 2 ^ f.e * 2 ^ f.m = (2 ^ f.e - 1) * 2 ^ f.m + 2 ^ f.m := by
        rw [← Nat.succ_mul, Nat.succ_eq_add_one, Nat.sub_add_cancel h3]
      omega
    have h2 := Nat.two_pow_pos (f.m - 1)
    simp only [Fmt.nan, Fmt.mag, Nat.mod_eq_of_lt h1, decide_eq_true_eq]
    unfold Fmt.quiet
    omega
  refine ⟨fun h => ?_, fun nx ny => ⟨fun h1 h2 => ?_, fun h1 h2 => ?_, fun h1 h2 h3 => ?_, fun h1 h2 h3 => ?_, fun h => ?_, fun h1 h2 => ?_, fun h1 h2 => ?_, fun h1 h2 => ?_⟩⟩
  · have : (f.nan x || f.nan y) = true := by simpa using h
    refine ⟨?_, ?_, ?_⟩
    · rw [Fmt.add, if_pos this]; exact qn
    · rw [Fmt.mul]; try dsimp only
      rw [if_pos this]; exact qn
    · rw [Fmt.div]; try dsimp only
      rw [if_pos this]; exact qn
  · rw [Fmt.add, if_neg (by simp [nx, ny]), if_pos h1, if_neg (fun h => h2.elim (fun g => g h.1) (fun g => h.2 g))]
  · by_cases h3 : f.mag x = f.inf
    · rw [Fmt.add, if_neg (by simp [nx, ny]), if_pos h3, if_neg (fun h => h2.elim (fun g => g h3) (fun g => h.2 g))]
      exact ⟨h3, h2.elim (fun g => absurd h3 g) id⟩
    · rw [Fmt.add, if_neg (by simp [nx, ny]), if_neg h3, if_pos h1]
      exact ⟨h1, rfl⟩
  · rw [Fmt.add, if_neg (by simp [nx, ny]), if_pos h1, if_pos ⟨h2, h3⟩]; exact qn
  · rw [Fmt.mul]; try dsimp only
    rw [if_neg (by simp [nx, ny]), if_pos h1, if_neg (fun h => h.elim h2 h3)]
    exact ⟨Fmt.mag_signed hinf, Fmt.neg_signed hinf⟩
  · rw [Fmt.mul]; try dsimp only
    rw [if_neg (by simp [nx, ny]), if_pos (by omega), if_pos (by omega)]; exact qn
  · rw [Fmt.div]; try dsimp only
    rw [if_neg (by simp [nx, ny]), if_pos h1, if_neg h2]
    exact ⟨Fmt.mag_signed hinf, Fmt.neg_signed hinf⟩
  · rw [Fmt.div]; try dsimp only
    rw [if_neg (by simp [nx, ny]), if_neg h1, if_pos h2]
    exact ⟨Fmt.mag_signed (Nat.two_pow_pos _), Fmt.neg_signed (Nat.two_pow_pos _)⟩
  · rw [Fmt.div]; try dsimp only
    rw [if_neg (by simp [nx, ny]), if_pos h1, if_pos h2]; exact qn

/-- 0.1 + 0.2, and 1 / 3 with an integer, meet the hypotheses. -/
example : Units64 (new (.decimal 0x3fb999999999999a)) (f64.exact 0x3fb999999999999a) ∧ Units64 (new (.integer 1)) (1 * f64.unit) ∧ Units64 (new (.decimal 0x4008000000000000)) (f64.exact 0x4008000000000000) ∧
    f64.exact 0x4008000000000000 = 3 * f64.unit ∧ Units32 (new (.float 0x3f000000)) (f32.exact 0x3f000000) ∧ 2 * f32.exact 0x3f000000 = f32.unit :=
  ⟨.decimal rfl (by decide +kernel), .int rfl (by decide), .decimal rfl (by decide +kernel), by decide +kernel, .float rfl (by decide +kernel), by decide +kernel⟩

/-! ## Where the property fails -/

/-- An integer of more than 53 bits is rounded before it is added: `9007199254740993 + 1.0` is `9007199254740992.0`, although `9007199254740994` is a DECIMAL. -/
theorem C136_big_integer_fails : arith .add (new (.bigInt 9007199254740993)) (new (.decimal 0x3ff0000000000000)) = .ok (mkDecimal 0x4340000000000000) ∧
    f64.exact 0x3ff0000000000000 = f64.unit ∧ f64.exact 0x4340000000000000 = 9007199254740992 * f64.unit ∧
    f64.exact 0x4340000000000001 = 9007199254740994 * f64.unit := by
  refine ⟨?_, by decide +kernel, by decide +kernel, by decide +kernel⟩
  show ArR.ok (mkDecimal (f64.add (f64.ofInt 9007199254740993) 0x3ff0000000000000)) = _
  have : f64.add (f64.ofInt 9007199254740993) 0x3ff0000000000000 = 0x4340000000000000 := by decide +kernel
  rw [this]

/-- An INTEGER of more than 24 bits is rounded before it is added to a FLOAT: `16777217 + 1.0` is `16777216.0`. -/
theorem C136_integer_float_fails : arith .add (new (.integer 16777217)) (new (.float 0x3f800000)) = .ok (mkFloat 0x4b800000) ∧
    f32.exact 0x3f800000 = f32.unit ∧ f32.exact 0x4b800000 = 16777216 * f32.unit ∧ f32.exact 0x4b800001 = 16777218 * f32.unit := by
  refine ⟨?_, by decide +kernel, by decide +kernel, by decide +kernel⟩
  show ArR.ok (mkFloat (f32.add (f32.ofInt 16777217) 0x3f800000)) = _
  have : f32.add (f32.ofInt 16777217) 0x3f800000 = 0x4b800000 := by decide +kernel
  rw [this]

/-- In a join condition `2.0 - 1` is `-1.0`: the integer goes to the left whichever side it is on. -/
theorem C136_join_fails : arithJoin .sub (new (.decimal 0x4000000000000000)) (new (.integer 1)) = .ok (mkDecimal 0xbff0000000000000) ∧
    f64.exact 0x4000000000000000 = 2 * f64.unit ∧ f64.exact 0xbff0000000000000 = - f64.unit := by
  refine ⟨?_, by decide +kernel, by decide +kernel⟩
  show ArR.ok (mkDecimal (f64.sub (f64.ofInt 1) 0x4000000000000000)) = _
  have : f64.sub (f64.ofInt 1) 0x4000000000000000 = 0xbff0000000000000 := by decide +kernel
  rw [this]

end Verif.Sql
