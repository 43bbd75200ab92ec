import Verif.Sql.FloatLemmas

/-! # The number a float stands for, and conversions that do not round -/

namespace Verif.Sql.Fmt

/-- The number with magnitude bits `g`, in units of the smallest positive float. -/
def scaled (f : Fmt) (g : Nat) : Nat :=
  if g / 2 ^ f.m = 0 then g % 2 ^ f.m else (2 ^ f.m + g % 2 ^ f.m) * 2 ^ (g / 2 ^ f.m - 1)

/-- The number a float stands for, in units of the smallest positive float (`2 ^ -1074` for `f64`, `2 ^ -149` for `f32`). -/
def exact (f : Fmt) (x : Nat) : Int := if f.neg x then - (f.scaled (f.mag x) : Int) else f.scaled (f.mag x)

/-- The number of those units in 1. -/
def unit (f : Fmt) : Nat := 2 ^ (f.m + 2 ^ (f.e - 1) - 2)

theorem scaled_lt_pow (f : Fmt) (g : Nat) : f.scaled g < 2 ^ f.m * 2 ^ (g / 2 ^ f.m) := by
  have hp := Nat.two_pow_pos f.m
  have hr : g % 2 ^ f.m < 2 ^ f.m := Nat.mod_lt _ hp
  unfold scaled
  split
  · rename_i h; rw [h]; simpa using hr
  · rename_i h
    obtain ⟨E, hE⟩ := Nat.exists_eq_succ_of_ne_zero h
    rw [hE, Nat.succ_sub_one, Nat.pow_succ, Nat.mul_comm (2 ^ E) 2, ← Nat.mul_assoc]
    exact Nat.mul_lt_mul_of_pos_right (by omega) (Nat.two_pow_pos _)

theorem scaled_ge (f : Fmt) (g : Nat) (h : g / 2 ^ f.m ≠ 0) : 2 ^ f.m * 2 ^ (g / 2 ^ f.m - 1) ≤ f.scaled g := by
  rw [scaled, if_neg h]
  exact Nat.mul_le_mul_right _ (by omega)

theorem scaled_lt {f : Fmt} {g g' : Nat} (h : g < g') : f.scaled g < f.scaled g' := by
  have hp := Nat.two_pow_pos f.m
  have hle : g / 2 ^ f.m ≤ g' / 2 ^ f.m := Nat.div_le_div_right (Nat.le_of_lt h)
  have e1 := Nat.div_add_mod g (2 ^ f.m)
  have e2 := Nat.div_add_mod g' (2 ^ f.m)
  by_cases he : g / 2 ^ f.m = g' / 2 ^ f.m
  · have hm : g % 2 ^ f.m < g' % 2 ^ f.m := by rw [he] at e1; omega
    unfold scaled
    rw [he]
    split
    · exact hm
    · exact Nat.mul_lt_mul_of_pos_right (by omega) (Nat.two_pow_pos _)
  · have h1 := scaled_lt_pow f g
    have hlt := Nat.lt_of_le_of_ne hle he
    have h2 := scaled_ge f g' (Nat.ne_of_gt (Nat.lt_of_le_of_lt (Nat.zero_le _) hlt))
    have h3 : 2 ^ (g / 2 ^ f.m) ≤ 2 ^ (g' / 2 ^ f.m - 1) := Nat.pow_le_pow_right (by omega) (Nat.le_sub_one_of_lt hlt)
    have h4 := Nat.mul_le_mul_left (2 ^ f.m) h3
    omega

theorem scaled_zero (f : Fmt) : f.scaled 0 = 0 := by simp [scaled]

theorem scaled_lt_iff {f : Fmt} {g g' : Nat} : f.scaled g < f.scaled g' ↔ g < g' := by
  constructor
  · intro h
    rcases Nat.lt_trichotomy g g' with h' | h' | h'
    · exact h'
    · subst h'; omega
    · have := scaled_lt (f := f) h'; omega
  · exact scaled_lt

theorem scaled_eq_iff {f : Fmt} {g g' : Nat} : f.scaled g = f.scaled g' ↔ g = g' := by
  constructor
  · intro h
    rcases Nat.lt_trichotomy g g' with h' | h' | h'
    · have := scaled_lt (f := f) h'; omega
    · exact h'
    · have := scaled_lt (f := f) h'; omega
  · rintro rfl; rfl

theorem exact_lt {f : Fmt} {x y : Nat} : f.exact x < f.exact y ↔ f.key x < f.key y := by
  have h0 := scaled_zero f
  have a1 := scaled_lt_iff (f := f) (g := f.mag x) (g' := f.mag y)
  have a2 := scaled_lt_iff (f := f) (g := f.mag y) (g' := f.mag x)
  have a3 := scaled_lt_iff (f := f) (g := 0) (g' := f.mag x)
  have a4 := scaled_lt_iff (f := f) (g := 0) (g' := f.mag y)
  unfold exact key
  cases f.neg x <;> cases f.neg y <;> simp only [if_true, Bool.false_eq_true, if_false] <;> omega

theorem exact_eq {f : Fmt} {x y : Nat} : f.exact x = f.exact y ↔ f.key x = f.key y := by
  have a := exact_lt (f := f) (x := x) (y := y)
  have b := exact_lt (f := f) (x := y) (y := x)
  omega

/-- Two floats that are not NaN compare as the numbers they stand for. -/
theorem cmp_exact {f : Fmt} {x y : Nat} (hx : f.nan x = false) (hy : f.nan y = false) :
    f.cmp x y = some (compare (f.exact x) (f.exact y)) := by
  rw [cmp, if_neg (by simp [hx, hy])]
  congr 1
  rcases Int.lt_trichotomy (f.key x) (f.key y) with h | h | h
  · rw [Int.compare_eq_lt.2 h, Int.compare_eq_lt.2 (exact_lt.2 h)]
  · rw [Int.compare_eq_eq.2 h, Int.compare_eq_eq.2 (exact_eq.2 h)]
  · rw [Int.compare_eq_gt.2 h, Int.compare_eq_gt.2 (exact_lt.2 h)]

theorem log2_bounds {n : Nat} (h : 0 < n) : 2 ^ n.log2 ≤ n ∧ n < 2 ^ (n.log2 + 1) :=
  ⟨Nat.log2_self_le (by omega), Nat.lt_log2_self⟩

theorem bias_eq (f : Fmt) : f.bias = (2 ^ (f.e - 1) : Nat) - 1 := by simp [bias]

theorem ite_inf (i b : Nat) : (if i ≤ b then i else b) ≤ i := by split <;> omega

theorem ofDyadic_le (f : Fmt) (n : Nat) (x : Int) : f.ofDyadic n x ≤ f.inf := by
  unfold ofDyadic
  split
  · omega
  · exact ite_inf _ _

/-- A number of few enough bits, neither too large nor too small, is represented exactly. -/
theorem ofDyadic_exact {f : Fmt} {n : Nat} {x : Int} (he : 2 ≤ f.e) (hn : 0 < n) (hm : n.log2 ≤ f.m)
    (hlo : 1 - f.bias - f.m ≤ x) (hhi : x + n.log2 ≤ f.bias) :
    f.scaled (f.ofDyadic n x) = n * 2 ^ (x + f.bias + f.m - 1).toNat := by
  obtain ⟨b1, b2⟩ := log2_bounds hn
  obtain ⟨B, hB⟩ : ∃ B : Nat, f.bias = B := ⟨2 ^ (f.e - 1) - 1, by rw [bias_eq]; have := Nat.two_pow_pos (f.e - 1); omega⟩
  have hBe : B + 1 = 2 ^ (f.e - 1) := by have := bias_eq f; omega
  have hpe : 2 ^ f.e = 2 * 2 ^ (f.e - 1) := by
    rw [← Nat.pow_succ']; congr 1; omega
  have hp := Nat.two_pow_pos f.m
  rw [hB] at hlo hhi ⊢
  -- the ulp chosen
  let L := n.log2
  let ulp : Int := max (x + (L + 1) - (f.m + 1)) (1 - B - f.m)
  have hu : ulp ≤ x := by show max _ _ ≤ x; omega
  have hu1 : x + L - f.m ≤ ulp := by show _ ≤ max _ _; omega
  have hu2 : 1 - B - f.m ≤ ulp := by show _ ≤ max _ _; omega
  have hu3 : ulp = x + L - f.m ∨ ulp = 1 - B - f.m := by show max _ _ = _ ∨ max _ _ = _; omega
  obtain ⟨d, hd⟩ : ∃ d : Nat, x - ulp = d := ⟨(x - ulp).toNat, by omega⟩
  obtain ⟨E, hE⟩ : ∃ E : Nat, ulp + B + f.m = E + 1 := ⟨(ulp + B + f.m - 1).toNat, by omega⟩
  let q := n * 2 ^ d
  have hdL : d + L ≤ f.m := by omega
  have hq2 : q < 2 ^ (f.m + 1) := by
    calc n * 2 ^ d < 2 ^ (L + 1) * 2 ^ d := Nat.mul_lt_mul_of_pos_right b2 (Nat.two_pow_pos _)
      _ = 2 ^ (L + 1 + d) := (Nat.pow_add _ _ _).symm
      _ ≤ 2 ^ (f.m + 1) := Nat.pow_le_pow_right (by omega) (by omega)
  have hEB : E ≤ 2 * B - 1 := by omega
  have hbits : f.ofDyadic n x = if f.inf ≤ E * 2 ^ f.m + q then f.inf else E * 2 ^ f.m + q := by
    unfold ofDyadic
    rw [if_neg (by omega), hB]
    dsimp only
    rw [show max (x + ((n.log2 : Nat) + 1 : Int) - (f.m + 1)) (1 - (B : Int) - f.m) = ulp from rfl]
    rw [if_pos hu, hd, hE]
    rfl
  have hinf : ¬ f.inf ≤ E * 2 ^ f.m + q := by
    have : f.inf = (2 * (B + 1) - 1) * 2 ^ f.m := by rw [inf, hpe, ← hBe]
    have h1 : E * 2 ^ f.m ≤ (2 * B - 1) * 2 ^ f.m := Nat.mul_le_mul_right _ hEB
    have h2 : (2 * (B + 1) - 1) * 2 ^ f.m = (2 * B - 1) * 2 ^ f.m + 2 ^ f.m * 2 := by
      have hB1 : 1 ≤ B := by
        have : 2 ^ 1 ≤ 2 ^ (f.e - 1) := Nat.pow_le_pow_right (by omega) (by omega)
        omega
      rw [show 2 * (B + 1) - 1 = (2 * B - 1) + 2 by omega, Nat.add_mul, Nat.mul_comm 2 (2 ^ f.m)]
    rw [Nat.pow_succ] at hq2
    omega
  rw [hbits, if_neg hinf]
  have hx : (x + B + f.m - 1).toNat = d + E := by omega
  rw [hx, Nat.pow_add, ← Nat.mul_assoc]
  show _ = q * 2 ^ E
  rw [Nat.pow_succ] at hq2
  by_cases hsmall : q < 2 ^ f.m
  · -- subnormal: the lowest exponent
    have hE0 : E = 0 := by
      rcases hu3 with h | h
      · have : d + L = f.m := by omega
        have : 2 ^ f.m ≤ q := by
          calc 2 ^ f.m = 2 ^ (L + d) := by congr 1; omega
            _ = 2 ^ L * 2 ^ d := Nat.pow_add _ _ _
            _ ≤ n * 2 ^ d := Nat.mul_le_mul_right _ b1
        omega
      · omega
    rw [hE0]
    simp [scaled, Nat.div_eq_of_lt hsmall, Nat.mod_eq_of_lt hsmall]
  · have hdiv : (E * 2 ^ f.m + q) / 2 ^ f.m = E + 1 := by
      rw [Nat.mul_comm, Nat.mul_add_div hp]
      congr 1
      rw [Nat.div_eq_iff hp]
      omega
    have hmod : (E * 2 ^ f.m + q) % 2 ^ f.m = q - 2 ^ f.m := by
      rw [Nat.mul_comm, Nat.mul_add_mod]
      rw [Nat.mod_eq_sub_mod (by omega), Nat.mod_eq_of_lt (by omega)]
    rw [scaled, hdiv, if_neg (by omega), hmod, Nat.add_sub_cancel, show 2 ^ f.m + (q - 2 ^ f.m) = q by omega]

theorem inf_lt_pow {f : Fmt} : f.inf < 2 ^ (f.m + f.e) := by
  unfold inf
  rw [Nat.pow_add, Nat.mul_comm (2 ^ f.m)]
  exact Nat.mul_lt_mul_of_pos_right (by have := Nat.two_pow_pos f.e; omega) (Nat.two_pow_pos _)

theorem mag_ofInt (f : Fmt) (i : Int) : f.mag (f.ofInt i) = f.ofDyadic i.natAbs 0 :=
  mag_signed (Nat.lt_of_le_of_lt (ofDyadic_le f _ _) inf_lt_pow)

theorem neg_ofInt (f : Fmt) (i : Int) : f.neg (f.ofInt i) = decide (i < 0) :=
  neg_signed (Nat.lt_of_le_of_lt (ofDyadic_le f _ _) inf_lt_pow)

theorem nan_ofInt (f : Fmt) (i : Int) : f.nan (f.ofInt i) = false := by
  simp [nan, mag_ofInt, ofDyadic_le]

/-- An integer of at most `m + 1` bits is represented exactly. -/
theorem exact_ofInt {f : Fmt} {i : Int} (he : 2 ≤ f.e) (hm : f.m + 1 < 2 ^ (f.e - 1)) (hi : i.natAbs < 2 ^ (f.m + 1)) :
    f.exact (f.ofInt i) = i * f.unit := by
  unfold exact
  rw [mag_ofInt, neg_ofInt]
  have hb := bias_eq f
  by_cases h0 : i.natAbs = 0
  · have : i = 0 := by omega
    subst this
    simp [ofDyadic, scaled_zero]
  · have hlog : i.natAbs.log2 ≤ f.m := by
      have := (Nat.log2_lt (n := i.natAbs) (k := f.m + 1) h0).2 hi
      omega
    rw [ofDyadic_exact he (by omega) hlog (by omega) (by omega)]
    have : (0 + f.bias + f.m - 1).toNat = f.m + 2 ^ (f.e - 1) - 2 := by omega
    rw [this]
    show (if decide (i < 0) = true then _ else _) = i * (f.unit : Int)
    by_cases hneg : i < 0
    · simp only [hneg, decide_true, if_true]
      rw [show (i.natAbs * 2 ^ (f.m + 2 ^ (f.e - 1) - 2) : Nat) = i.natAbs * f.unit from rfl, Int.natCast_mul, ← Int.neg_mul]
      congr 1; omega
    · simp only [hneg, decide_false, Bool.false_eq_true, if_false]
      rw [show (i.natAbs * 2 ^ (f.m + 2 ^ (f.e - 1) - 2) : Nat) = i.natAbs * f.unit from rfl, Int.natCast_mul]
      congr 1; omega

theorem exact_ofInt64 {i : Int} (h : i.natAbs < 2 ^ 53) : f64.exact (f64.ofInt i) = i * f64.unit :=
  exact_ofInt (by decide) (by decide) h
theorem exact_ofInt32 {i : Int} (h : i.natAbs < 2 ^ 24) : f32.exact (f32.ofInt i) = i * f32.unit :=
  exact_ofInt (by decide) (by decide) h

/-! ## `f32` to `f64` -/

theorem scaled_mant (f : Fmt) (x : Nat) : f.scaled (f.mag x) = f.mant x * 2 ^ (f.expo x + f.bias + f.m - 1).toNat := by
  unfold scaled mant expo
  dsimp only
  by_cases h : f.mag x / 2 ^ f.m = 0
  · rw [if_pos h, if_pos h, if_pos h]
    have : (1 - f.bias - (f.m : Int) + f.bias + f.m - 1).toNat = 0 := by omega
    rw [this]; simp
  · rw [if_neg h, if_neg h, if_neg h]
    congr 2
    generalize f.mag x / 2 ^ f.m = E
    omega

theorem mant_lt (f : Fmt) (x : Nat) : f.mant x < 2 ^ (f.m + 1) := by
  have hr : f.mag x % 2 ^ f.m < 2 ^ f.m := Nat.mod_lt _ (Nat.two_pow_pos _)
  unfold mant
  dsimp only
  rw [Nat.pow_succ]
  split <;> omega

theorem expo_bounds {f : Fmt} {x : Nat} (he : 4 ≤ 2 ^ f.e) (hx : f.mag x < f.inf) : 1 - f.bias - f.m ≤ f.expo x ∧ f.expo x ≤ (2 ^ f.e - 2 : Nat) - f.bias - f.m := by
  have hp := Nat.two_pow_pos f.m
  have h1 : f.mag x / 2 ^ f.m < 2 ^ f.e - 1 := (Nat.div_lt_iff_lt_mul hp).2 hx
  unfold expo
  dsimp only
  revert h1 he
  generalize f.mag x / 2 ^ f.m = E
  generalize 2 ^ f.e = N
  intro he h1
  by_cases h : E = 0 <;> simp only [h, if_true, if_false] <;> omega

/-- A finite `f32` keeps its number as an `f64`; `2 ^ 925` is the ratio of the units. -/
theorem exact_convert {x : Nat} (hx : f32.mag x < f32.inf) :
    f64.exact (f32.convert f64 x) = f32.exact x * 2 ^ 925 ∧ f64.nan (f32.convert f64 x) = false := by
  have hnan : f32.nan x = false := by simp [nan]; omega
  have hc : f32.convert f64 x = f64.signed (f32.neg x) (f64.ofDyadic (f32.mant x) (f32.expo x)) := by
    rw [convert, if_neg (by simp [hnan]), if_neg (by omega)]
  have hle := ofDyadic_le f64 (f32.mant x) (f32.expo x)
  have hlt := Nat.lt_of_le_of_lt hle inf_lt_pow
  have hs : f64.scaled (f64.ofDyadic (f32.mant x) (f32.expo x)) = f32.scaled (f32.mag x) * 2 ^ 925 := by
    rw [scaled_mant]
    by_cases h0 : f32.mant x = 0
    · rw [h0]; rw [ofDyadic, if_pos rfl, scaled_zero, Nat.zero_mul, Nat.zero_mul]
    · have b := expo_bounds (by decide) hx
      have b32 : f32.bias = 127 := by decide
      have b64 : f64.bias = 1023 := by decide
      have m32 : (f32.m : Int) = 23 := by decide
      have m64 : (f64.m : Int) = 52 := by decide
      have e32 : ((2 ^ f32.e - 2 : Nat) : Int) = 254 := by decide
      rw [b32, m32, e32] at b
      have hl := (Nat.log2_lt h0).2 (mant_lt f32 x)
      have hm : f32.m = 23 := rfl
      have hm' : f64.m = 52 := rfl
      rw [ofDyadic_exact (by decide) (by omega) (by omega) (by omega) (by omega), Nat.mul_assoc, ← Nat.pow_add]
      congr 2
      omega
  refine ⟨?_, by rw [hc, nan, mag_signed hlt]; simp [hle]⟩
  rw [hc, exact, mag_signed hlt, neg_signed hlt, hs, exact]
  split
  · rw [Int.natCast_mul, Int.neg_mul]; rfl
  · rw [Int.natCast_mul]; rfl

end Verif.Sql.Fmt
