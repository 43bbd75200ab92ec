import Verif.Sql.FloatExact
import Verif.Sql.Arith

/-! # Rounding to the nearest float -/

namespace Verif.Sql.Fmt

/-- The distance of the number with magnitude bits `b` from `P / Q`, times `Q`. -/
def dist (f : Fmt) (P Q b : Nat) : Nat := ((f.scaled b * Q : Nat) - (P : Int)).natAbs

/-- Magnitude bits of a number nearest to `P / Q`, of two the one with even bits. -/
def Near (f : Fmt) (P Q b : Nat) : Prop := b ≤ f.inf ∧ ∀ b', b' ≤ f.inf → f.dist P Q b ≤ f.dist P Q b' ∧ (f.dist P Q b' = f.dist P Q b → b' ≠ b → b % 2 = 0)

theorem scaled_le {f : Fmt} {g g' : Nat} (h : g ≤ g') : f.scaled g ≤ f.scaled g' := by
  rcases Nat.lt_or_eq_of_le h with h | rfl
  · exact Nat.le_of_lt (scaled_lt h)
  · exact Nat.le_refl _

theorem near_inf {f : Fmt} {P Q : Nat} (h : f.scaled f.inf * Q ≤ P) (hQ : 0 < Q) : f.Near P Q f.inf := by
  refine ⟨Nat.le_refl _, fun b' hb => ?_⟩
  have h1 := Nat.mul_le_mul_right Q (scaled_le (f := f) hb)
  refine ⟨by unfold dist; omega, fun hd hne => ?_⟩
  have h2 := Nat.mul_lt_mul_of_pos_right (scaled_lt (f := f) (Nat.lt_of_le_of_ne hb hne)) hQ
  unfold dist at hd
  omega

theorem near_pick {f : Fmt} {P Q b0 b : Nat} (hQ : 0 < Q) (hb : b0 < f.inf) (lo : f.scaled b0 * Q ≤ P) (hi : P < f.scaled (b0 + 1) * Q)
    (pick : (b = b0 ∧ 2 * P ≤ f.scaled b0 * Q + f.scaled (b0 + 1) * Q ∧ (2 * P = f.scaled b0 * Q + f.scaled (b0 + 1) * Q → b0 % 2 = 0)) ∨
      (b = b0 + 1 ∧ f.scaled b0 * Q + f.scaled (b0 + 1) * Q ≤ 2 * P ∧ (2 * P = f.scaled b0 * Q + f.scaled (b0 + 1) * Q → b0 % 2 = 1))) : f.Near P Q b := by
  refine ⟨by omega, fun b' hb' => ?_⟩
  have below : b' ≤ b0 → f.scaled b' * Q ≤ f.scaled b0 * Q ∧ (b' ≠ b0 → f.scaled b' * Q < f.scaled b0 * Q) := fun h =>
    ⟨Nat.mul_le_mul_right _ (scaled_le h), fun hne => Nat.mul_lt_mul_of_pos_right (scaled_lt (Nat.lt_of_le_of_ne h hne)) hQ⟩
  have above : b0 + 1 ≤ b' → f.scaled (b0 + 1) * Q ≤ f.scaled b' * Q ∧ (b' ≠ b0 + 1 → f.scaled (b0 + 1) * Q < f.scaled b' * Q) := fun h =>
    ⟨Nat.mul_le_mul_right _ (scaled_le h), fun hne => Nat.mul_lt_mul_of_pos_right (scaled_lt (Nat.lt_of_le_of_ne h (Ne.symm hne))) hQ⟩
  unfold dist
  rcases Nat.lt_or_ge b0 b' with h | h
  · have := above h
    rcases pick with ⟨rfl, h1, h2⟩ | ⟨rfl, h1, h2⟩ <;> omega
  · have := below h
    rcases pick with ⟨rfl, h1, h2⟩ | ⟨rfl, h1, h2⟩ <;> omega

theorem scaled_block {f : Fmt} {E q : Nat} (hq : q ≤ 2 ^ (f.m + 1)) (h : E = 0 ∨ 2 ^ f.m ≤ q) : f.scaled (E * 2 ^ f.m + q) = q * 2 ^ E := by
  have hp := Nat.two_pow_pos f.m
  rw [Nat.pow_succ] at hq
  by_cases hs : q < 2 ^ f.m
  · have hE : E = 0 := by omega
    subst hE
    simp [scaled, Nat.div_eq_of_lt hs, Nat.mod_eq_of_lt hs]
  · by_cases ht : q = 2 ^ f.m * 2
    · have e : E * 2 ^ f.m + q = 2 ^ f.m * (E + 2) := by rw [ht, Nat.mul_comm, ← Nat.mul_add]
      rw [e, scaled, Nat.mul_div_cancel_left _ hp, Nat.mul_mod_right, if_neg (by omega), ht, show E + 2 - 1 = E + 1 from rfl, Nat.pow_succ, Nat.add_zero, Nat.mul_assoc,
        Nat.mul_comm 2 (2 ^ E)]
    · have hdiv : (E * 2 ^ f.m + q) / 2 ^ f.m = E + 1 := by
        rw [Nat.mul_comm, Nat.mul_add_div hp]
        congr 1
        rw [Nat.div_eq_iff hp]
        omega
      have hmod : (E * 2 ^ f.m + q) % 2 ^ f.m = q - 2 ^ f.m := by
        rw [Nat.mul_comm, Nat.mul_add_mod]
        rw [Nat.mod_eq_sub_mod (by omega), Nat.mod_eq_of_lt (by omega)]
      rw [scaled, hdiv, if_neg (by omega), hmod, Nat.add_sub_cancel, show 2 ^ f.m + (q - 2 ^ f.m) = q by omega]

theorem even_block {f : Fmt} (hm : 1 ≤ f.m) (E q : Nat) : (E * 2 ^ f.m + q) % 2 = q % 2 := by
  obtain ⟨m, hm⟩ : ∃ m, f.m = m + 1 := ⟨f.m - 1, by omega⟩
  rw [hm, Nat.pow_succ, ← Nat.mul_assoc]
  omega

/-- `ofDyadic n x` is nearest to every number that lies to `n * 2 ^ x` as it does to the multiples of `g * 2 ^ x`. -/
theorem ofDyadic_near {f : Fmt} {n P Q a b g : Nat} {x : Int} (hm : 1 ≤ f.m) (hn : 0 < n) (hQ : 0 < Q) (hab : (b : Int) - a = x + f.bias + f.m - 1)
    (hc : ∀ t, g ∣ t → (t < n → t * 2 ^ b * Q < P * 2 ^ a) ∧ (t = n → t * 2 ^ b * Q = P * 2 ^ a) ∧ (n < t → P * 2 ^ a < t * 2 ^ b * Q))
    (hg : g = 1 ∨ g = 2 ∧ f.m + 2 ≤ n.log2) : f.Near P Q (f.ofDyadic n x) := by
  obtain ⟨b1, b2⟩ := log2_bounds hn
  obtain ⟨B, hB⟩ : ∃ B : Nat, f.bias = B := ⟨2 ^ (f.e - 1) - 1, by rw [bias_eq]; have := Nat.two_pow_pos (f.e - 1); omega⟩
  have pa := Nat.two_pow_pos a
  rw [hB] at hab
  generalize hL : n.log2 = L at *
  -- everything follows from the bits below the number
  have fin : ∀ (E q0 : Nat) (up : Bool), (E = 0 ∨ 2 ^ f.m ≤ q0) → q0 < 2 ^ (f.m + 1) → q0 * 2 ^ E * Q ≤ P → P < (q0 + 1) * 2 ^ E * Q →
      (up = false → 2 * P ≤ (2 * q0 + 1) * 2 ^ E * Q ∧ (2 * P = (2 * q0 + 1) * 2 ^ E * Q → q0 % 2 = 0)) →
      (up = true → (2 * q0 + 1) * 2 ^ E * Q ≤ 2 * P ∧ (2 * P = (2 * q0 + 1) * 2 ^ E * Q → q0 % 2 = 1)) →
      ∀ c, c = E * 2 ^ f.m + (if up then q0 + 1 else q0) → f.Near P Q (if f.inf ≤ c then f.inf else c) := by
    intro E q0 up hE hq lo hi h1 h2 c hcb
    have s0 : f.scaled (E * 2 ^ f.m + q0) = q0 * 2 ^ E := scaled_block (Nat.le_of_lt hq) hE
    have s1 : f.scaled (E * 2 ^ f.m + q0 + 1) = (q0 + 1) * 2 ^ E := scaled_block (q := q0 + 1) hq (by omega)
    have mid : (2 * q0 + 1) * 2 ^ E * Q = q0 * 2 ^ E * Q + (q0 + 1) * 2 ^ E * Q := by
      rw [show 2 * q0 + 1 = q0 + (q0 + 1) by omega, Nat.add_mul, Nat.add_mul]
    have ev := even_block hm E q0
    rcases Nat.lt_or_ge (E * 2 ^ f.m + q0) f.inf with hlt | hge
    · have : f.Near P Q c := by
        refine near_pick hQ hlt (by rw [s0]; exact lo) (by rw [s1]; exact hi) ?_
        rw [s0, s1, ← mid, ev]
        cases up with
        | false => exact .inl ⟨hcb, h1 rfl⟩
        | true => exact .inr ⟨hcb, h2 rfl⟩
      split
      · next hle =>
        have := this.1
        rwa [show f.inf = c by omega]
      · exact this
    · rw [if_pos (by subst hcb; split <;> omega)]
      refine near_inf (Nat.le_trans (Nat.mul_le_mul_right _ (scaled_le hge)) ?_) hQ
      rw [s0]; exact lo
  unfold ofDyadic
  rw [if_neg (by omega)]
  dsimp only
  rw [hB, hL]
  generalize hulp : max (x + ((L : Int) + 1) - (f.m + 1)) (1 - (B : Int) - f.m) = ulp
  have hu1 : x + L - f.m ≤ ulp := by omega
  have hu2 : 1 - B - f.m ≤ ulp := by omega
  have hu3 : ulp = x + L - f.m ∨ ulp = 1 - B - f.m := by omega
  obtain ⟨E, hE⟩ : ∃ E : Nat, ulp + B + f.m = E + 1 := ⟨(ulp + B + f.m - 1).toNat, by omega⟩
  rw [hE, show ((E : Int) + 1).toNat - 1 = E by omega]
  by_cases hux : ulp ≤ x
  · rw [if_pos hux]
    have hg1 : g = 1 := by omega
    subst hg1
    obtain ⟨d, hd⟩ : ∃ d : Nat, x - ulp = d := ⟨(x - ulp).toNat, by omega⟩
    have hb : b = a + d + E := by omega
    have hP : P = n * 2 ^ d * 2 ^ E * Q := by
      have := (hc n (Nat.one_dvd _)).2.1 rfl
      rw [hb, Nat.pow_add, Nat.pow_add] at this
      refine Nat.eq_of_mul_eq_mul_right pa ?_
      rw [← this]
      ac_rfl
    have hpos : 0 < 2 ^ E * Q := Nat.mul_pos (Nat.two_pow_pos _) hQ
    rw [hd, show (d : Int).toNat = d from rfl]
    refine fin E (n * 2 ^ d) false ?_ ?_ (by rw [hP]; exact Nat.le_refl _) ?_ (fun _ => ?_) nofun _ rfl
    · rcases hu3 with h | h
      · right
        calc 2 ^ f.m ≤ 2 ^ (L + d) := Nat.pow_le_pow_right (by omega) (by omega)
          _ = 2 ^ L * 2 ^ d := Nat.pow_add _ _ _
          _ ≤ n * 2 ^ d := Nat.mul_le_mul_right _ b1
      · left; omega
    · calc n * 2 ^ d < 2 ^ (L + 1) * 2 ^ d := Nat.mul_lt_mul_of_pos_right b2 (Nat.two_pow_pos _)
        _ = 2 ^ (L + 1 + d) := (Nat.pow_add _ _ _).symm
        _ ≤ 2 ^ (f.m + 1) := Nat.pow_le_pow_right (by omega) (by omega)
    · rw [hP, Nat.mul_assoc, Nat.mul_assoc (n * 2 ^ d + 1)]
      exact Nat.mul_lt_mul_of_pos_right (by omega) hpos
    · rw [hP, Nat.mul_assoc (n * 2 ^ d), Nat.mul_assoc (2 * (n * 2 ^ d) + 1), Nat.add_mul, ← Nat.mul_assoc 2 (n * 2 ^ d)]
      omega
  · rw [if_neg hux]
    obtain ⟨s, hs⟩ : ∃ s : Nat, ulp - x = s + 1 := ⟨(ulp - x).toNat - 1, by omega⟩
    have hsb : b + (s + 1) = a + E := by omega
    have hdvd : g ∣ 2 ^ s := by
      rcases hg with rfl | ⟨rfl, h⟩
      · exact Nat.one_dvd _
      · obtain ⟨s', hs'⟩ : ∃ s', s = s' + 1 := ⟨s - 1, by omega⟩
        rw [hs', Nat.pow_succ]
        exact Nat.dvd_mul_left _ _
    -- comparisons with multiples of half an ulp
    have eq : ∀ k, 2 * k * 2 ^ s * 2 ^ b * Q = k * 2 ^ E * Q * 2 ^ a := fun k => by
      have : 2 * 2 ^ s * 2 ^ b = 2 ^ E * 2 ^ a := by
        rw [← Nat.pow_add, Nat.mul_comm 2, ← Nat.pow_succ, ← Nat.pow_add]; congr 1; omega
      calc 2 * k * 2 ^ s * 2 ^ b * Q = k * (2 * 2 ^ s * 2 ^ b) * Q := by ac_rfl
        _ = k * (2 ^ E * 2 ^ a) * Q := by rw [this]
        _ = _ := by ac_rfl
    have cmp : ∀ k, (k * 2 ^ s ≤ n → k * 2 ^ E * Q ≤ 2 * P) ∧ (k * 2 ^ s < n → k * 2 ^ E * Q < 2 * P) ∧ (n ≤ k * 2 ^ s → 2 * P ≤ k * 2 ^ E * Q) ∧ (n < k * 2 ^ s → 2 * P < k * 2 ^ E * Q) := by
      intro k
      obtain ⟨c1, c2, c3⟩ := hc (k * 2 ^ s) (Nat.dvd_trans hdvd (Nat.dvd_mul_left _ _))
      have e : 2 * (k * 2 ^ s * 2 ^ b * Q) = k * 2 ^ E * Q * 2 ^ a := by rw [← eq k]; ac_rfl
      have e2 : 2 * (P * 2 ^ a) = 2 * P * 2 ^ a := (Nat.mul_assoc _ _ _).symm
      have lt : k * 2 ^ s < n → k * 2 ^ E * Q < 2 * P := fun h => Nat.lt_of_mul_lt_mul_right (a := 2 ^ a) (by rw [← e, ← e2]; have := c1 h; omega)
      have gt : n < k * 2 ^ s → 2 * P < k * 2 ^ E * Q := fun h => Nat.lt_of_mul_lt_mul_right (a := 2 ^ a) (by rw [← e, ← e2]; have := c3 h; omega)
      have same : k * 2 ^ s = n → k * 2 ^ E * Q = 2 * P := fun h => Nat.eq_of_mul_eq_mul_right pa (by rw [← e, ← e2]; have := c2 h; omega)
      refine ⟨fun h => ?_, lt, fun h => ?_, gt⟩
      · rcases Nat.lt_or_eq_of_le h with h | h
        · exact Nat.le_of_lt (lt h)
        · exact Nat.le_of_eq (same h)
      · rcases Nat.lt_or_eq_of_le h with h | h
        · exact Nat.le_of_lt (gt h)
        · exact Nat.le_of_eq (same h.symm).symm
    rw [hs, show ((s : Int) + 1).toNat = s + 1 by omega]
    have hp := Nat.two_pow_pos (s + 1)
    have hdm := Nat.div_add_mod n (2 ^ (s + 1))
    have hml := Nat.mod_lt n hp
    unfold roundShift
    dsimp only
    generalize n / 2 ^ (s + 1) = q0 at *
    generalize n % 2 ^ (s + 1) = r at *
    have hps : 2 ^ (s + 1) = 2 * 2 ^ s := by rw [Nat.pow_succ, Nat.mul_comm]
    have hq2 : q0 < 2 ^ (f.m + 1) := by
      have h1 : 2 ^ (L + 1) ≤ 2 ^ (s + 1) * 2 ^ (f.m + 1) := by
        rw [← Nat.pow_add]
        exact Nat.pow_le_pow_right (by omega) (by omega)
      have h2 : 2 ^ (s + 1) * q0 < 2 ^ (s + 1) * 2 ^ (f.m + 1) := by omega
      exact Nat.lt_of_mul_lt_mul_left h2
    have hqm : E = 0 ∨ 2 ^ f.m ≤ q0 := by
      rcases hu3 with h | h
      · right
        have h1 : 2 ^ L = 2 ^ (s + 1) * 2 ^ f.m := by
          rw [← Nat.pow_add]; congr 1; omega
        have h2 : 2 ^ (s + 1) * 2 ^ f.m < 2 ^ (s + 1) * (q0 + 1) := by rw [Nat.mul_add, Nat.mul_one]; omega
        have := Nat.lt_of_mul_lt_mul_left h2
        omega
      · left; omega
    have k0 : 2 * q0 * 2 ^ s = 2 ^ (s + 1) * q0 := by rw [hps]; ac_rfl
    have k1 : (2 * q0 + 1) * 2 ^ s = 2 ^ (s + 1) * q0 + 2 ^ s := by rw [Nat.add_mul, k0, Nat.one_mul]
    have k2 : (2 * q0 + 2) * 2 ^ s = 2 ^ (s + 1) * q0 + 2 ^ (s + 1) := by rw [Nat.add_mul, k0, ← hps]
    have lo : q0 * 2 ^ E * Q ≤ P := by
      have := (cmp (2 * q0)).1 (by rw [k0]; omega)
      rw [Nat.mul_assoc, Nat.mul_assoc] at this
      rw [Nat.mul_assoc]; omega
    have hi : P < (q0 + 1) * 2 ^ E * Q := by
      have := (cmp (2 * q0 + 2)).2.2.2 (by rw [k2]; omega)
      rw [show 2 * q0 + 2 = 2 * (q0 + 1) by omega, Nat.mul_assoc, Nat.mul_assoc] at this
      rw [Nat.mul_assoc]; omega
    obtain ⟨m1, m2, m3, m4⟩ := cmp (2 * q0 + 1)
    rw [k1] at m1 m2 m3 m4
    rw [hps] at hdm hml ⊢
    rw [hps] at m1 m2 m3 m4
    by_cases hup : 2 * 2 ^ s < 2 * r ∨ 2 * 2 ^ s = 2 * r ∧ q0 % 2 = 1
    · rw [if_pos hup]
      refine fin E q0 true hqm hq2 lo hi (fun h => by cases h) (fun _ => ⟨m1 (by omega), fun h => ?_⟩) _ rfl
      rcases hup with hup | hup
      · have := m2 (by omega); omega
      · exact hup.2
    · rw [if_neg hup]
      exact fin E q0 false hqm hq2 lo hi (fun _ => ⟨m3 (by omega), fun h => by
        rcases Nat.lt_or_ge r (2 ^ s) with h1 | h1
        · have := m4 (by omega); omega
        · omega⟩) nofun _ rfl

end Verif.Sql.Fmt
