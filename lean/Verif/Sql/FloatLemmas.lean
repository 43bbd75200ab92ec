import Verif.Sql.Float

/-! # Lemmas about floats -/

namespace Verif.Sql

namespace Fmt

/-- What the two formats have in common. -/
structure Good (f : Fmt) : Prop where
  quiet_lt : f.quiet < 2 ^ (f.m + f.e)
  inf_lt : f.inf < f.quiet

theorem good64 : Good f64 := ⟨by decide, by decide⟩
theorem good32 : Good f32 := ⟨by decide, by decide⟩

theorem mag_lt (f : Fmt) (x : Nat) : f.mag x < 2 ^ (f.m + f.e) := Nat.mod_lt _ (Nat.two_pow_pos _)

theorem mag_signed {f : Fmt} {s : Bool} {m : Nat} (h : m < 2 ^ (f.m + f.e)) : f.mag (f.signed s m) = m := by
  unfold mag signed
  split
  · rw [Nat.add_mod_left, Nat.mod_eq_of_lt h]
  · exact Nat.mod_eq_of_lt h

theorem neg_signed {f : Fmt} {s : Bool} {m : Nat} (h : m < 2 ^ (f.m + f.e)) : f.neg (f.signed s m) = s := by
  unfold neg signed
  have hp := Nat.two_pow_pos (f.m + f.e)
  cases s with
  | true => simp only [if_true]; rw [Nat.add_div_left _ hp, Nat.div_eq_of_lt h]; rfl
  | false => simp [Nat.div_eq_of_lt h]

theorem mag_quiet {f : Fmt} (g : Good f) : f.mag f.quiet = f.quiet := Nat.mod_eq_of_lt g.quiet_lt

theorem nan_quiet {f : Fmt} (g : Good f) : f.nan f.quiet = true := by simp [nan, mag_quiet g, g.inf_lt]

theorem quiet_pos {f : Fmt} (g : Good f) : f.quiet ≠ 0 := by have := g.inf_lt; omega

theorem mag_zero_not_nan {f : Fmt} {x : Nat} (h : f.mag x = 0) : f.nan x = false := by simp [nan, h]

theorem key_eq {f : Fmt} {x y : Nat} : f.key x = f.key y ↔
    (f.mag x = 0 ∧ f.mag y = 0) ∨ (f.mag x ≠ 0 ∧ f.neg x = f.neg y ∧ f.mag x = f.mag y) := by
  unfold key
  cases f.neg x <;> cases f.neg y <;> simp <;> omega

/-- Equal canonical bits: both NaN, or numbers at the same place. -/
theorem canon_eq {f : Fmt} (g : Good f) {x y : Nat} : f.canon x = f.canon y ↔
    (f.nan x = true ∧ f.nan y = true) ∨ (f.nan x = false ∧ f.nan y = false ∧ f.key x = f.key y) := by
  have hq := quiet_pos g
  have key : ∀ z, f.mag z ≠ 0 → f.signed (f.neg z) (f.mag z) ≠ 0 := by
    intro z hz; unfold signed; have := Nat.two_pow_pos (f.m + f.e); split <;> omega
  have qs : ∀ z, f.nan z = false → f.quiet ≠ f.signed (f.neg z) (f.mag z) := by
    intro z hz e
    have := mag_signed (s := f.neg z) (mag_lt f z)
    rw [← e, mag_quiet g] at this
    have h1 := g.inf_lt
    simp only [nan, decide_eq_false_iff_not] at hz
    omega
  unfold canon
  rw [key_eq]
  by_cases hx : f.mag x = 0 <;> by_cases hy : f.mag y = 0
  · simp [hx, hy, mag_zero_not_nan]
  · simp only [hx, hy, if_true, if_false, mag_zero_not_nan hx]
    by_cases ny : f.nan y = true
    · simp [ny]; omega
    · simp only [ny]; simp; exact fun h => key y hy h.symm
  · simp only [hx, hy, if_true, if_false, mag_zero_not_nan hy]
    by_cases ny : f.nan x = true
    · simp [ny, hq]
    · simp only [ny]; simp [hx]; exact key x hx
  · simp only [hx, hy, if_false]
    by_cases nx : f.nan x = true <;> by_cases ny : f.nan y = true
    · simp [nx, ny]
    · simp only [nx, ny]; simp; exact qs y (by simpa using ny)
    · simp only [nx, ny]; simp; exact fun h => qs x (by simpa using nx) h.symm
    · simp only [nx, ny]
      simp only [Bool.not_eq_true] at nx ny
      simp [nx, ny, hx]
      constructor
      · intro h
        have h1 := congrArg f.mag h
        have h2 := congrArg f.neg h
        rw [mag_signed (mag_lt f x), mag_signed (mag_lt f y)] at h1
        rw [neg_signed (mag_lt f x), neg_signed (mag_lt f y)] at h2
        exact ⟨h2, h1⟩
      · rintro ⟨h1, h2⟩; rw [h1, h2]

theorem canon_canon {f : Fmt} (g : Good f) (x : Nat) : f.canon (f.canon x) = f.canon x := by
  unfold canon
  by_cases hx : f.mag x = 0
  · have h0 : f.mag 0 = 0 := by simp [mag]
    simp [hx, h0]
  · by_cases nx : f.nan x = true
    · simp [hx, nx, mag_quiet g, quiet_pos g, nan_quiet g]
    · have h1 := mag_signed (s := f.neg x) (mag_lt f x)
      have h2 := neg_signed (s := f.neg x) (mag_lt f x)
      have : f.nan (f.signed (f.neg x) (f.mag x)) = f.nan x := by simp only [nan, h1]
      simp [hx, nx, this, h1, h2]

theorem cmp_eq {f : Fmt} {x y : Nat} : f.cmp x y = some .eq ↔ f.nan x = false ∧ f.nan y = false ∧ f.key x = f.key y := by
  unfold cmp
  cases f.nan x <;> cases f.nan y <;> simp [Int.compare_eq_eq]

theorem cmp_lt {f : Fmt} {x y : Nat} : f.cmp x y = some .lt ↔ f.nan x = false ∧ f.nan y = false ∧ f.key x < f.key y := by
  unfold cmp
  cases f.nan x <;> cases f.nan y <;> simp [Int.compare_eq_lt]

theorem cmp_swap {f : Fmt} (x y : Nat) : f.cmp y x = (f.cmp x y).map Ordering.swap := by
  unfold cmp
  cases f.nan x <;> cases f.nan y <;> simp [Int.compare_swap]

end Fmt

end Verif.Sql
