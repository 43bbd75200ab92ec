import Verif.Time.Spec

namespace Verif.Time

theorem isLeapYear_eq (y : Nat) : isLeapYear y = decide (Leap y) := by
  have : isLeapYear y = true ↔ Leap y := by
    simp only [isLeapYear, Leap, Bool.and_eq_true, Bool.or_eq_true, beq_iff_eq, bne_iff_ne, Nat.dvd_iff_mod_eq_zero, ne_eq]
  by_cases h : Leap y
  · rw [this.2 h, decide_eq_true h]
  · rw [decide_eq_false h]; exact Bool.eq_false_iff.2 fun e => h (this.1 e)

theorem daysInYear_eq (y : Nat) : daysInYear y = yearLen y := by
  simp [daysInYear, yearLen, isLeapYear_eq]

theorem months_length (y : Nat) : (months y).length = 12 := rfl

theorem daysInMonth_eq {y m : Nat} (h1 : 1 ≤ m) (h2 : m ≤ 12) : (months y)[m - 1]? = some (daysInMonth y m) := by
  have : m = 1 ∨ m = 2 ∨ m = 3 ∨ m = 4 ∨ m = 5 ∨ m = 6 ∨ m = 7 ∨ m = 8 ∨ m = 9 ∨ m = 10 ∨ m = 11 ∨ m = 12 := by omega
  rcases this with h | h | h | h | h | h | h | h | h | h | h | h <;> subst h <;> simp [months, daysInMonth, isLeapYear_eq]

theorem daysInMonth_pos (y m : Nat) : 0 < daysInMonth y m := by
  unfold daysInMonth; split <;> (try split) <;> omega

/-- The days of a year before a month. -/
def inYear (y m : Nat) : Nat := ((months y).take (m - 1)).sum

theorem inYear_one (y : Nat) : inYear y 1 = 0 := rfl

theorem inYear_next {y m : Nat} (h1 : 1 ≤ m) (h2 : m ≤ 12) : inYear y (m + 1) = inYear y m + daysInMonth y m := by
  have : m = 1 ∨ m = 2 ∨ m = 3 ∨ m = 4 ∨ m = 5 ∨ m = 6 ∨ m = 7 ∨ m = 8 ∨ m = 9 ∨ m = 10 ∨ m = 11 ∨ m = 12 := by omega
  rcases this with h | h | h | h | h | h | h | h | h | h | h | h <;> subst h <;> simp [inYear, months, daysInMonth, isLeapYear_eq] <;> (try omega)

theorem inYear_end (y : Nat) : inYear y 13 = yearLen y := by
  simp only [inYear, months, yearLen]; split <;> rfl

theorem inYear_mono {y m k : Nat} (h1 : 1 ≤ m) (h : m + k ≤ 13) : inYear y m ≤ inYear y (m + k) := by
  induction k with
  | zero => exact Nat.le_refl _
  | succ k ih =>
    have := inYear_next (y := y) (m := m + k) (by omega) (by omega)
    have := ih (by omega)
    rw [show m + (k + 1) = m + k + 1 from rfl]; omega

theorem inYear_lt {y m : Nat} (h1 : 1 ≤ m) (h2 : m ≤ 12) : inYear y m + daysInMonth y m ≤ yearLen y := by
  rw [← inYear_next h1 h2, ← inYear_end y]
  have := inYear_mono (y := y) (m := m + 1) (k := 12 - m) (by omega) (by omega)
  rwa [show m + 1 + (12 - m) = 13 by omega] at this

theorem daysBefore_mono {y k : Nat} : daysBefore y ≤ daysBefore (y + k) := by
  induction k with
  | zero => exact Nat.le_refl _
  | succ k ih => rw [show y + (k + 1) = y + k + 1 from rfl, daysBefore]; omega

theorem daysBefore_le {y y' : Nat} (h : y ≤ y') : daysBefore y ≤ daysBefore y' := by
  obtain ⟨k, rfl⟩ := Nat.le.dest h; exact daysBefore_mono

/-- The first day of a month. -/
def first (y m : Nat) : Nat := daysBefore y + inYear y m

theorem dayNumber_first (y m : Nat) : dayNumber y m 1 = first y m := rfl

theorem epochDay_eq : epochDay = 719528 := by decide +kernel
theorem daysBefore_1970 : daysBefore 1970 = 719528 := by decide +kernel

/-- A later month starts after the end of an earlier one. -/
theorem first_lt {y m y' m' : Nat} (h1 : 1 ≤ m) (h2 : m ≤ 12) (h1' : 1 ≤ m') (h2' : m' ≤ 12) (h : y < y' ∨ (y = y' ∧ m < m')) :
    first y m + daysInMonth y m ≤ first y' m' := by
  unfold first
  rcases h with h | ⟨rfl, h⟩
  · have a := inYear_lt (y := y) h1 h2
    have b := daysBefore_le (y := y + 1) (y' := y') h
    rw [daysBefore] at b; omega
  · have a := inYear_next (y := y) h1 h2
    have b := inYear_mono (y := y) (m := m + 1) (k := m' - (m + 1)) (by omega) (by omega)
    rw [show m + 1 + (m' - (m + 1)) = m' by omega] at b; omega

theorem yearLoop_spec : ∀ (n : Nat) (d : Int) (y : Nat), 0 ≤ d → d ≤ n →
    y ≤ (yearLoop n d y).2 ∧ d + daysBefore y = (yearLoop n d y).1 + daysBefore (yearLoop n d y).2 ∧ 0 ≤ (yearLoop n d y).1 ∧
      (yearLoop n d y).1 < yearLen (yearLoop n d y).2 := by
  intro n
  induction n with
  | zero => intro d y h0 h; refine ⟨Nat.le_refl _, rfl, h0, ?_⟩; show d < _; unfold yearLen; split <;> omega
  | succ n ih =>
    intro d y h0 h
    rw [yearLoop]
    have hp : 365 ≤ daysInYear y := by unfold daysInYear; split <;> omega
    split
    · rename_i hd
      obtain ⟨a, b, c, e⟩ := ih (d - daysInYear y) (y + 1) (by omega) (by omega)
      refine ⟨by omega, ?_, c, e⟩
      rw [daysBefore, ← daysInYear_eq] at b; omega
    · rename_i hd
      refine ⟨Nat.le_refl _, rfl, h0, ?_⟩
      show d < (yearLen y : Int)
      rw [← daysInYear_eq]; omega

theorem monthLoop_spec (y : Nat) : ∀ (n : Nat) (d : Int) (m : Nat), 0 ≤ d → 1 ≤ m → n + m = 12 → d + inYear y m < yearLen y →
    1 ≤ (monthLoop y n d m).2 ∧ (monthLoop y n d m).2 ≤ 12 ∧ d + inYear y m = (monthLoop y n d m).1 + inYear y (monthLoop y n d m).2 ∧
      0 ≤ (monthLoop y n d m).1 ∧ (monthLoop y n d m).1 < daysInMonth y (monthLoop y n d m).2 := by
  intro n
  induction n with
  | zero =>
    intro d m h0 h1 hn h
    obtain rfl : m = 12 := by omega
    have := inYear_next (y := y) (m := 12) (by omega) (by omega)
    rw [inYear_end] at this
    exact ⟨h1, by show 12 ≤ 12; omega, rfl, h0, by show d < (daysInMonth y 12 : Int); omega⟩
  | succ n ih =>
    intro d m h0 h1 hn h
    rw [monthLoop]
    split
    · rename_i hd
      have e := inYear_next (y := y) (m := m) h1 (by omega)
      obtain ⟨a, b, c, f, g⟩ := ih (d - daysInMonth y m) (m + 1) (by omega) (by omega) (by omega) (by rw [e]; omega)
      exact ⟨a, b, by rw [e] at c; omega, f, g⟩
    · rename_i hd
      exact ⟨h1, by show m ≤ 12; omega, rfl, h0, by show d < (daysInMonth y m : Int); omega⟩

/-- Before 2038, `timestamp_to_date` finds the month a moment lies in. -/
theorem timestampToDate_spec {t : Nat} (h : t < 2 ^ 31) : ∃ y m, timestampToDate t = (y, m) ∧ 1970 ≤ y ∧ 1 ≤ m ∧ m ≤ 12 ∧
    first y m ≤ epochDay + t / 86400 ∧ epochDay + t / 86400 < first y m + daysInMonth y m := by
  have h32 : asI32 t = t := by unfold asI32; rw [Nat.mod_eq_of_lt (by omega)]; simp [h]
  have hdiv : ((t : Int)).tdiv 86400 = ((t / 86400 : Nat) : Int) := rfl
  unfold timestampToDate
  rw [h32]
  simp only [hdiv, Int.toNat_natCast]
  obtain ⟨a, b, c, e⟩ := yearLoop_spec (t / 86400) ((t / 86400 : Nat) : Int) 1970 (by omega) (Int.le_refl _)
  obtain ⟨a', b', c', f', g'⟩ := monthLoop_spec (yearLoop (t / 86400) ((t / 86400 : Nat) : Int) 1970).2 11 (yearLoop (t / 86400) ((t / 86400 : Nat) : Int) 1970).1 1 c
    (by omega) (by omega) (by rw [inYear_one]; simpa using e)
  refine ⟨_, _, rfl, a, a', b', ?_, ?_⟩
  all_goals
    unfold first
    rw [epochDay_eq]
    rw [daysBefore_1970] at b
    rw [inYear_one] at c'
    omega

theorem yearSum (k : Nat) : ((List.range k).map fun i => daysInYear (1970 + i) * 86400).sum + 86400 * daysBefore 1970 = 86400 * daysBefore (1970 + k) := by
  induction k with
  | zero => simp
  | succ k ih =>
    rw [List.range_succ, List.map_append, List.sum_append, show 1970 + (k + 1) = (1970 + k) + 1 from rfl, show daysBefore (1970 + k + 1) = daysBefore (1970 + k) + yearLen (1970 + k) from rfl, ← daysInYear_eq]
    simp only [List.map_cons, List.map_nil, List.sum_cons, List.sum_nil]
    omega

theorem monthSum (y k : Nat) (h : k ≤ 12) : ((List.range k).map fun i => daysInMonth y (i + 1) * 86400).sum = 86400 * inYear y (k + 1) := by
  induction k with
  | zero => simp [inYear_one]
  | succ k ih =>
    rw [List.range_succ, List.map_append, List.sum_append, ih (by omega), inYear_next (y := y) (m := k + 1) (by omega) (by omega)]
    simp only [List.map_cons, List.map_nil, List.sum_cons, List.sum_nil]
    omega

theorem dateToTimestamp_eq {y m : Nat} (hy : 1970 ≤ y) (h1 : 1 ≤ m) (h2 : m ≤ 12) : (dateToTimestamp y m : Int) = seconds ⟨y, m, 1, 0, 0, 0⟩ := by
  have a := yearSum (y - 1970)
  have b := monthSum y (m - 1) (by omega)
  rw [show 1970 + (y - 1970) = y by omega, daysBefore_1970] at a
  rw [show m - 1 + 1 = m by omega] at b
  unfold dateToTimestamp seconds
  rw [epochDay_eq]
  simp only [dayNumber_first, first]
  omega

theorem seconds_first (y m : Nat) : seconds ⟨y, m, 1, 0, 0, 0⟩ = 86400 * ((first y m : Int) - epochDay) := by
  simp [seconds, dayNumber_first]

end Verif.Time
