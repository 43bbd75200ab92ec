import Verif.Time.Lemmas

/-!
# C111: FLOOR and CEIL of a timestamp
-/

namespace Verif.Time

theorem floor_mul {k t : Nat} (hk : 0 < k) : k ∣ t / k * k ∧ t / k * k ≤ t ∧ ∀ s, k ∣ s → s ≤ t → s ≤ t / k * k := by
  refine ⟨Nat.dvd_mul_left _ _, Nat.div_mul_le_self _ _, ?_⟩
  rintro s ⟨c, rfl⟩ h
  rw [Nat.mul_comm k c]
  exact Nat.mul_le_mul_right _ ((Nat.le_div_iff_mul_le hk).2 (by rwa [Nat.mul_comm]))

theorem ceil_mul {k t : Nat} (hk : 0 < k) (ht : ¬ k ∣ t) : k ∣ (t / k + 1) * k ∧ t ≤ (t / k + 1) * k ∧ ∀ s, k ∣ s → t ≤ s → (t / k + 1) * k ≤ s := by
  have hd := Nat.div_add_mod t k
  have hm := Nat.mod_lt t hk
  have hpos : 0 < t % k := Nat.pos_of_ne_zero fun e => ht (Nat.dvd_of_mod_eq_zero e)
  refine ⟨Nat.dvd_mul_left _ _, ?_, ?_⟩
  · rw [Nat.add_mul, Nat.one_mul, Nat.mul_comm]; omega
  · rintro s ⟨c, rfl⟩ h
    rw [Nat.mul_comm k c]
    refine Nat.mul_le_mul_right _ ?_
    rcases Nat.lt_or_ge (t / k) c with h' | h'
    · exact h'
    · exfalso
      have : k * c ≤ k * (t / k) := Nat.mul_le_mul_left _ h'
      omega

theorem month_start {s : Nat} (h : IsStart .month s) : ∃ y m, 1 ≤ m ∧ m ≤ 12 ∧ (s : Int) = 86400 * ((first y m : Int) - epochDay) := by
  obtain ⟨y, m, h1, h2, e⟩ := h
  exact ⟨y, m, h1, h2, by rw [e, seconds_first]⟩

theorem year_start {s : Nat} (h : IsStart .year s) : ∃ y, (s : Int) = 86400 * ((first y 1 : Int) - epochDay) := by
  obtain ⟨y, e⟩ := h
  exact ⟨y, by rw [e, seconds_first]⟩

/-- The latest start of a month. -/
theorem floor_month {t y m : Nat} (hy : 1970 ≤ y) (h1 : 1 ≤ m) (h2 : m ≤ 12) (hl : first y m ≤ epochDay + t / 86400)
    (hr : epochDay + t / 86400 < first y m + daysInMonth y m) : IsFloor .month t (dateToTimestamp y m) := by
  have e := dateToTimestamp_eq hy h1 h2
  refine ⟨⟨y, m, h1, h2, e⟩, ?_, ?_⟩
  · rw [seconds_first] at e; omega
  · intro s hs hst
    obtain ⟨y', m', h1', h2', e'⟩ := month_start hs
    rw [seconds_first] at e
    have key : first y' m' ≤ first y m := by
      rcases Nat.lt_or_ge y y' with h | h
      · have := first_lt h1 h2 h1' h2' (.inl h); omega
      · rcases Nat.lt_or_ge y' y with h' | h'
        · have := first_lt h1' h2' h1 h2 (.inl h'); omega
        · obtain rfl : y = y' := by omega
          rcases Nat.lt_or_ge m m' with g | g
          · have := first_lt h1 h2 h1' h2' (.inr ⟨(rfl : y = y), g⟩); omega
          · rcases Nat.lt_or_ge m' m with g' | g'
            · have := first_lt h1' h2' h1 h2 (.inr ⟨(rfl : y = y), g'⟩); omega
            · obtain rfl : m = m' := by omega
              exact Nat.le_refl _
    omega

theorem first_next {y m : Nat} (h1 : 1 ≤ m) (h2 : m ≤ 12) : (if m = 12 then first (y + 1) 1 else first y (m + 1)) = first y m + daysInMonth y m := by
  have := inYear_next (y := y) h1 h2
  unfold first
  split
  · rename_i h
    subst h
    rw [inYear_end] at this
    rw [daysBefore, inYear_one]; omega
  · omega

/-- The next start of a month. -/
theorem ceil_month {t y m : Nat} (hy : 1970 ≤ y) (h1 : 1 ≤ m) (h2 : m ≤ 12) (hl : first y m ≤ epochDay + t / 86400)
    (hr : epochDay + t / 86400 < first y m + daysInMonth y m) (ht : ¬ IsStart .month t) :
    IsCeil .month t (if m = 12 then dateToTimestamp (y + 1) 1 else dateToTimestamp y (m + 1)) := by
  have hn := first_next (y := y) h1 h2
  have e0 := dateToTimestamp_eq hy h1 h2
  rw [seconds_first] at e0
  have hne : t ≠ dateToTimestamp y m := by
    rintro rfl
    exact ht ⟨y, m, h1, h2, dateToTimestamp_eq hy h1 h2⟩
  have e : ((if m = 12 then dateToTimestamp (y + 1) 1 else dateToTimestamp y (m + 1) : Nat) : Int) = 86400 * (((first y m + daysInMonth y m : Nat) : Int) - epochDay) := by
    rw [← hn]
    split
    · rw [dateToTimestamp_eq (by omega) (by omega) (by omega), seconds_first]
    · rw [dateToTimestamp_eq hy (by omega) (by omega), seconds_first]
  have hs : IsStart .month (if m = 12 then dateToTimestamp (y + 1) 1 else dateToTimestamp y (m + 1)) := by
    split
    · exact ⟨y + 1, 1, by omega, by omega, dateToTimestamp_eq (by omega) (by omega) (by omega)⟩
    · exact ⟨y, m + 1, by omega, by omega, dateToTimestamp_eq hy (by omega) (by omega)⟩
  refine ⟨hs, by omega, ?_⟩
  intro s hs hst
  obtain ⟨y', m', h1', h2', e'⟩ := month_start hs
  have key : first y m + daysInMonth y m ≤ first y' m' := by
    rcases Nat.lt_or_ge y y' with h | h
    · exact first_lt h1 h2 h1' h2' (.inl h)
    · rcases Nat.lt_or_ge y' y with h' | h'
      · have := first_lt h1' h2' h1 h2 (.inl h')
        have := daysInMonth_pos y' m'
        omega
      · obtain rfl : y = y' := by omega
        rcases Nat.lt_or_ge m m' with g | g
        · exact first_lt h1 h2 h1' h2' (.inr ⟨(rfl : y = y), g⟩)
        · exfalso
          rcases Nat.lt_or_ge m' m with g' | g'
          · have := first_lt h1' h2' h1 h2 (.inr ⟨(rfl : y = y), g'⟩)
            have := daysInMonth_pos y m'
            omega
          · obtain rfl : m = m' := by omega
            omega
  omega

theorem floor_year {t y m : Nat} (hy : 1970 ≤ y) (h1 : 1 ≤ m) (h2 : m ≤ 12) (hl : first y m ≤ epochDay + t / 86400)
    (hr : epochDay + t / 86400 < first y m + daysInMonth y m) : IsFloor .year t (dateToTimestamp y 1) := by
  have e := dateToTimestamp_eq (m := 1) hy (by omega) (by omega)
  have hb := inYear_lt (y := y) h1 h2
  refine ⟨⟨y, e⟩, ?_, ?_⟩
  · rw [seconds_first] at e; simp only [first, inYear_one] at e hl; omega
  · intro s hs hst
    obtain ⟨y', e'⟩ := year_start hs
    rw [seconds_first] at e
    simp only [first, inYear_one] at e e' hl hr
    have : daysBefore y' ≤ daysBefore y := by
      rcases Nat.lt_or_ge y y' with h | h
      · have := daysBefore_le (y := y + 1) (y' := y') h
        rw [daysBefore] at this; omega
      · exact daysBefore_le h
    omega

theorem ceil_year {t y m : Nat} (hy : 1970 ≤ y) (h1 : 1 ≤ m) (h2 : m ≤ 12) (hl : first y m ≤ epochDay + t / 86400)
    (hr : epochDay + t / 86400 < first y m + daysInMonth y m) (ht : ¬ IsStart .year t) : IsCeil .year t (dateToTimestamp (y + 1) 1) := by
  have e0 := dateToTimestamp_eq (m := 1) hy (by omega) (by omega)
  have e := dateToTimestamp_eq (y := y + 1) (m := 1) (by omega) (by omega) (by omega)
  have hb := inYear_lt (y := y) h1 h2
  have hne : t ≠ dateToTimestamp y 1 := by
    intro he
    exact ht ⟨y, by rw [he]; exact e0⟩
  refine ⟨⟨y + 1, e⟩, ?_, ?_⟩
  · rw [seconds_first] at e; simp only [first, inYear_one] at e hl hr; rw [daysBefore] at e; omega
  · intro s hs hst
    obtain ⟨y', e'⟩ := year_start hs
    rw [seconds_first] at e e0
    simp only [first, inYear_one] at e e0 e' hl hr
    have : daysBefore (y + 1) ≤ daysBefore y' := by
      rcases Nat.lt_or_ge y y' with h | h
      · exact daysBefore_le h
      · have := daysBefore_le h
        omega
    omega

/-- The moments a unit is handled for: months and years only before 2038-01-19. -/
def InRange (u : TimeUnit) (t : Nat) : Prop := match u with
  | .month | .year => t < 2 ^ 31
  | _ => t < 2 ^ 63

/-- The word for a unit in `CEIL(t TO word)` and `FLOOR(t TO word)`. -/
def TimeUnit.word : TimeUnit → SqlField
  | .second => .second
  | .minute => .minute
  | .hour => .hour
  | .day => .day
  | .month => .month
  | .year => .year

theorem ceilFloorSql_word (op : Op) (u : TimeUnit) (t : Nat) : ceilFloorSql op u.word t = ceilFloor op u t := by cases u <;> rfl

/-- `FLOOR(t TO unit)` is the last start of the unit that is not after `t`.
Missing: months and years from 2038-01-19 on, see `C111_2038_fails`. -/
theorem C111_floor_partial {u : TimeUnit} {t : Nat} (ht : InRange u t) : ∃ r, ceilFloorSql .floor u.word t = .ok r ∧ IsFloor u t r := by
  rw [ceilFloorSql_word]
  have h63 : ¬ 2 ^ 63 ≤ t := by cases u <;> simp only [InRange] at ht <;> omega
  unfold ceilFloor
  rw [if_neg h63]
  cases u
  case second => exact ⟨_, rfl, trivial, Nat.le_refl _, fun s _ h => h⟩
  case minute => exact ⟨_, rfl, floor_mul (by decide)⟩
  case hour => exact ⟨_, rfl, floor_mul (by decide)⟩
  case day => exact ⟨_, rfl, floor_mul (by decide)⟩
  case month =>
    obtain ⟨y, m, e, hy, h1, h2, hl, hr⟩ := timestampToDate_spec ht
    simp only [e]
    exact ⟨_, rfl, floor_month hy h1 h2 hl hr⟩
  case year =>
    obtain ⟨y, m, e, hy, h1, h2, hl, hr⟩ := timestampToDate_spec ht
    simp only [e]
    exact ⟨_, rfl, floor_year hy h1 h2 hl hr⟩

/-- `CEIL(t TO unit)` is the first start of the unit that is not before `t`, unless `t` is itself one (seconds excepted).
Missing: moments that are starts themselves, see `C111_ceil_fails`, and months and years from 2038-01-19 on. -/
theorem C111_ceil_partial {u : TimeUnit} {t : Nat} (ht : InRange u t) (hs : u ≠ .second → ¬ IsStart u t) : ∃ r, ceilFloorSql .ceil u.word t = .ok r ∧ IsCeil u t r := by
  rw [ceilFloorSql_word]
  have h63 : ¬ 2 ^ 63 ≤ t := by cases u <;> simp only [InRange] at ht <;> omega
  unfold ceilFloor
  rw [if_neg h63]
  cases u
  case second => exact ⟨_, rfl, trivial, Nat.le_refl _, fun s _ h => h⟩
  case minute => exact ⟨_, rfl, ceil_mul (by decide) (hs nofun)⟩
  case hour => exact ⟨_, rfl, ceil_mul (by decide) (hs nofun)⟩
  case day => exact ⟨_, rfl, ceil_mul (by decide) (hs nofun)⟩
  case month =>
    obtain ⟨y, m, e, hy, h1, h2, hl, hr⟩ := timestampToDate_spec ht
    simp only [e]
    exact ⟨_, rfl, ceil_month hy h1 h2 hl hr (hs nofun)⟩
  case year =>
    obtain ⟨y, m, e, hy, h1, h2, hl, hr⟩ := timestampToDate_spec ht
    simp only [e]
    exact ⟨_, rfl, ceil_year hy h1 h2 hl hr (hs nofun)⟩

-- 2024-02-29 13:05:09 is 1709211909; its month is from 1706745600 (1 February) to 1709251200 (1 March).
example : InRange .month 1709211909 ∧ ceilFloor .floor .month 1709211909 = .ok 1706745600 ∧ ceilFloor .ceil .month 1709211909 = .ok 1709251200 := by
  refine ⟨by simp [InRange], by decide +kernel, by decide +kernel⟩
example : (1706745600 : Int) = seconds ⟨2024, 2, 1, 0, 0, 0⟩ ∧ (1709251200 : Int) = seconds ⟨2024, 3, 1, 0, 0, 0⟩ := by decide +kernel
-- It is not the start of a minute.
example : ¬ IsStart .minute 1709211909 := by simp [IsStart]
example : ceilFloor .ceil .minute 1709211909 = .ok 1709211960 := by decide +kernel

/-- A moment at which a minute, hour, day, month or year starts is moved by `CEIL` to the next start: `CEIL(TIMESTAMP '2024-01-01 00:00:00' TO YEAR)` is 2025. -/
theorem C111_ceil_fails {u : TimeUnit} {t : Nat} (hu : u ≠ .second) (ht : InRange u t) (hs : IsStart u t) : ∃ r, ceilFloorSql .ceil u.word t = .ok r ∧ t < r ∧ ¬ IsCeil u t r := by
  rw [ceilFloorSql_word]
  have gen : ∀ r, ceilFloor .ceil u t = .ok r → t < r → ∃ r, ceilFloor .ceil u t = .ok r ∧ t < r ∧ ¬ IsCeil u t r := by
    intro r e h
    refine ⟨r, e, h, fun hc => ?_⟩
    have := hc.2.2 t hs (Nat.le_refl _)
    omega
  have h63 : ¬ 2 ^ 63 ≤ t := by cases u <;> simp only [InRange] at ht <;> omega
  cases u
  case second => exact absurd rfl hu
  case minute => refine gen ((t / 60 + 1) * 60) (by unfold ceilFloor; rw [if_neg h63]) ?_; omega
  case hour => refine gen ((t / 3600 + 1) * 3600) (by unfold ceilFloor; rw [if_neg h63]) ?_; omega
  case day => refine gen ((t / 86400 + 1) * 86400) (by unfold ceilFloor; rw [if_neg h63]) ?_; omega
  case month =>
    obtain ⟨y, m, e, hy, h1, h2, hl, hr⟩ := timestampToDate_spec ht
    refine gen (if m = 12 then dateToTimestamp (y + 1) 1 else dateToTimestamp y (m + 1)) (by unfold ceilFloor; rw [if_neg h63]; simp only [e]) ?_
    have hn := first_next (y := y) h1 h2
    have e1 : ((if m = 12 then dateToTimestamp (y + 1) 1 else dateToTimestamp y (m + 1) : Nat) : Int) = 86400 * (((first y m + daysInMonth y m : Nat) : Int) - epochDay) := by
      rw [← hn]
      split
      · rw [dateToTimestamp_eq (by omega) (by omega) (by omega), seconds_first]
      · rw [dateToTimestamp_eq hy (by omega) (by omega), seconds_first]
    omega
  case year =>
    obtain ⟨y, m, e, hy, h1, h2, hl, hr⟩ := timestampToDate_spec ht
    refine gen (dateToTimestamp (y + 1) 1) (by unfold ceilFloor; rw [if_neg h63]; simp only [e]) ?_
    have e1 := dateToTimestamp_eq (y := y + 1) (m := 1) (by omega) (by omega) (by omega)
    have hb := inYear_lt (y := y) h1 h2
    rw [seconds_first] at e1
    simp only [first, inYear_one] at e1 hl hr
    rw [daysBefore] at e1
    omega

example : IsStart .year 1704067200 ∧ InRange .year 1704067200 ∧ ceilFloor .ceil .year 1704067200 = .ok 1735689600 := by
  refine ⟨⟨2024, by decide +kernel⟩, by simp [InRange], by decide +kernel⟩

/-- From 2038-01-19 03:14:08 to 2106-02-07 06:28:15 every moment lies in January 1970: `FLOOR` to months and years gives the first second of 1970. -/
theorem C111_2038_fails {t : Nat} (h1 : 2 ^ 31 ≤ t) (h2 : t < 2 ^ 32) : ceilFloorSql .floor .year t = .ok 0 ∧ ceilFloorSql .floor .month t = .ok 0 ∧ ¬ IsFloor .year t 0 ∧ ¬ IsFloor .month t 0 := by
  have h63 : ¬ 2 ^ 63 ≤ t := by omega
  have e32 : asI32 t = (t : Int) - 2 ^ 32 := by
    unfold asI32
    rw [Nat.mod_eq_of_lt h2, if_neg (by omega)]
  have hneg : (asI32 t).tdiv 86400 ≤ 0 := by
    rw [e32]
    have : (t : Int) - 2 ^ 32 = - (((2 ^ 32 - t : Nat)) : Int) := by omega
    rw [this, Int.neg_tdiv]
    have : 0 ≤ (((2 ^ 32 - t : Nat) : Int)).tdiv 86400 := Int.tdiv_nonneg (by omega) (by omega)
    omega
  have hd : timestampToDate t = (1970, 1) := by
    unfold timestampToDate
    have : ((asI32 t).tdiv 86400).toNat = 0 := by omega
    simp only [this, yearLoop]
    rw [monthLoop, if_neg]
    show ¬ ((31 : Nat) : Int) ≤ _
    omega
  have hz : dateToTimestamp 1970 1 = 0 := by decide
  have hyear : IsStart .year 1704067200 := ⟨2024, by decide +kernel⟩
  have hmonth : IsStart .month 1704067200 := ⟨2024, 1, by omega, by omega, by decide +kernel⟩
  refine ⟨?_, ?_, ?_, ?_⟩
  · unfold ceilFloorSql ceilFloor; simp only [hd, hz]; exact if_neg h63
  · unfold ceilFloorSql ceilFloor; simp only [hd, hz]; exact if_neg h63
  · intro h
    have := h.2.2 _ hyear (by omega)
    omega
  · intro h
    have := h.2.2 _ hmonth (by omega)
    omega

/-- `CEIL(t)` and `FLOOR(t)` without a unit are refused, also for numbers; `TO WEEK` without a day of the week panics; other units are errors. -/
theorem C111_units_fails (op : Op) (t : Nat) : ceilFloorSql op .none t = .err ∧ ceilFloorSql op (.week false) t = .panic ∧
    (t < 2 ^ 63 → ∀ b, ceilFloorSql op (.other b) t = .err) := by
  refine ⟨rfl, rfl, fun h b => ?_⟩
  cases b
  · rfl
  · show (if 2 ^ 63 ≤ t then Res.panic else Res.err) = .err
    rw [if_neg (by omega)]

end Verif.Time
