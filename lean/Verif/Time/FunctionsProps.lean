import Verif.Time.TextProps
import Verif.Time.FunctionsSpec

/-!
# C140: parts of dates and times, and C141: dates and intervals
-/

namespace Verif.Time

/-! ## A clock that is right -/

/-- The date and time some seconds after (before) 1970, not before year 0. -/
def ofSeconds (n : Int) : Civil :=
  let k := (n + 86400 * 719528).toNat
  let y := yearLoop (k / 86400) (k / 86400 : Nat) 0
  let m := monthLoop y.2 11 y.1 1
  ⟨y.2, m.2, m.1.toNat + 1, k % 86400 / 3600, k % 3600 / 60, k % 60⟩

theorem ofSeconds_spec {n : Int} (h : 0 ≤ n + 86400 * 719528) : (ofSeconds n).Valid ∧ seconds (ofSeconds n) = n := by
  unfold ofSeconds
  generalize hk : (n + 86400 * 719528).toNat = k
  simp only
  obtain ⟨_, b, c, e⟩ := yearLoop_spec (k / 86400) ((k / 86400 : Nat) : Int) 0 (by omega) (Int.le_refl _)
  generalize hy : yearLoop (k / 86400) ((k / 86400 : Nat) : Int) 0 = y at b c e ⊢
  obtain ⟨a', b', c', f', g'⟩ := monthLoop_spec y.2 11 y.1 1 c (by omega) (by omega) (by rw [inYear_one]; simpa using e)
  generalize monthLoop y.2 11 y.1 1 = m at a' b' c' f' g' ⊢
  refine ⟨⟨⟨a', b', by simp, fun l hl => ?_⟩, ?_, ?_, ?_⟩, ?_⟩
  · simp only at hl
    rw [daysInMonth_eq a' b'] at hl
    cases hl
    show m.1.toNat + 1 ≤ _
    omega
  · show k % 86400 / 3600 < 24; omega
  · show k % 3600 / 60 < 60; omega
  · show k % 60 < 60; omega
  · simp only [seconds, epochDay_eq, dayNumber_eq, first]
    simp only [daysBefore] at b
    rw [inYear_one] at c'
    omega

/-- The addition of seconds. -/
def shiftClock (c : Civil) (n : Int) : Res Civil := if 0 ≤ seconds c + n + 86400 * 719528 then .ok (ofSeconds (seconds c + n)) else .out

/-- A clock that is right: everything computed from the calendar. -/
def clock : Clock where
  toChrono := calendar
  shift := shiftClock
  isoYear y _ _ := y

theorem shiftClock_right {c r : Civil} {n : Int} (hr : r.Valid) (e : seconds r = seconds c + n) : shiftClock c n = .ok r := by
  have h0 : 0 ≤ seconds c + n + 86400 * 719528 := by rw [← e]; unfold seconds; rw [epochDay_eq]; omega
  rw [shiftClock, if_pos h0]
  obtain ⟨h1, h2⟩ := ofSeconds_spec (n := seconds c + n) h0
  exact congrArg Res.ok ((seconds_eq h1 hr).1 (by rw [h2, e]))

seal shiftClock in
theorem clock_shift : clock.shift = shiftClock := rfl

theorem clock_right : clock.Right := ⟨calendar_right, fun _ _ _ _ hr _ e => by rw [clock_shift]; exact shiftClock_right hr e⟩

/-! ## Text -/

theorem places_fixed : ∀ w n, places w n = fixed w n := by
  intro w
  induction w with
  | zero => intro n; rfl
  | succ w ih => intro n; rw [places, fixed, ih]; rfl

theorem format_eq {c : Civil} (hy : c.year < 10000) : format c = .ok c.rfc := by
  rw [format, if_pos hy]
  simp only [places_fixed, Civil.rfc, dateText, timeText]
  simp

theorem parseRfc_rfc {K : Chrono} (hK : K.Right) {c : Civil} (hc : c.Valid) (hy : c.year < 10000) : parseRfc K.known c.rfc = .ok c := by
  obtain ⟨hd, h1, h2, h3⟩ := hc
  have hs := date_small hd
  have a := parseDate_text (known := K.known) ((hK.known _ _ _).2 hd) hy hs.1 hs.2
  have b := parseTime_text h1 h2 h3
  have e10 : c.rfc[10]? = some 'T' := rfl
  have e19 : c.rfc[19]? = some 'Z' := rfl
  have el : c.rfc.length = 20 := rfl
  have et : c.rfc.take 10 = dateText c.year c.month c.day := rfl
  have ed : (c.rfc.drop 11).take 8 = timeText c.hour c.minute c.second := rfl
  have eh : (c.rfc.head?.bind digit?).isNone = false := by
    show (digit? (Char.ofNat (48 + c.year / 10 / 10 / 10 % 10))).isNone = false
    rw [digit_ofNat (Nat.mod_lt _ (by decide))]; rfl
  rw [parseRfc, eh, if_neg (by simp), if_pos ⟨e10, el, e19⟩, et, ed, a, b]
  rfl

theorem seconds_epoch : seconds ⟨1970, 1, 1, 0, 0, 0⟩ = 0 := by decide +kernel

theorem moment_of {K : Clock} (hK : K.Right) {a : Arg} {c : Civil} (ha : Denotes a c) (hc : c.Valid) (hy : c.year < 10000) : moment K a = .ok c := by
  rcases ha with rfl | ⟨t, rfl, e⟩
  · exact parseRfc_rfc hK.chrono hc hy
  · have hs := (seconds_small hc hy).2
    have h64 : asI64 t = t := by
      unfold asI64
      rw [Nat.mod_eq_of_lt (by omega), if_pos (by omega)]
    have := hK.shift ⟨1970, 1, 1, 0, 0, 0⟩ (asI64 t) c epoch_valid hc hy (by rw [seconds_epoch, h64, e]; omega)
    simp only [moment, this]

/-! ## Truncation -/

theorem le_iff {a b : Civil} (ha : a.Valid) (hb : b.Valid) : seconds a ≤ seconds b ↔ ¬ Before b a := by
  rw [← seconds_before hb ha]; omega

theorem isDate_first {y m : Nat} (h1 : 1 ≤ m) (h2 : m ≤ 12) : IsDate y m 1 :=
  ⟨h1, h2, Nat.le_refl _, fun n hn => by rw [daysInMonth_eq h1 h2] at hn; cases hn; exact daysInMonth_pos _ _⟩

/-- A date and time with the properties of a truncated one, said by the order of dates. -/
theorem isTrunc_of {f : Field} {c r : Civil} (hc : c.Valid) (hr : r.Valid) (hb : Begins f r) (h1 : ¬ Before c r) (h2 : ∀ s : Civil, s.Valid → Begins f s → ¬ Before c s → ¬ Before r s) :
    IsTrunc f c r :=
  ⟨hr, hb, (le_iff hr hc).2 h1, fun s hs hsb hle => (le_iff hs hr).2 (h2 s hs hsb ((le_iff hs hc).1 hle))⟩

theorem isDate_feb {y m d : Nat} (h : IsDate y m d) (y' : Nat) : IsDate y' m d ↔ ¬ (m = 2 ∧ d = 29 ∧ ¬ Leap y') := by
  obtain ⟨h1, h2, h3, h4⟩ := h
  have hd := h4 _ (daysInMonth_eq h1 h2)
  have hdy : IsDate y' m d ↔ d ≤ daysInMonth y' m :=
    ⟨fun h => h.2.2.2 _ (daysInMonth_eq h1 h2), fun h => ⟨h1, h2, h3, fun n hn => by rw [daysInMonth_eq h1 h2] at hn; cases hn; exact h⟩⟩
  rw [hdy]
  have hl := isLeapYear_eq y'
  by_cases hm : m = 2
  · subst hm
    have hd' : d ≤ 29 := by
      have : daysInMonth y 2 ≤ 29 := by simp only [daysInMonth]; split <;> omega
      omega
    have e2 : daysInMonth y' 2 = if Leap y' then 29 else 28 := by simp [daysInMonth, hl]
    rw [e2]
    by_cases hlp : Leap y'
    · rw [if_pos hlp]; exact ⟨fun _ h => h.2.2 hlp, fun _ => hd'⟩
    · rw [if_neg hlp]
      refine ⟨fun h h' => ?_, fun h => ?_⟩
      · have := h'.2.1; omega
      · have : ¬ d = 29 := fun h9 => h ⟨rfl, h9, hlp⟩
        omega
  · have : daysInMonth y' m = daysInMonth y m := by
      have : m = 1 ∨ m = 3 ∨ m = 4 ∨ m = 5 ∨ m = 6 ∨ m = 7 ∨ m = 8 ∨ m = 9 ∨ m = 10 ∨ m = 11 ∨ m = 12 := by omega
      rcases this with rfl | rfl | rfl | rfl | rfl | rfl | rfl | rfl | rfl | rfl | rfl <;> rfl
    rw [this]
    exact ⟨fun _ h => hm h.1, fun _ => hd⟩

theorem isDate_quarter {y m d : Nat} (h : IsDate y m d) : IsDate y ((m - 1) / 3 * 3 + 1) d ↔ ¬ (m = 5 ∧ d = 31) := by
  obtain ⟨h1, h2, h3, h4⟩ := h
  have hd := h4 _ (daysInMonth_eq h1 h2)
  have hdy : ∀ q, 1 ≤ q → q ≤ 12 → (IsDate y q d ↔ d ≤ daysInMonth y q) := fun q q1 q2 =>
    ⟨fun h => h.2.2.2 _ (daysInMonth_eq q1 q2), fun h => ⟨q1, q2, h3, fun n hn => by rw [daysInMonth_eq q1 q2] at hn; cases hn; exact h⟩⟩
  rw [hdy _ (by omega) (by omega)]
  have : daysInMonth y 2 ≤ 29 := by simp only [daysInMonth]; split <;> omega
  have e1 : daysInMonth y 1 = 31 := rfl
  have e3 : daysInMonth y 3 = 31 := rfl
  have e4 : daysInMonth y 4 = 30 := rfl
  have e5 : daysInMonth y 5 = 31 := rfl
  have e6 : daysInMonth y 6 = 30 := rfl
  have e7 : daysInMonth y 7 = 31 := rfl
  have e8 : daysInMonth y 8 = 31 := rfl
  have e9 : daysInMonth y 9 = 30 := rfl
  have e10 : daysInMonth y 10 = 31 := rfl
  have e11 : daysInMonth y 11 = 30 := rfl
  have e12 : daysInMonth y 12 = 31 := rfl
  have : m = 1 ∨ m = 2 ∨ m = 3 ∨ m = 4 ∨ m = 5 ∨ m = 6 ∨ m = 7 ∨ m = 8 ∨ m = 9 ∨ m = 10 ∨ m = 11 ∨ m = 12 := by omega
  rcases this with rfl | rfl | rfl | rfl | rfl | rfl | rfl | rfl | rfl | rfl | rfl | rfl <;>
    (try simp only [Nat.reduceSub, Nat.reduceDiv, Nat.reduceMul, Nat.reduceAdd, true_and]) <;> omega

/-- The moments `date_trunc` panics on: the 31st of May for quarters, and a leap day when the decade or the century does not begin with a leap year. -/
def Panics (f : Field) (c : Civil) : Prop := match f with
  | .quarter => c.month = 5 ∧ c.day = 31
  | .decade => c.month = 2 ∧ c.day = 29 ∧ ¬ Leap (c.year / 10 * 10)
  | .century => c.month = 2 ∧ c.day = 29 ∧ ¬ Leap (c.year / 100 * 100)
  | _ => False

theorem trunc_big {K : Clock} (hK : K.Right) {c : Civil} (hc : c.Valid) (y : Nat) :
    orPanic K y c.month c.day (orPanic K y 1 c.day (orPanic K y 1 1 (.ok ⟨y, 1, 1, 0, 0, 0⟩))) =
      if c.month = 2 ∧ c.day = 29 ∧ ¬ Leap y then .panic else .ok ⟨y, 1, 1, 0, 0, 0⟩ := by
  have h1 := hK.chrono.known y c.month c.day
  rw [isDate_feb hc.1 y] at h1
  by_cases hp : c.month = 2 ∧ c.day = 29 ∧ ¬ Leap y
  · rw [if_pos hp, orPanic, if_neg (fun h => h1.1 h hp)]
  · have h2 : K.known y 1 c.day = true := (hK.chrono.known _ _ _).2 ⟨by omega, by omega, hc.1.2.2.1, fun n hn => by
      cases hn
      have := inYear_le hc.1.1 hc.1.2.1 hc.1
      have : daysInMonth c.year c.month ≤ 31 := by unfold daysInMonth; split <;> (try split) <;> omega
      omega⟩
    have h3 : K.known y 1 1 = true := (hK.chrono.known _ _ _).2 (isDate_first (by omega) (by omega))
    rw [if_neg hp, orPanic, if_pos (h1.2 hp), orPanic, if_pos h2, orPanic, if_pos h3]

theorem valid_first {y m : Nat} (h1 : 1 ≤ m) (h2 : m ≤ 12) : (⟨y, m, 1, 0, 0, 0⟩ : Civil).Valid := ⟨isDate_first h1 h2, Nat.zero_lt_succ _, Nat.zero_lt_succ _, Nat.zero_lt_succ _⟩

theorem trunc_civil {K : Clock} (hK : K.Right) {c : Civil} (hc : c.Valid) (hy : c.year < 10000) {f : Field} (hf : IsUnit f) (hyear : f ≠ .year) (hweek : f = .week → 1 ≤ c.year)
    (hp : ¬ Panics f c) : ∃ r, dateTrunc K f c = .ok r ∧ r.year < 10000 ∧ IsTrunc f c r := by
  have ⟨⟨hm1, hm2, hd1, _⟩, hh, hn, hs⟩ := hc
  have nb : ∀ s : Civil, ¬ Before c s ↔ ¬ (c.year < s.year ∨ (c.year = s.year ∧ (c.month < s.month ∨ (c.month = s.month ∧ (c.day < s.day ∨ (c.day = s.day ∧
    (c.hour < s.hour ∨ (c.hour = s.hour ∧ (c.minute < s.minute ∨ (c.minute = s.minute ∧ c.second < s.second)))))))))) := fun s => Iff.rfl
  cases f with
  | year => exact absurd rfl hyear
  | month =>
    refine ⟨⟨c.year, c.month, 1, 0, 0, 0⟩, by rw [dateTrunc, if_pos ((hK.chrono.known _ _ _).2 (isDate_first hm1 hm2))], hy, isTrunc_of hc (valid_first hm1 hm2) ⟨rfl, rfl, rfl, rfl⟩ ?_ ?_⟩
    · simp only [Before]; omega
    · rintro s ⟨⟨s1, s2, s3, _⟩, _⟩ ⟨b1, b2, b3, b4⟩ hb
      simp only [Before] at hb ⊢; omega
  | quarter =>
    have h1 := hK.chrono.known c.year ((c.month - 1) / 3 * 3 + 1) c.day
    rw [isDate_quarter hc.1] at h1
    have h2 : K.known c.year ((c.month - 1) / 3 * 3 + 1) 1 = true := (hK.chrono.known _ _ _).2 (isDate_first (by omega) (by omega))
    refine ⟨⟨c.year, (c.month - 1) / 3 * 3 + 1, 1, 0, 0, 0⟩, by simp only [dateTrunc, orPanic]; rw [if_pos (h1.2 hp), if_pos h2], hy,
      isTrunc_of hc (valid_first (by omega) (by omega)) ⟨?_, rfl, rfl, rfl, rfl⟩ ?_ ?_⟩
    · show (c.month - 1) / 3 * 3 + 1 = 1 ∨ _ ; simp only; omega
    · simp only [Before]; omega
    · rintro s ⟨⟨s1, s2, s3, _⟩, _⟩ ⟨b0, b1, b2, b3, b4⟩ hb
      simp only [Before] at hb ⊢; omega
  | century =>
    refine ⟨⟨c.year / 100 * 100, 1, 1, 0, 0, 0⟩, by simp only [dateTrunc]; rw [trunc_big hK hc]; exact if_neg hp, by show c.year / 100 * 100 < 10000; omega,
      isTrunc_of hc (valid_first (by omega) (by omega)) ⟨Nat.dvd_mul_left _ _, rfl, rfl, rfl, rfl, rfl⟩ ?_ ?_⟩
    · simp only [Before]; omega
    · rintro s ⟨⟨s1, s2, s3, _⟩, _⟩ ⟨b0, b1, b1', b2, b3, b4⟩ hb
      simp only [Before] at hb ⊢; omega
  | decade =>
    refine ⟨⟨c.year / 10 * 10, 1, 1, 0, 0, 0⟩, by simp only [dateTrunc]; rw [trunc_big hK hc]; exact if_neg hp, by show c.year / 10 * 10 < 10000; omega,
      isTrunc_of hc (valid_first (by omega) (by omega)) ⟨Nat.dvd_mul_left _ _, rfl, rfl, rfl, rfl, rfl⟩ ?_ ?_⟩
    · simp only [Before]; omega
    · rintro s ⟨⟨s1, s2, s3, _⟩, _⟩ ⟨b0, b1, b1', b2, b3, b4⟩ hb
      simp only [Before] at hb ⊢; omega
  | week =>
    have hw := hK.chrono.weekday _ _ _ hc.1
    have hy1 := hweek rfl
    have hdn : 366 ≤ dayNumber c.year c.month c.day := by
      have := daysBefore_le (y := 1) (y' := c.year) hy1
      have e : daysBefore 1 = 366 := by decide +kernel
      rw [e] at this
      rw [dayNumber_eq]; unfold first; omega
    have hs0 : seconds { c with hour := 0, minute := 0, second := 0 } = 86400 * ((dayNumber c.year c.month c.day : Int) - epochDay) := by simp [seconds]
    have hsc : seconds c = 86400 * ((dayNumber c.year c.month c.day : Int) - epochDay) + 3600 * c.hour + 60 * c.minute + c.second := rfl
    have hrs := ofSeconds_spec (n := 86400 * ((dayNumber c.year c.month c.day : Int) - epochDay) - 86400 * K.weekday c.year c.month c.day) (by rw [epochDay_eq] at *; omega)
    generalize ofSeconds (86400 * ((dayNumber c.year c.month c.day : Int) - epochDay) - 86400 * K.weekday c.year c.month c.day) = r at hrs
    obtain ⟨hr, hrsec⟩ := hrs
    have hle : seconds r ≤ seconds c := by omega
    have hry : r.year < 10000 := by
      have := (le_iff hr hc).1 hle
      unfold Before at this; omega
    have hsr : seconds r = 86400 * ((dayNumber r.year r.month r.day : Int) - epochDay) + 3600 * r.hour + 60 * r.minute + r.second := rfl
    have ⟨_, rh, rn, rs⟩ := hr
    refine ⟨r, ?_, hry, hr, ⟨?_, ?_⟩, hle, ?_⟩
    · rw [dateTrunc]
      exact hK.shift _ _ _ ⟨hc.1, Nat.zero_lt_succ _, Nat.zero_lt_succ _, Nat.zero_lt_succ _⟩ hr hry (by rw [hs0]; omega)
    · have : (dayNumber r.year r.month r.day : Int) - epochDay = dayNumber c.year c.month c.day - epochDay - K.weekday c.year c.month c.day := by omega
      rw [this]; omega
    · refine ⟨?_, ?_, ?_⟩ <;> omega
    · rintro s ⟨_, _⟩ ⟨b, m1, m2, m3⟩ hsle
      have hss : seconds s = 86400 * ((dayNumber s.year s.month s.day : Int) - epochDay) + 3600 * s.hour + 60 * s.minute + s.second := rfl
      omega
  | day =>
    refine ⟨{ c with hour := 0, minute := 0, second := 0 }, rfl, hy, isTrunc_of hc ⟨hc.1, Nat.zero_lt_succ _, Nat.zero_lt_succ _, Nat.zero_lt_succ _⟩ ⟨rfl, rfl, rfl⟩ ?_ ?_⟩
    · simp only [Before]; omega
    · rintro s _ ⟨b2, b3, b4⟩ hb
      simp only [Before] at hb ⊢; omega
  | hour =>
    refine ⟨{ c with minute := 0, second := 0 }, rfl, hy, isTrunc_of hc ⟨hc.1, hh, Nat.zero_lt_succ _, Nat.zero_lt_succ _⟩ ⟨rfl, rfl⟩ ?_ ?_⟩
    · simp only [Before]; omega
    · rintro s _ ⟨b3, b4⟩ hb
      simp only [Before] at hb ⊢; omega
  | minute =>
    refine ⟨{ c with second := 0 }, rfl, hy, isTrunc_of hc ⟨hc.1, hh, hn, Nat.zero_lt_succ _⟩ rfl ?_ ?_⟩
    · simp only [Before]; omega
    · rintro s _ b4 hb
      simp only [Begins] at b4
      simp only [Before] at hb ⊢; omega
  | second => exact ⟨c, rfl, hy, isTrunc_of hc hc trivial (by simp only [Before]; omega) fun _ _ _ h => h⟩
  | _ => simp [IsUnit] at hf

/-- `date_trunc` of a date and time, given as text or as a timestamp, is the text of the last beginning of the unit that is not after it: for all units but years, and all moments
it does not panic on.
Missing: years, see `C140_year_fails`; the moments of `C140_panic_fails`; weeks of year 0; fractions of a second and other time zones. -/
theorem C140_trunc_partial {K : Clock} (hK : K.Right) {a : Arg} {c : Civil} (ha : Denotes a c) (hc : c.Valid) (hy : c.year < 10000) {f : Field} (hf : IsUnit f) (hyear : f ≠ .year)
    (hweek : f = .week → 1 ≤ c.year) (hp : ¬ Panics f c) : ∃ r : Civil, truncOf K f a = .ok r.rfc ∧ IsTrunc f c r := by
  obtain ⟨r, h1, h2, h3⟩ := trunc_civil hK hc hy hf hyear hweek hp
  refine ⟨r, ?_, h3⟩
  rw [truncOf, moment_of hK ha hc hy]
  show (dateTrunc K f c).bind format = _
  rw [h1]
  exact format_eq h2

-- Thursday the 29th of February 2024 is in the week that began on the 26th, in the first quarter and in the decade of 2020.
example : truncOf clock .week (.text "2024-02-29T13:05:09Z".toList) = .ok "2024-02-26T00:00:00Z".toList ∧ truncOf clock .quarter (.timestamp 1709211909) = .ok "2024-01-01T00:00:00Z".toList ∧
    truncOf clock .decade (.timestamp 1709211909) = .ok "2020-01-01T00:00:00Z".toList ∧ truncOf clock .hour (.timestamp 1709211909) = .ok "2024-02-29T13:00:00Z".toList := by decide +kernel
example : Denotes (.timestamp 1709211909) ⟨2024, 2, 29, 13, 5, 9⟩ ∧ ¬ Panics .decade ⟨2024, 2, 29, 13, 5, 9⟩ :=
  ⟨.inr ⟨_, rfl, by decide +kernel⟩, by rintro ⟨_, _, h⟩; exact h (by decide)⟩

/-- The text that `date_trunc` gives back can be given to it again, and is then unchanged. -/
theorem C140_trunc_again_partial {K : Clock} (hK : K.Right) {a : Arg} {c : Civil} (ha : Denotes a c) (hc : c.Valid) (hy : c.year < 10000) {f : Field} (hf : IsUnit f) (hyear : f ≠ .year)
    (hweek : f = .week → 2 ≤ c.year) (hp : ¬ Panics f c) : ∃ s, truncOf K f a = .ok s ∧ truncOf K f (.text s) = .ok s := by
  obtain ⟨r, h1, hy1, h3⟩ := trunc_civil hK hc hy hf hyear (fun h => by have := hweek h; omega) hp
  have e1 : truncOf K f a = .ok r.rfc := by
    rw [truncOf, moment_of hK ha hc hy]
    show (dateTrunc K f c).bind format = _
    rw [h1]; exact format_eq hy1
  have hw1 : f = .week → 1 ≤ r.year := by
    intro hfw
    have := hweek hfw
    have h7 : seconds c < seconds r + 7 * 86400 := by
      refine Decidable.byContradiction fun hge => ?_
      have hv := ofSeconds_spec (n := seconds r + 7 * 86400) (by
        have := (ofSeconds_spec (n := seconds r)); unfold seconds; rw [epochDay_eq]; omega)
      generalize ofSeconds (seconds r + 7 * 86400) = s at hv
      obtain ⟨hv, hs⟩ := hv
      have hb := h3.2.1
      rw [hfw] at hb
      obtain ⟨b1, b2, b3, b4⟩ := hb
      have e : seconds r = 86400 * ((dayNumber r.year r.month r.day : Int) - epochDay) + 3600 * r.hour + 60 * r.minute + r.second := rfl
      have e' : seconds s = 86400 * ((dayNumber s.year s.month s.day : Int) - epochDay) + 3600 * s.hour + 60 * s.minute + s.second := rfl
      have ⟨_, sh, sm, ss⟩ := hv
      have hbs : Begins .week s := ⟨by have : (dayNumber s.year s.month s.day : Int) = dayNumber r.year r.month r.day + 7 := by omega
                                       rw [this]; omega, by omega, by omega, by omega⟩
      have := h3.2.2.2 s hv (by rw [hfw]; exact hbs) (by omega)
      omega
    refine Decidable.byContradiction fun h0 => ?_
    have hr0 : r.year = 0 := by omega
    have hd0 : dayNumber r.year r.month r.day < 366 := by
      have a1 := inYear_le h3.1.1.1 h3.1.1.2.1 h3.1.1
      have a2 := inYear_lt (y := r.year) h3.1.1.1 h3.1.1.2.1
      have a3 := h3.1.1.2.2.1
      have e0 : daysBefore r.year = 0 := by rw [hr0]; rfl
      have e1 : yearLen r.year = 366 := by rw [hr0]; decide
      rw [e1] at a2
      rw [dayNumber_eq]; unfold first
      rw [e0]
      omega
    have hdc : 731 ≤ dayNumber c.year c.month c.day := by
      have := daysBefore_le (y := 2) (y' := c.year) (by omega)
      have e : daysBefore 2 = 731 := by decide +kernel
      rw [e] at this
      rw [dayNumber_eq]; unfold first; omega
    have e : seconds r = 86400 * ((dayNumber r.year r.month r.day : Int) - epochDay) + 3600 * r.hour + 60 * r.minute + r.second := rfl
    have e' : seconds c = 86400 * ((dayNumber c.year c.month c.day : Int) - epochDay) + 3600 * c.hour + 60 * c.minute + c.second := rfl
    have ⟨_, sh, sm, ss⟩ := h3.1
    omega
  have hpr : ¬ Panics f r := by
    have hb := h3.2.1
    cases f <;> simp only [Panics, not_false_eq_true] <;> rintro ⟨p1, p2⟩
    · have := hb.2.1; omega
    · have := hb.2.1; omega
    · have := hb.2.1; omega
  obtain ⟨r', g1, g2, g3⟩ := trunc_civil hK h3.1 hy1 hf hyear hw1 hpr
  have : r' = r := (seconds_eq g3.1 h3.1).1 (Int.le_antisymm g3.2.2.1 (g3.2.2.2 r h3.1 h3.2.1 (Int.le_refl _)))
  refine ⟨r.rfc, e1, ?_⟩
  rw [truncOf, moment_of hK (.inl rfl) h3.1 hy1]
  show (dateTrunc K f r).bind format = _
  rw [g1, this]; exact format_eq hy1

/-- `date_trunc('year', ..)` is the beginning of the day, which is the beginning of the year on the first of January only. -/
theorem C140_year_fails {K : Clock} (hK : K.Right) {a : Arg} {c : Civil} (ha : Denotes a c) (hc : c.Valid) (hy : c.year < 10000) (h11 : ¬ (c.month = 1 ∧ c.day = 1)) :
    ∃ r : Civil, truncOf K .year a = .ok r.rfc ∧ r.rfc = (⟨c.year, c.month, c.day, 0, 0, 0⟩ : Civil).rfc ∧ ¬ IsTrunc .year c r := by
  refine ⟨⟨c.year, c.month, c.day, 0, 0, 0⟩, ?_, rfl, fun h => ?_⟩
  · rw [truncOf, moment_of hK ha hc hy]
    exact format_eq hy
  · obtain ⟨_, ⟨b1, b2, _⟩, _⟩ := h
    exact h11 ⟨b1, b2⟩

example : truncOf clock .year (.text "2024-02-29T13:05:09Z".toList) = .ok "2024-02-29T00:00:00Z".toList := by decide +kernel

/-- `date_trunc` panics on the 31st of May for quarters, and on leap days in decades and centuries that do not begin with a leap year. -/
theorem C140_panic_fails {K : Clock} (hK : K.Right) {a : Arg} {c : Civil} (ha : Denotes a c) (hc : c.Valid) (hy : c.year < 10000) {f : Field} (hp : Panics f c) :
    truncOf K f a = .panic := by
  rw [truncOf, moment_of hK ha hc hy]
  show (dateTrunc K f c).bind format = _
  cases f with
  | quarter =>
    have h1 := hK.chrono.known c.year ((c.month - 1) / 3 * 3 + 1) c.day
    rw [isDate_quarter hc.1] at h1
    simp only [dateTrunc, orPanic]
    rw [if_neg (fun h => h1.1 h hp)]; rfl
  | decade => simp only [dateTrunc]; rw [trunc_big hK hc, if_pos (show _ ∧ _ ∧ _ from hp)]; rfl
  | century => simp only [dateTrunc]; rw [trunc_big hK hc, if_pos (show _ ∧ _ ∧ _ from hp)]; rfl
  | _ => exact absurd hp id

example : truncOf clock .quarter (.text "2023-05-31T10:00:00Z".toList) = .panic ∧ truncOf clock .decade (.text "2016-02-29T00:00:00Z".toList) = .panic ∧
    truncOf clock .century (.text "1904-02-29T00:00:00Z".toList) = .panic := by decide +kernel

/-! ## Parts -/

/-- `date_part` of a date and time, given as text or as a timestamp, is the field named: year, quarter, month, day, hour, minute, second, day of the year and ISO day of the week
always, the epoch as far as it fits 32 bits.
Missing: the day of the week, see `C140_dow_fails`; later epochs, see `C140_epoch_fails`; ISO weeks and ISO years, which are `chrono`'s. -/
theorem C140_part_partial {K : Clock} (hK : K.Right) {a : Arg} {c : Civil} (ha : Denotes a c) (hc : c.Valid) (hy : c.year < 10000) {f : Field} {v : Int} (hv : fieldValue f c = some v)
    (hdow : f ≠ .dow) (hep : f = .epoch → - 2 ^ 31 ≤ v ∧ v < 2 ^ 31) : partOf K f a = .ok v := by
  rw [partOf, moment_of hK ha hc hy]
  show datePart K f c = _
  cases f <;> simp only [fieldValue, part, Option.some.injEq, reduceCtorEq] at hv <;> simp only [datePart] <;> refine congrArg Verif.Time.Res.ok ?_
  case dow => exact absurd rfl hdow
  case epoch =>
    have := hep rfl
    rw [hK.chrono.epoch c hc, hv]
    unfold wrapI32
    split <;> omega
  case quarter => have := hc.1.1; omega
  case doy =>
    have := hK.chrono.ordinal _ _ _ hc.1
    rw [this, ← hv]
    have := hc.1.2.2.1
    simp only [dayNumber, Nat.sub_self, List.take_zero, List.sum_nil]
    omega
  case isodow => have := hK.chrono.weekday _ _ _ hc.1; omega
  all_goals exact hv

example : fieldValue .isodow ⟨2024, 2, 29, 13, 5, 9⟩ = some 4 ∧ partOf clock .isodow (.timestamp 1709211909) = .ok 4 ∧ partOf clock .quarter (.timestamp 1709211909) = .ok 1 ∧
    partOf clock .doy (.text "2024-02-29T13:05:09Z".toList) = .ok 60 := by decide +kernel

/-- Days of the week count from 0 for Monday, where `EXTRACT` counts them from 1 and SQL from 0 for Sunday: no day has its number. -/
theorem C140_dow_fails {K : Clock} (hK : K.Right) {a : Arg} {c : Civil} (ha : Denotes a c) (hc : c.Valid) (hy : c.year < 10000) :
    ∃ v w, fieldValue .dow c = some v ∧ partOf K .dow a = .ok w ∧ w = (v + 6) % 7 ∧ w ≠ v ∧ extract K.toChrono .dow (.text c.text) = .ok (w + 1) := by
  have hw := hK.chrono.weekday _ _ _ hc.1
  refine ⟨_, K.weekday c.year c.month c.day, rfl, ?_, ?_, ?_, ?_⟩
  · rw [partOf, moment_of hK ha hc hy]; rfl
  · omega
  · omega
  · rw [extract, parse_text hK.chrono hc hy]; rfl

/-- From 2038-01-19 03:14:08 to 2106-02-07 06:28:15 the epoch is 2^32 too small. -/
theorem C140_epoch_fails {K : Clock} (hK : K.Right) {a : Arg} {c : Civil} (ha : Denotes a c) (hc : c.Valid) (hy : c.year < 10000) (h1 : 2 ^ 31 ≤ seconds c) (h2 : seconds c < 2 ^ 32) :
    partOf K .epoch a = .ok (seconds c - 2 ^ 32) := by
  rw [partOf, moment_of hK ha hc hy]
  show datePart K .epoch c = _
  simp only [datePart, hK.chrono.epoch c hc]
  refine congrArg Verif.Time.Res.ok ?_
  unfold wrapI32
  split <;> omega

/-! ## Making dates and times -/

theorem asU32_nat {i : Int} (h0 : 0 ≤ i) (h : i < 2 ^ 31) : asU32 i = i.toNat := by unfold asU32; rw [Int.emod_eq_of_lt h0 (by omega)]

theorem asU32_neg {i : Int} (h0 : i < 0) (h : - 2 ^ 31 ≤ i) : 2 ^ 31 ≤ asU32 i := by unfold asU32; omega

theorem known_small {K : Clock} (hK : K.Right) {y m d : Nat} (h : K.known y m d = true) : m < 100 ∧ d < 100 := date_small ((hK.chrono.known _ _ _).1 h)

theorem build_eq {K : Clock} (hK : K.Right) {y m d h n s : Int} (hy : 0 ≤ y ∧ y < 10000) (hr : ∀ i ∈ [m, d, h, n, s], - 2 ^ 31 ≤ i ∧ i < 2 ^ 31) :
    build K y m d h n s = if 0 ≤ m ∧ 0 ≤ d ∧ 0 ≤ h ∧ 0 ≤ n ∧ 0 ≤ s ∧ (K.known y.toNat m.toNat d.toNat ∧ h.toNat < 24 ∧ n.toNat < 60 ∧ s.toNat < 60)
      then .ok (⟨y.toNat, m.toNat, d.toNat, h.toNat, n.toNat, s.toNat⟩ : Civil).rfc else .err := by
  simp only [List.mem_cons, List.not_mem_nil, or_false, forall_eq_or_imp, forall_eq] at hr
  obtain ⟨rm, rd, rh, rn, rs⟩ := hr
  rw [build, if_neg (by omega)]
  by_cases hpos : 0 ≤ m ∧ 0 ≤ d ∧ 0 ≤ h ∧ 0 ≤ n ∧ 0 ≤ s
  · obtain ⟨p1, p2, p3, p4, p5⟩ := hpos
    rw [asU32_nat p1 rm.2, asU32_nat p2 rd.2, asU32_nat p3 rh.2, asU32_nat p4 rn.2, asU32_nat p5 rs.2]
    rw [format_eq (by show y.toNat < 10000; omega)]
    simp only [p1, p2, p3, p4, p5, true_and]
  · have hno : ¬ (K.known y.toNat (asU32 m) (asU32 d) ∧ asU32 h < 24 ∧ asU32 n < 60 ∧ asU32 s < 60) := by
      rintro ⟨k, k1, k2, k3⟩
      have ks := known_small hK k
      have := @asU32_neg m
      have := @asU32_neg d
      have := @asU32_neg h
      have := @asU32_neg n
      have := @asU32_neg s
      omega
    rw [if_neg hno, if_neg (fun h => hpos ⟨h.1, h.2.1, h.2.2.1, h.2.2.2.1, h.2.2.2.2.1⟩)]

/-- `make_timestamp` of six INTEGERs with a year from 0 to 9999 is the text of the date and time they make up, and an error if there is none.
Missing: other years, which are printed otherwise. -/
theorem C140_make_timestamp_partial {K : Clock} (hK : K.Right) {y m d h n s : Int} (hy : 0 ≤ y ∧ y < 10000) (hr : ∀ i ∈ [m, d, h, n, s], - 2 ^ 31 ≤ i ∧ i < 2 ^ 31) :
    (∀ c : Civil, c.Valid → (c.year : Int) = y ∧ (c.month : Int) = m ∧ (c.day : Int) = d ∧ (c.hour : Int) = h ∧ (c.minute : Int) = n ∧ (c.second : Int) = s →
      makeTimestamp K [some y, some m, some d, some h, some n, some s] = .ok c.rfc) ∧
    ((¬ ∃ c : Civil, c.Valid ∧ (c.year : Int) = y ∧ (c.month : Int) = m ∧ (c.day : Int) = d ∧ (c.hour : Int) = h ∧ (c.minute : Int) = n ∧ (c.second : Int) = s) →
      makeTimestamp K [some y, some m, some d, some h, some n, some s] = .err) := by
  simp only [makeTimestamp, build_eq hK hy hr]
  constructor
  · rintro c ⟨hd, h1, h2, h3⟩ ⟨rfl, rfl, rfl, rfl, rfl, rfl⟩
    rw [if_pos ⟨by omega, by omega, by omega, by omega, by omega, by simpa using (hK.chrono.known _ _ _).2 hd, by simpa using h1, by simpa using h2, by simpa using h3⟩]
    simp
  · intro hno
    rw [if_neg]
    rintro ⟨p1, p2, p3, p4, p5, k, k1, k2, k3⟩
    exact hno ⟨⟨y.toNat, m.toNat, d.toNat, h.toNat, n.toNat, s.toNat⟩, ⟨(hK.chrono.known _ _ _).1 k, k1, k2, k3⟩, by simp only; omega, by simp only; omega, by simp only; omega,
      by simp only; omega, by simp only; omega, by simp only; omega⟩

/-- `make_date` of three INTEGERs with a year from 0 to 9999 is the text of the first second of that day, and an error if there is no such day.
Missing: other years, which are printed otherwise. -/
theorem C140_make_date_partial {K : Clock} (hK : K.Right) {y m d : Int} (hy : 0 ≤ y ∧ y < 10000) (hr : ∀ i ∈ [m, d], - 2 ^ 31 ≤ i ∧ i < 2 ^ 31) :
    (∀ y' m' d' : Nat, IsDate y' m' d' → (y' : Int) = y ∧ (m' : Int) = m ∧ (d' : Int) = d → makeDate K [some y, some m, some d] = .ok (⟨y', m', d', 0, 0, 0⟩ : Civil).rfc) ∧
    ((¬ ∃ y' m' d' : Nat, IsDate y' m' d' ∧ (y' : Int) = y ∧ (m' : Int) = m ∧ (d' : Int) = d) → makeDate K [some y, some m, some d] = .err) := by
  have hr' : ∀ i ∈ [m, d, 0, 0, 0], - 2 ^ 31 ≤ i ∧ i < 2 ^ 31 := by
    simp only [List.mem_cons, List.not_mem_nil, or_false, forall_eq_or_imp, forall_eq] at hr ⊢
    exact ⟨hr.1, hr.2, by decide, by decide, by decide⟩
  have h := C140_make_timestamp_partial hK hy hr'
  have e : makeTimestamp K [some y, some m, some d, some 0, some 0, some 0] = makeDate K [some y, some m, some d] := rfl
  rw [e] at h
  constructor
  · rintro y' m' d' hd ⟨h1, h2, h3⟩
    exact h.1 ⟨y', m', d', 0, 0, 0⟩ ⟨hd, Nat.zero_lt_succ _, Nat.zero_lt_succ _, Nat.zero_lt_succ _⟩ ⟨h1, h2, h3, rfl, rfl, rfl⟩
  · intro hno
    exact h.2 fun ⟨c, hc, h1, h2, h3, _⟩ => hno ⟨_, _, _, hc.1, h1, h2, h3⟩

example : makeDate clock [some 2024, some 2, some 29] = .ok "2024-02-29T00:00:00Z".toList ∧ makeDate clock [some 2023, some 2, some 29] = .err ∧ makeDate clock [some 2024, some (-1), some 1] = .err ∧
    makeTimestamp clock [some 2024, some 2, some 29, some 13, some 5, some 9] = .ok "2024-02-29T13:05:09Z".toList := by decide +kernel

/-- `make_time` has no value: it asks for the 0th day of month 0. -/
theorem C140_make_time_fails {K : Clock} (hK : K.Right) (h n s : Int) : makeTime K [some h, some n, some s] = .err := by
  have : ¬ K.known 0 0 0 = true := fun k => by have := ((hK.chrono.known _ _ _).1 k).1; omega
  show build K 0 0 0 h n s = _
  rw [build, if_neg (by omega), if_neg (fun k => this k.1)]

/-- An argument that is no integer, NULL included, is a panic. -/
theorem C140_make_null_fails (K : Clock) (y m : Option Int) : makeDate K [y, m, none] = .panic ∧ makeTime K [y, m, none] = .panic := by
  constructor <;> cases y <;> cases m <;> rfl

end Verif.Time
