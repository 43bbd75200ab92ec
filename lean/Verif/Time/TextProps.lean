import Verif.Time.Lemmas
import Verif.Sql.Expr

/-!
# C112: EXTRACT, and C113: literals of dates and times
-/

namespace Verif.Time

open Verif.Wire Verif.Sql

/-! ## Text -/

theorem digit_ofNat {n : Nat} (h : n < 10) : digit? (Char.ofNat (48 + n)) = some n := by
  have : ∀ n : Fin 10, digit? (Char.ofNat (48 + n.val)) = some n.val := by decide
  exact this ⟨n, h⟩

theorem number_append (acc : Nat) (s : List Char) (c : Char) :
    number? acc (s ++ [c]) = (number? acc s).bind fun a => (digit? c).bind fun d => some (a * 10 + d) := by
  induction s generalizing acc with
  | nil => simp [number?]
  | cons x xs ih =>
    simp only [List.cons_append, number?]
    cases digit? x with
    | none => rfl
    | some d => exact ih _

theorem number_fixed (w n : Nat) (h : n < 10 ^ w) : number? 0 (fixed w n) = some n := by
  induction w generalizing n with
  | zero => simp only [Nat.pow_zero] at h; obtain rfl : n = 0 := by omega
            rfl
  | succ w ih =>
    rw [fixed, number_append, ih _ (by rw [Nat.pow_succ] at h; omega), digit_ofNat (Nat.mod_lt _ (by decide))]
    simp only [Option.bind_some]
    congr 1; omega

theorem parseDate_text {known : Nat → Nat → Nat → Bool} {y m d : Nat} (hk : known y m d = true) (hy : y < 10000) (hm : m < 100) (hd : d < 100) :
    parseDate known (dateText y m d) = .ok (y, m, d) := by
  have a := number_fixed 4 y hy
  have b := number_fixed 2 m hm
  have c := number_fixed 2 d hd
  simp only [fixed, List.nil_append, List.cons_append] at a b c
  simp only [dateText, fixed, List.nil_append, List.cons_append, parseDate, a, b, c, hk, if_true]

theorem parseTime_text {h m s : Nat} (hh : h < 24) (hm : m < 60) (hs : s < 60) : parseTime (timeText h m s) = .ok (h, m, s) := by
  have a := number_fixed 2 h (by omega)
  have b := number_fixed 2 m (by omega)
  have c := number_fixed 2 s (by omega)
  simp only [fixed, List.nil_append, List.cons_append] at a b c
  simp only [timeText, fixed, List.nil_append, List.cons_append, parseTime, a, b, c, hh, hm, hs, and_self, if_true]

theorem date_small {y m d : Nat} (h : IsDate y m d) : m < 100 ∧ d < 100 := by
  obtain ⟨h1, h2, h3, h4⟩ := h
  have := h4 _ (daysInMonth_eq h1 h2)
  have : daysInMonth y m ≤ 31 := by unfold daysInMonth; split <;> (try split) <;> omega
  omega

theorem parse_text {K : Chrono} (hK : K.Right) {c : Civil} (hc : c.Valid) (hy : c.year < 10000) : parseDateTime K.known c.text = .ok c := by
  obtain ⟨hd, h1, h2, h3⟩ := hc
  have hs := date_small hd
  have a := parseDate_text (known := K.known) ((hK.known _ _ _).2 hd) hy hs.1 hs.2
  have b := parseTime_text h1 h2 h3
  have hdig : onlyDigits c.text = false := by
    simp [onlyDigits, Civil.text, dateText, digit?]
  have e10 : c.text[10]? = some ' ' := rfl
  have et : c.text.take 10 = dateText c.year c.month c.day := rfl
  have ed : c.text.drop 11 = timeText c.hour c.minute c.second := rfl
  rw [parseDateTime, hdig, if_neg (by simp), if_pos e10, et, ed, a, b]

theorem natText_digits : ∀ f n, (natText f n).all (fun c => (digit? c).isSome) = true := by
  intro f
  induction f with
  | zero => intro n; rfl
  | succ f ih =>
    intro n
    rw [natText]
    split
    · rename_i h; simp [digit_ofNat h]
    · simp [List.all_append, ih, digit_ofNat (Nat.mod_lt n (by decide : 10 > 0))]

/-! ## EXTRACT -/

/-- `EXTRACT(field FROM text)` is the field of the date and time written as text: year, month, day, hour, minute, second, quarter and day of the year always, the day of the
week but for Sundays, the epoch as far as it fits 32 bits.
Missing: operands of type TIMESTAMP, see `C112_timestamp_fails`; Sundays, see `C112_sunday_fails`; later epochs, see `C112_epoch_fails`; ISO weeks, which are `chrono`'s. -/
theorem C112_extract_partial {K : Chrono} (hK : K.Right) {c : Civil} (hc : c.Valid) (hy : c.year < 10000) {p : Part} {v : Int} (hp : part p c = some v)
    (hdow : p = .dow → v ≠ 0) (hep : p = .epoch → - 2 ^ 31 ≤ v ∧ v < 2 ^ 31) : extract K p (.text c.text) = .ok v := by
  rw [extract, parse_text hK hc hy]
  cases p <;> simp only [part, Option.some.injEq, reduceCtorEq] at hp <;> simp only [extractPart]
  case year => rw [← hp]
  case month => rw [← hp]
  case day => rw [← hp]
  case hour => rw [← hp]
  case minute => rw [← hp]
  case second => rw [← hp]
  case quarter =>
    have := hc.1.1
    rw [← hp]; congr 2; omega
  case dow =>
    have := hK.weekday _ _ _ hc.1
    have hv := hdow rfl
    refine congrArg Verif.Time.Res.ok ?_
    omega
  case doy =>
    have := hK.ordinal _ _ _ hc.1
    rw [this, ← hp]
    congr 1
    have := hc.1.2.2.1
    simp only [dayNumber, Nat.sub_self, List.take_zero, List.sum_nil]
    omega
  case epoch =>
    rw [hK.epoch c hc, hp]
    have := hep rfl
    refine congrArg Verif.Time.Res.ok ?_
    unfold wrapI32
    split <;> omega

/-- A `chrono` that is right: everything computed from the calendar. -/
def calendar : Chrono where
  known y m d := decide (1 ≤ m ∧ m ≤ 12 ∧ 1 ≤ d ∧ ((months y)[m - 1]?.all fun n => decide (d ≤ n)) = true)
  weekday y m d := (((dayNumber y m d : Int) - epochDay + 3) % 7).toNat
  isoWeek _ _ _ := 1
  ordinal y m d := ((months y).take (m - 1)).sum + d
  epoch := seconds

theorem calendar_right : calendar.Right where
  known y m d := by
    simp only [calendar, decide_eq_true_eq, IsDate]
    constructor
    · rintro ⟨h1, h2, h3, h4⟩
      refine ⟨h1, h2, h3, fun n hn => ?_⟩
      rw [hn] at h4; simpa using h4
    · rintro ⟨h1, h2, h3, h4⟩
      refine ⟨h1, h2, h3, ?_⟩
      rw [daysInMonth_eq h1 h2]
      simpa using h4 _ (daysInMonth_eq h1 h2)
  weekday y m d _ := by simp only [calendar]; omega
  ordinal _ _ _ _ := rfl
  epoch _ _ := rfl

theorem ex_valid : (⟨2024, 2, 29, 13, 5, 9⟩ : Civil).Valid := ⟨(calendar_right.known _ _ _).1 (by decide +kernel), by decide, by decide, by decide⟩

-- 2024-02-29 was a Thursday, the 60th day of its year.
example : part .dow ⟨2024, 2, 29, 13, 5, 9⟩ = some 4 ∧ part .doy ⟨2024, 2, 29, 13, 5, 9⟩ = some 60 ∧ part .epoch ⟨2024, 2, 29, 13, 5, 9⟩ = some 1709211909 := by decide +kernel
example : extract calendar .doy (.text "2024-02-29 13:05:09".toList) = .ok 60 :=
  C112_extract_partial calendar_right ex_valid (by decide) (by decide +kernel) nofun nofun

/-- No field can be extracted from a value of type TIMESTAMP: it is printed as a number of seconds, which is then not understood. -/
theorem C112_timestamp_fails (K : Chrono) (p : Part) (t : Nat) : extract K p (.timestamp t) = .err := by
  have : onlyDigits (natText (t + 1) t) = true := natText_digits _ _
  simp only [extract, parseDateTime, this, if_true]

/-- Sundays are day 7, not 0. -/
theorem C112_sunday_fails {K : Chrono} (hK : K.Right) {c : Civil} (hc : c.Valid) (hy : c.year < 10000) (hs : part .dow c = some 0) :
    extract K .dow (.text c.text) = .ok 7 := by
  rw [extract, parse_text hK hc hy]
  simp only [part, Option.some.injEq] at hs
  have := hK.weekday _ _ _ hc.1
  simp only [extractPart]
  refine congrArg Verif.Time.Res.ok ?_
  omega

example : part .dow ⟨2024, 3, 3, 0, 0, 0⟩ = some 0 := by decide +kernel

/-- From 2038-01-19 03:14:08 to 2106-02-07 06:28:15 the epoch is 2^32 too small. -/
theorem C112_epoch_fails {K : Chrono} (hK : K.Right) {c : Civil} (hc : c.Valid) (hy : c.year < 10000) (h1 : 2 ^ 31 ≤ seconds c) (h2 : seconds c < 2 ^ 32) :
    extract K .epoch (.text c.text) = .ok (seconds c - 2 ^ 32) := by
  rw [extract, parse_text hK hc hy]
  simp only [extractPart, hK.epoch c hc]
  refine congrArg Verif.Time.Res.ok ?_
  unfold wrapI32
  split <;> omega

example : 2 ^ 31 ≤ seconds ⟨2040, 1, 1, 0, 0, 0⟩ ∧ seconds ⟨2040, 1, 1, 0, 0, 0⟩ < 2 ^ 32 := by decide +kernel

/-! ## Literals -/

theorem inYear_le {y m : Nat} (h1 : 1 ≤ m) (h2 : m ≤ 12) {d : Nat} (hd : IsDate y m d) : d ≤ daysInMonth y m := hd.2.2.2 _ (daysInMonth_eq h1 h2)

theorem dayNumber_eq (y m d : Nat) : dayNumber y m d = first y m + (d - 1) := rfl

/-- A date and time that is before another has fewer seconds. -/
theorem before_seconds {a b : Civil} (ha : a.Valid) (hb : b.Valid) (h : Before a b) : seconds a < seconds b := by
  obtain ⟨⟨a1, a2, a3, a4⟩, ah, am, as⟩ := ha
  obtain ⟨⟨b1, b2, b3, b4⟩, bh, bm, bs⟩ := hb
  have hla := a4 _ (daysInMonth_eq a1 a2)
  unfold seconds
  simp only [dayNumber_eq]
  rcases h with h | ⟨e, h⟩
  · have := first_lt a1 a2 b1 b2 (.inl h); omega
  · rcases h with h | ⟨e', h⟩
    · have := first_lt a1 a2 b1 b2 (.inr ⟨e, h⟩); omega
    · rw [e, e']
      rcases h with h | ⟨e, h | ⟨e', h | ⟨e'', h⟩⟩⟩
      all_goals omega

theorem before_trichotomy {a b : Civil} (h : a ≠ b) : Before a b ∨ Before b a := by
  unfold Before
  have : ¬ (a.year = b.year ∧ a.month = b.month ∧ a.day = b.day ∧ a.hour = b.hour ∧ a.minute = b.minute ∧ a.second = b.second) := by
    rintro ⟨h1, h2, h3, h4, h5, h6⟩
    apply h
    cases a; cases b; simp_all
  omega

theorem seconds_before {a b : Civil} (ha : a.Valid) (hb : b.Valid) : seconds a < seconds b ↔ Before a b := by
  refine ⟨fun h => ?_, before_seconds ha hb⟩
  by_cases e : a = b
  · subst e; omega
  · rcases before_trichotomy e with g | g
    · exact g
    · have := before_seconds hb ha g; omega

theorem seconds_eq {a b : Civil} (ha : a.Valid) (hb : b.Valid) : seconds a = seconds b ↔ a = b := by
  refine ⟨fun h => ?_, fun h => by rw [h]⟩
  refine Decidable.byContradiction fun e => ?_
  rcases before_trichotomy e with g | g
  · have := before_seconds ha hb g; omega
  · have := before_seconds hb ha g; omega

theorem epoch_valid : (⟨1970, 1, 1, 0, 0, 0⟩ : Civil).Valid := ⟨(calendar_right.known _ _ _).1 (by decide +kernel), by decide, by decide, by decide⟩

theorem seconds_nonneg {c : Civil} (hc : c.Valid) : 0 ≤ seconds c ↔ 1970 ≤ c.year := by
  have e0 : seconds ⟨1970, 1, 1, 0, 0, 0⟩ = 0 := by decide +kernel
  have := seconds_before hc epoch_valid
  rw [e0] at this
  have hb : Before c ⟨1970, 1, 1, 0, 0, 0⟩ ↔ c.year < 1970 := by
    unfold Before
    have := hc.1.1
    have := hc.1.2.2.1
    simp only
    omega
  rw [hb] at this
  omega

theorem seconds_small {c : Civil} (hc : c.Valid) (hy : c.year < 10000) : - 2 ^ 40 < seconds c ∧ seconds c < 2 ^ 40 := by
  have e1 : daysBefore 10000 = 3652425 := by decide +kernel
  obtain ⟨⟨a1, a2, a3, a4⟩, ah, am, as⟩ := hc
  have := a4 _ (daysInMonth_eq a1 a2)
  have := inYear_lt (y := c.year) a1 a2
  have hle := daysBefore_le (y := c.year + 1) (y' := 10000) hy
  rw [daysBefore, e1] at hle
  unfold seconds
  rw [epochDay_eq, dayNumber_eq]
  unfold first
  omega

theorem asU64_small {i : Int} (h0 : 0 ≤ i) (h : i < 2 ^ 40) : (asU64 i : Int) = i := by
  unfold asU64; omega

/-- The timestamp a literal of a date and time stands for. -/
theorem timestamp_text {K : Chrono} (hK : K.Right) {c : Civil} (hc : c.Valid) (hy : c.year < 10000) : timestampLiteral K c.text = .ok (asU64 (seconds c)) := by
  have hdig : onlyDigits c.text = false := by simp [onlyDigits, Civil.text, dateText, digit?]
  simp only [timestampLiteral, hdig, Bool.false_eq_true, false_and, if_false, parse_text hK hc hy, hK.epoch c hc]

/-- The comparison of two TIMESTAMP values is that of their numbers. -/
theorem compare_timestamps (op : CmpOp) (n m : Nat) : comparison op (new (.timestamp n)) (new (.timestamp m)) = .ok (new (.boolean (op.holds (some (compare (n : Int) m))))) := by
  have hc : valCmp (.timestamp n) (.timestamp m) = some (compare (n : Int) m) := by
    simp only [valCmp, tag, atoms, lexCmp]
    cases compare (n : Int) m <;> rfl
  have he : valEq (.timestamp n) (.timestamp m) = (some (compare (n : Int) m) == some .eq) := by
    simp only [valEq, tag, atoms]
    have : compare (n : Int) m = .eq ↔ (n : Int) = m := Int.compare_eq_eq
    by_cases h : (n : Int) = m
    · rw [this.2 h, h]; simp
    · have h' : compare (n : Int) m ≠ .eq := fun e => h (this.1 e)
      have : ¬ n = m := by omega
      cases hcmp : compare (n : Int) m <;> simp_all
  cases op <;> simp [comparison, isNull, val, ty, new, newTyped, tag, compareOp, isSeq, num, sameType, CmpOp.ordering, hc, he, CmpOp.holds, ofTri, Tri.of] <;> split <;> simp_all <;> (rename_i hx; first | (revert hx; split <;> simp; done) | exact Decidable.or_iff_not_imp_left.2 hx)

/-- What the six comparisons of dates and times mean. -/
def Means (op : CmpOp) (a b : Civil) : Prop := match op with
  | .eq => a = b
  | .ne => a ≠ b
  | .lt => Before a b
  | .le => Before a b ∨ a = b
  | .gt => Before b a
  | .ge => Before b a ∨ a = b

/-- Literals `TIMESTAMP '...'` of dates from 1970 on are the seconds since 1970 and compare as the dates and times they name, with all six operators.
Missing: earlier dates, see `C113_before_1970_fails`. -/
theorem C113_timestamp_partial {K : Chrono} (hK : K.Right) {a b : Civil} (ha : a.Valid) (hb : b.Valid) (hya : 1970 ≤ a.year ∧ a.year < 10000) (hyb : 1970 ≤ b.year ∧ b.year < 10000) :
    ∃ n m, timestampLiteral K a.text = .ok n ∧ timestampLiteral K b.text = .ok m ∧ ((n : Int) = seconds a ∧ (m : Int) = seconds b) ∧
      ∀ op, ∃ r, comparison op (new (.timestamp n)) (new (.timestamp m)) = .ok (new (.boolean r)) ∧ (r = true ↔ Means op a b) := by
  have sa := seconds_small ha hya.2
  have sb := seconds_small hb hyb.2
  have na := (seconds_nonneg ha).2 hya.1
  have nb := (seconds_nonneg hb).2 hyb.1
  refine ⟨_, _, timestamp_text hK ha hya.2, timestamp_text hK hb hyb.2, ⟨asU64_small na sa.2, asU64_small nb sb.2⟩, fun op => ⟨_, compare_timestamps _ _ _, ?_⟩⟩
  rw [asU64_small na sa.2, asU64_small nb sb.2]
  unfold Means
  have h1 := seconds_before ha hb
  have h2 := seconds_before hb ha
  have h3 := seconds_eq ha hb
  have c1 := @Int.compare_eq_lt (seconds a) (seconds b)
  have c2 := @Int.compare_eq_gt (seconds a) (seconds b)
  have c3 := @Int.compare_eq_eq (seconds a) (seconds b)
  generalize compare (seconds a) (seconds b) = o at *
  cases o <;> cases op <;> simp only [CmpOp.holds, ne_eq, ← h1, ← h2, ← h3] <;> simp at c1 c2 c3 ⊢ <;> omega

theorem digit_of {d : Nat} (h : d < 10) : digit? (Char.ofNat (48 + d)) = some d := digit_ofNat h

theorem number_digits : ∀ (ds : List Nat) (acc : Nat), (∀ d ∈ ds, d < 10) →
    number? acc (ds.map fun d => Char.ofNat (48 + d)) = some (ds.foldl (fun n d => 10 * n + d) acc) := by
  intro ds
  induction ds with
  | nil => intro acc _; rfl
  | cons d ds ih =>
    intro acc h
    simp only [List.map_cons, number?, digit_of (h d (List.mem_cons_self ..)), Option.bind_some, List.foldl_cons]
    rw [ih _ (fun x hx => h x (List.mem_cons_of_mem _ hx))]
    congr 2
    omega

/-- `TIMESTAMP '1709164800'`: digits are the number of seconds they denote in decimal, if it is below 2^64, and refused otherwise. Empty text is refused. -/
theorem C113_digits (K : Chrono) (ds : List Nat) (hd : ∀ d ∈ ds, d < 10) :
    let n := ds.foldl (fun n d => 10 * n + d) 0
    timestampLiteral K (ds.map fun d => Char.ofNat (48 + d)) = if ds ≠ [] ∧ n < 2 ^ 64 then .ok n else .err := by
  have ho : onlyDigits (ds.map fun d => Char.ofNat (48 + d)) = true := by
    simp only [onlyDigits, List.all_map, List.all_eq_true, Function.comp_apply]
    intro d h
    rw [digit_of (hd d h)]; rfl
  intro n
  simp only [timestampLiteral, ho, true_and]
  cases ds with
  | nil => rfl
  | cons d ds =>
    rw [if_pos (by simp), number_digits _ _ hd]
    simp only [ne_eq, reduceCtorEq, not_false_eq_true, true_and]
    rfl

example : timestampLiteral calendar "1709164800".toList = .ok 1709164800 := by decide +kernel

/-- `DATE '...'` is the first second of the day. -/
theorem C113_date_partial {K : Chrono} (hK : K.Right) {y m d : Nat} (hd : IsDate y m d) (hy : 1970 ≤ y ∧ y < 10000) :
    ∃ n, dateLiteral K (dateText y m d) = .ok n ∧ timestampLiteral K (⟨y, m, d, 0, 0, 0⟩ : Civil).text = .ok n ∧ (n : Int) = seconds ⟨y, m, d, 0, 0, 0⟩ := by
  have hv : (⟨y, m, d, 0, 0, 0⟩ : Civil).Valid := ⟨hd, Nat.zero_lt_succ _, Nat.zero_lt_succ _, Nat.zero_lt_succ _⟩
  have hs := date_small hd
  refine ⟨asU64 (seconds ⟨y, m, d, 0, 0, 0⟩), ?_, timestamp_text hK hv hy.2, asU64_small ((seconds_nonneg hv).2 hy.1) (seconds_small hv hy.2).2⟩
  rw [dateLiteral, parseDate_text ((hK.known _ _ _).2 hd) hy.2 hs.1 hs.2]
  simp only [hK.epoch _ hv]

/-- `TIME '...'` is the number of seconds since midnight, so times of day compare in order. -/
theorem C113_time_partial {h m s : Nat} (hh : h < 24) (hm : m < 60) (hs : s < 60) : timeLiteral (timeText h m s) = .ok (3600 * h + 60 * m + s) := by
  rw [timeLiteral, parseTime_text hh hm hs]
  simp only []
  congr 1; omega

example : ∃ n, dateLiteral calendar "2024-02-29".toList = .ok n ∧ (n : Int) = 1709164800 := ⟨1709164800, by decide +kernel, rfl⟩
example : Before ⟨2024, 2, 29, 13, 5, 9⟩ ⟨2024, 3, 1, 0, 0, 0⟩ := by unfold Before; decide

/-- Every date before 1970 compares as later than every date from 1970 on: `TIMESTAMP '1969-12-31 23:59:59' > TIMESTAMP '2024-01-01 00:00:00'`. -/
theorem C113_before_1970_fails {K : Chrono} (hK : K.Right) {a b : Civil} (ha : a.Valid) (hb : b.Valid) (hya : a.year < 1970) (hyb : 1970 ≤ b.year ∧ b.year < 10000) :
    Before a b ∧ ∃ n m, timestampLiteral K a.text = .ok n ∧ timestampLiteral K b.text = .ok m ∧
      comparison .gt (new (.timestamp n)) (new (.timestamp m)) = .ok (new (.boolean true)) := by
  have sa := seconds_small ha (by omega)
  have sb := seconds_small hb hyb.2
  have nb := (seconds_nonneg hb).2 hyb.1
  have na : seconds a < 0 := by
    have := (seconds_nonneg ha)
    omega
  refine ⟨(seconds_before ha hb).1 (by omega), _, _, timestamp_text hK ha (by omega), timestamp_text hK hb hyb.2, ?_⟩
  rw [compare_timestamps, asU64_small nb sb.2]
  have : seconds b < (asU64 (seconds a) : Int) := by unfold asU64; omega
  simp [CmpOp.holds, new, newTyped, tag, Int.compare_eq_gt, this]

example : (⟨1969, 12, 31, 23, 59, 59⟩ : Civil).Valid := ⟨(calendar_right.known _ _ _).1 (by decide +kernel), by decide, by decide, by decide⟩

end Verif.Time
