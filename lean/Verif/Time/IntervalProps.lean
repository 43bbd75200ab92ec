import Verif.Time.FunctionsProps

/-!
# C141: dates and intervals
-/

namespace Verif.Time

/-! ## Reading durations -/

theorem spanDigits_text {ds : List Nat} (hd : ∀ d ∈ ds, d < 10) {c : Char} (hc : digit? c = none) (rest : List Char) :
    spanDigits (digitText ds ++ c :: rest) = (digitText ds, c :: rest) := by
  induction ds with
  | nil => simp [digitText, spanDigits, hc]
  | cons d ds ih =>
    have ih := ih fun x hx => hd x (List.mem_cons_of_mem _ hx)
    have h1 := digit_of (hd d (List.mem_cons_self ..))
    simp only [digitText, List.map_cons, List.cons_append] at ih ⊢
    simp only [spanDigits, h1, Option.isSome_some, if_true, ih]

/-- No number with this letter comes next. -/
def NoItem (x : Char) (s : List Char) : Prop := ∀ ds c r, spanDigits s = (ds, c :: r) → ds = [] ∨ c ≠ x

theorem group_none {x : Char} {s : List Char} (h : NoItem x s) : group x s = (0, s) := by
  rw [group]
  split
  · rename_i ds c r e
    rw [if_neg]
    rintro ⟨h1, h2⟩
    rcases h _ _ _ e with h | h
    · exact h1 h
    · exact h h2
  · rfl

/-- The digits of a number are digits, and there is one. -/
def Good (o : Option (List Nat)) : Prop := ∀ ds, o = some ds → ds ≠ [] ∧ ∀ d ∈ ds, d < 10

theorem noItem_item {x y : Char} (hxy : y ≠ x) (hy : digit? y = none) {o : Option (List Nat)} (ho : Good o) {s : List Char} (hs : NoItem x s) : NoItem x (item y o ++ s) := by
  cases o with
  | none => exact hs
  | some ds =>
    intro ds' c r h
    simp only [item, List.append_assoc, List.cons_append, List.nil_append] at h
    rw [spanDigits_text (ho ds rfl).2 hy] at h
    simp only [Prod.mk.injEq, List.cons.injEq] at h
    exact .inr (h.2.1 ▸ hxy)

theorem noItem_nil (x : Char) : NoItem x [] := by
  intro ds c r h
  simp [spanDigits] at h

theorem noItem_letter (x : Char) {y : Char} (hy : digit? y = none) (s : List Char) : NoItem x (y :: s) := by
  intro ds c r h
  simp only [spanDigits, hy] at h
  simp at h
  exact .inl h.1

theorem group_item {x : Char} (hx : digit? x = none) {o : Option (List Nat)} (ho : Good o) (hv : itemValue o < 2 ^ 63) {s : List Char} (hs : NoItem x s) :
    group x (item x o ++ s) = (itemValue o, s) := by
  cases o with
  | none => exact group_none hs
  | some ds =>
    have ⟨h1, h2⟩ := ho ds rfl
    simp only [item, List.append_assoc, List.cons_append, List.nil_append]
    rw [group, spanDigits_text h2 hx]
    have hne : digitText ds ≠ [] := by simpa [digitText] using h1
    have hn : number? 0 (digitText ds) = some (digitValue ds) := number_digits ds 0 h2
    simp only [hn]
    rw [if_pos ⟨hne, trivial⟩]
    simp only [itemValue] at hv ⊢
    rw [if_pos hv]

theorem group_big {x : Char} (hx : digit? x = none) {ds : List Nat} (ho : Good (some ds)) (hv : 2 ^ 63 ≤ digitValue ds) (s : List Char) :
    group x (item x (some ds) ++ s) = (0, s) := by
  have ⟨h1, h2⟩ := ho ds rfl
  simp only [item, List.append_assoc, List.cons_append, List.nil_append]
  rw [group, spanDigits_text h2 hx]
  have hne : digitText ds ≠ [] := by simpa [digitText] using h1
  have hn : number? 0 (digitText ds) = some (digitValue ds) := number_digits ds 0 h2
  simp only [hn]
  rw [if_pos ⟨hne, trivial⟩, if_neg (by omega)]

theorem ascii_digit {d : Nat} (h : d < 10) : (Char.ofNat (48 + d)).toNat < 128 := by
  have : d = 0 ∨ d = 1 ∨ d = 2 ∨ d = 3 ∨ d = 4 ∨ d = 5 ∨ d = 6 ∨ d = 7 ∨ d = 8 ∨ d = 9 := by omega
  rcases this with rfl | rfl | rfl | rfl | rfl | rfl | rfl | rfl | rfl | rfl <;> decide

theorem ascii_item {x : Char} (hx : x.toNat < 128) {o : Option (List Nat)} (ho : Good o) : ∀ c ∈ item x o, c.toNat < 128 := by
  cases o with
  | none => simp [item]
  | some ds =>
    intro c hc
    simp only [item, digitText, List.mem_append, List.mem_map, List.mem_singleton] at hc
    rcases hc with ⟨d, hd, rfl⟩ | rfl
    · exact ascii_digit ((ho ds rfl).2 d hd)
    · exact hx

theorem good_of {x : Iso} (h : x.Valid) : Good x.years ∧ Good x.months ∧ Good x.days ∧ Good x.hours ∧ Good x.minutes ∧ Good x.seconds := by
  refine ⟨?_, ?_, ?_, ?_, ?_, ?_⟩ <;> intro ds e <;> exact h.1 ds (by rw [← e]; simp)

theorem ascii_text {x : Iso} (h : x.Valid) : (x.text.any fun c => 128 ≤ c.toNat) = false := by
  obtain ⟨g1, g2, g3, g4, g5, g6⟩ := good_of h
  rw [List.any_eq_false]
  intro c hc
  have hlt : c.toNat < 128 := by
    simp only [Iso.text, List.mem_append] at hc
    rcases hc with (((hc | hc) | hc) | hc) | hc
    · simp only [List.mem_singleton] at hc; subst hc; decide
    · exact ascii_item (by decide) g1 c hc
    · exact ascii_item (by decide) g2 c hc
    · exact ascii_item (by decide) g3 c hc
    · split at hc
      · simp only [List.mem_append, List.mem_singleton] at hc
        rcases hc with ((rfl | hc) | hc) | hc
        · decide
        · exact ascii_item (by decide) g4 c hc
        · exact ascii_item (by decide) g5 c hc
        · exact ascii_item (by decide) g6 c hc
      · cases hc
  simp only [decide_eq_true_eq]; omega

/-- What the text of a duration is read as: each number as it is, or 0 from 2^63 on. -/
def readValue (o : Option (List Nat)) : Nat := if itemValue o < 2 ^ 63 then itemValue o else 0

theorem group_read {x : Char} (hx : digit? x = none) {o : Option (List Nat)} (ho : Good o) {s : List Char} (hs : NoItem x s) : group x (item x o ++ s) = (readValue o, s) := by
  unfold readValue
  split
  · exact group_item hx ho (by assumption) hs
  · rename_i h
    cases o with
    | none => exact absurd (by decide) h
    | some ds => exact group_big hx ho (by simpa [itemValue] using h) s

theorem parse_iso {x : Iso} (h : x.Valid) : parseDuration x.text =
    duration (readValue x.years) (readValue x.months) (readValue x.days) (readValue x.hours) (readValue x.minutes) (readValue x.seconds) := by
  obtain ⟨g1, g2, g3, g4, g5, g6⟩ := good_of h
  have ha := ascii_text h
  have hT : ∀ c, NoItem c (if x.time then ['T'] ++ item 'H' x.hours ++ item 'M' x.minutes ++ item 'S' x.seconds else []) := by
    intro c
    split
    · exact noItem_letter c (by decide) _
    · exact noItem_nil c
  have e1 : x.text = 'P' :: (item 'Y' x.years ++ (item 'M' x.months ++ (item 'D' x.days ++
      (if x.time then ['T'] ++ item 'H' x.hours ++ item 'M' x.minutes ++ item 'S' x.seconds else [])))) := by
    simp [Iso.text]
  rw [e1] at ha ⊢
  unfold parseDuration
  rw [ha, if_neg (by simp)]
  simp only
  rw [group_read (by decide) g1 (noItem_item (by decide) (by decide) g2 (noItem_item (by decide) (by decide) g3 (hT _)))]
  simp only
  rw [group_read (by decide) g2 (noItem_item (by decide) (by decide) g3 (hT _))]
  simp only
  rw [group_read (by decide) g3 (hT _)]
  simp only
  cases ht : x.time with
  | false =>
    obtain ⟨n1, n2, n3⟩ := h.2 ht
    simp only [Bool.false_eq_true, if_false, n1, n2, n3]
    rfl
  | true =>
    simp only [if_true, List.append_assoc, List.cons_append, List.nil_append]
    rw [group_read (by decide) g4 (noItem_item (by decide) (by decide) g5 (by
      have := noItem_item (x := 'H') (y := 'S') (by decide) (by decide) g6 (noItem_nil 'H')
      simpa using this))]
    simp only
    rw [group_read (by decide) g5 (by
      have := noItem_item (x := 'M') (y := 'S') (by decide) (by decide) g6 (noItem_nil 'M')
      simpa using this)]
    simp only
    have := group_read (x := 'S') (by decide) g6 (noItem_nil 'S')
    rw [List.append_nil] at this
    rw [this]
    simp

theorem read_rough {x : Iso} (h : x.Valid) (hb : x.rough ≤ maxDuration) : parseDuration x.text = .ok x.rough := by
  unfold maxDuration at hb
  have hr : x.rough = 86400 * (365 * itemValue x.years + 30 * itemValue x.months) +
    (86400 * itemValue x.days + 3600 * itemValue x.hours + 60 * itemValue x.minutes + itemValue x.seconds) := rfl
  have rv : ∀ o, itemValue o < 2 ^ 63 → readValue o = itemValue o := fun o h => if_pos h
  rw [parse_iso h, rv _ (by omega), rv _ (by omega), rv _ (by omega), rv _ (by omega), rv _ (by omega), rv _ (by omega), duration]
  rw [if_neg (by omega), if_neg (by unfold maxDuration; omega)]
  refine congrArg Res.ok ?_
  omega

/-! ## Moments and intervals -/

theorem shiftBy_of {K : Clock} (hK : K.Right) {a : Arg} {c r : Civil} (ha : Denotes a c) (hc : c.Valid) (hy : c.year < 10000) {x : Iso} (hx : x.Valid) (hb : x.rough ≤ maxDuration)
    {sg : Sign} (hr : r.Valid) (hry : r.year < 10000) (e : seconds r = seconds c + (match sg with | .add => x.rough | .subtract => - x.rough)) :
    shiftBy K sg a x.text = .ok (.moment r.rfc) := by
  have hs := hK.shift c _ r hc hr hry e
  rw [shiftBy, moment_of hK ha hc hy]
  show ((parseDuration x.text).bind _) = _
  rw [read_rough hx hb]
  cases sg <;> simp only [Res.bind] at hs ⊢ <;> rw [hs] <;> simp only <;> rw [format_eq hry]

theorem sumOf_shift {K : Clock} {a : Arg} {c : Civil} (ha : Denotes a c) (sg : Sign) (iv : List Char) : sumOf K sg a (.text iv) = shiftBy K sg a iv := by
  rcases ha with rfl | ⟨t, rfl, _⟩ <;> cases sg <;> rfl

/-- A length of days, hours, minutes and seconds is all of a duration that has no years and months. -/
theorem rough_exact {x : Iso} (hy : x.years = none) (hm : x.months = none) : x.rough = x.exact := by
  unfold Iso.rough; rw [hy, hm]; simp [itemValue]

/-- A moment plus (minus) an interval of days, hours, minutes and seconds is the moment that many seconds later (earlier).
Missing: intervals with years and months, see `C141_months_fails`; results outside the years 0 to 9999; intervals of more than 292 million years, which panic. -/
theorem C141_shift_partial {K : Clock} (hK : K.Right) {a : Arg} {c r : Civil} (ha : Denotes a c) (hc : c.Valid) (hy : c.year < 10000) {x : Iso} (hx : x.Valid)
    (hyears : x.years = none) (hmonths : x.months = none) (hb : x.exact ≤ 9223372036854775) (hr : r.Valid) (hry : r.year < 10000) :
    (seconds r = seconds c + x.exact → sumOf K .add a (.text x.text) = .ok (.moment r.rfc)) ∧
    (seconds r = seconds c - x.exact → sumOf K .subtract a (.text x.text) = .ok (.moment r.rfc)) := by
  have e := rough_exact hyears hmonths
  rw [sumOf_shift ha, sumOf_shift ha]
  refine ⟨fun h => shiftBy_of hK ha hc hy hx (by rw [e]; exact hb) hr hry ?_, fun h => shiftBy_of hK ha hc hy hx (by rw [e]; exact hb) hr hry ?_⟩
  · rw [e]; exact h
  · rw [e]; simp only; omega

/-- An interval can be added to a timestamp from either side. -/
theorem C141_sides {K : Clock} (t : Nat) (iv : List Char) : sumOf K .add (.text iv) (.timestamp t) = sumOf K .add (.timestamp t) (.text iv) := rfl

/-- Adding an interval and subtracting it again, or the other way round, gives the moment back: for all intervals, years and months included, as long as the moment in between is in
the years 0 to 9999. -/
theorem C141_back_partial {K : Clock} (hK : K.Right) {a : Arg} {c r : Civil} (ha : Denotes a c) (hc : c.Valid) (hy : c.year < 10000) {x : Iso} (hx : x.Valid)
    (hb : x.rough ≤ 9223372036854775) (hr : r.Valid) (hry : r.year < 10000) :
    (seconds r = seconds c + x.rough → ∃ s, sumOf K .add a (.text x.text) = .ok (.moment s) ∧ sumOf K .subtract (.text s) (.text x.text) = .ok (.moment c.rfc)) ∧
    (seconds r = seconds c - x.rough → ∃ s, sumOf K .subtract a (.text x.text) = .ok (.moment s) ∧ sumOf K .add (.text s) (.text x.text) = .ok (.moment c.rfc)) := by
  refine ⟨fun h => ⟨r.rfc, ?_, ?_⟩, fun h => ⟨r.rfc, ?_, ?_⟩⟩
  · rw [sumOf_shift ha]; exact shiftBy_of hK ha hc hy hx hb hr hry (by simp only; omega)
  · rw [sumOf_shift (c := r) (.inl rfl)]; exact shiftBy_of hK (.inl rfl) hr hry hx hb hc hy (by simp only; omega)
  · rw [sumOf_shift ha]; exact shiftBy_of hK ha hc hy hx hb hr hry (by simp only; omega)
  · rw [sumOf_shift (c := r) (.inl rfl)]; exact shiftBy_of hK (.inl rfl) hr hry hx hb hc hy (by simp only; omega)

-- A day and a half after noon of the 28th of February 2024, and back.
example : sumOf clock .add (.text "2024-02-28T12:00:00Z".toList) (.text "P1DT12H".toList) = .ok (.moment "2024-03-01T00:00:00Z".toList) ∧
    sumOf clock .subtract (.timestamp 1709251200) (.text "P1DT12H".toList) = .ok (.moment "2024-02-28T12:00:00Z".toList) := by decide +kernel
example : (⟨none, none, some [1], true, some [1, 2], none, none⟩ : Iso).text = "P1DT12H".toList ∧ (⟨none, none, some [1], true, some [1, 2], none, none⟩ : Iso).exact = 129600 := by decide +kernel
example : (⟨none, none, some [1], true, some [1, 2], none, none⟩ : Iso).Valid := by
  refine ⟨fun ds h => ?_, nofun⟩
  simp only [List.mem_cons, List.not_mem_nil, or_false, reduceCtorEq, false_or, Option.some.injEq] at h
  rcases h with rfl | rfl <;> decide

/-- The difference of two timestamps is the number of seconds between them. -/
theorem C141_difference_partial {K : Clock} (hK : K.Right) {a : Arg} {c d : Civil} {t : Nat} (ha : Denotes a c) (hc : c.Valid) (hy : c.year < 10000) (hd : d.Valid) (hyd : d.year < 10000)
    (ht : seconds d = t) : sumOf K .subtract a (.timestamp t) = .ok (.span (seconds c - seconds d)) := by
  have h1 := moment_of hK ha hc hy
  have h2 := moment_of hK (a := .timestamp t) (.inr ⟨t, rfl, ht⟩) hd hyd
  have e : sumOf K .subtract a (.timestamp t) = (moment K a).bind fun x => (moment K (.timestamp t)).bind fun y => .ok (.span (K.epoch x - K.epoch y)) := by
    rcases ha with rfl | ⟨s, rfl, _⟩ <;> rfl
  rw [e, h1, h2]
  show Res.ok (Sum.span (K.epoch c - K.epoch d)) = _
  rw [hK.chrono.epoch c hc, hK.chrono.epoch d hd]

example : sumOf clock .subtract (.text "2024-02-29T00:00:01Z".toList) (.timestamp 1709164800) = .ok (.span 1) := by decide +kernel

/-! ## What goes wrong -/

/-- A month is 30 days and a year 365: one month after the 31st of January 2024 is the 1st of March, and one year after new year is new year's eve. -/
theorem C141_months_fails : sumOf clock .add (.text "2024-01-31T00:00:00Z".toList) (.text "P1M".toList) = .ok (.moment "2024-03-01T00:00:00Z".toList) ∧
    sumOf clock .add (.text "2024-01-15T00:00:00Z".toList) (.text "P1M".toList) = .ok (.moment "2024-02-14T00:00:00Z".toList) ∧
    sumOf clock .add (.text "2024-01-01T00:00:00Z".toList) (.text "P1Y".toList) = .ok (.moment "2024-12-31T00:00:00Z".toList) := by decide +kernel

theorem rfc_ascii (c : Civil) : (c.rfc.any fun c => 128 ≤ c.toNat) = false := by
  have hf : ∀ w n, ∀ x ∈ fixed w n, x.toNat < 128 := by
    intro w
    induction w with
    | zero => intro n x hx; cases hx
    | succ w ih =>
      intro n x hx
      simp only [fixed, List.mem_append, List.mem_singleton] at hx
      rcases hx with hx | rfl
      · exact ih _ _ hx
      · exact ascii_digit (Nat.mod_lt _ (by decide))
  rw [List.any_eq_false]
  intro x hx
  have : x.toNat < 128 := by
    simp only [Civil.rfc, dateText, timeText, List.mem_append, List.mem_singleton] at hx
    rcases hx with (((((((hx | rfl) | hx) | rfl) | hx) | rfl) | (((hx | rfl) | hx) | rfl) | hx) | rfl) <;> first | exact hf _ _ _ hx | decide
  simp only [decide_eq_true_eq]; omega

theorem rfc_not_duration (c : Civil) : parseDuration c.rfc = .err := by
  unfold parseDuration
  rw [rfc_ascii, if_neg (by simp)]
  have : ∃ d s, c.rfc = d :: s ∧ d = Char.ofNat (48 + c.year / 1000 % 10) := ⟨_, _, rfl, by simp [Nat.div_div_eq_div_mul]⟩
  obtain ⟨d, s, e, hd⟩ := this
  rw [e]
  have hne : d ≠ 'P' := by
    rw [hd]
    have hl : c.year / 1000 % 10 < 10 := Nat.mod_lt _ (by decide)
    generalize c.year / 1000 % 10 = k at hl
    have : k = 0 ∨ k = 1 ∨ k = 2 ∨ k = 3 ∨ k = 4 ∨ k = 5 ∨ k = 6 ∨ k = 7 ∨ k = 8 ∨ k = 9 := by omega
    rcases this with rfl | rfl | rfl | rfl | rfl | rfl | rfl | rfl | rfl | rfl <;> decide
  split
  · rename_i h; simp only [List.cons.injEq] at h; exact absurd h.1 hne
  · rfl

/-- The difference of two moments is an error when the second is given as text. -/
theorem C141_text_difference_fails {K : Clock} (hK : K.Right) {a : Arg} {c : Civil} (ha : Denotes a c) (hc : c.Valid) (hy : c.year < 10000) (d : Civil) :
    sumOf K .subtract a (.text d.rfc) = .err := by
  rw [sumOf_shift ha, shiftBy, moment_of hK ha hc hy]
  show (parseDuration d.rfc).bind _ = _
  rw [rfc_not_duration]; rfl

/-- Adding an interval from the left to a moment is an error when the moment is given as text. -/
theorem C141_left_fails (K : Clock) (x : Iso) (s : List Char) : sumOf K .add (.text x.text) (.text s) = .err := by
  have : parseRfc K.known x.text = .err := by
    rw [parseRfc, if_pos]
    show (digit? 'P').isNone = true
    decide
  show shiftBy K .add (.text x.text) s = _
  rw [shiftBy, show moment K (.text x.text) = .err from this]; rfl

/-- A number of 2^63 or more in an interval counts as 0, without an error. -/
theorem C141_big_fails {K : Clock} (hK : K.Right) {a : Arg} {c : Civil} (ha : Denotes a c) (hc : c.Valid) (hy : c.year < 10000) {ds : List Nat} (hne : ds ≠ []) (hd : ∀ d ∈ ds, d < 10)
    (hb : 2 ^ 63 ≤ digitValue ds) : sumOf K .add a (.text (⟨none, none, some ds, false, none, none, none⟩ : Iso).text) = .ok (.moment c.rfc) := by
  have hx : (⟨none, none, some ds, false, none, none, none⟩ : Iso).Valid := by
    refine ⟨fun e h => ?_, fun _ => ⟨rfl, rfl, rfl⟩⟩
    simp only [List.mem_cons, List.not_mem_nil, or_false, reduceCtorEq, false_or, Option.some.injEq] at h
    subst h; exact ⟨hne, hd⟩
  rw [sumOf_shift ha, shiftBy, moment_of hK ha hc hy]
  show (parseDuration _).bind _ = _
  rw [parse_iso hx]
  have r0 : readValue none = 0 := by decide
  have r1 : readValue (some ds) = 0 := by
    rw [readValue, if_neg]; simpa [itemValue] using hb
  simp only [r0, r1]
  have h0 : duration 0 0 0 0 0 0 = .ok 0 := by decide
  rw [h0]
  have := hK.shift c 0 c hc hc hy (by omega)
  simp only [Res.bind, Int.natCast_zero]
  rw [this]
  simp only
  rw [format_eq hy]

example : sumOf clock .add (.text "2024-02-28T12:00:00Z".toList) (.text "P9223372036854775808D".toList) = .ok (.moment "2024-02-28T12:00:00Z".toList) := by decide +kernel

end Verif.Time
