import Verif.Sql.Display
import Verif.Sql.ArithProps
import Verif.Time.TextProps

/-!
# C132: The text shown for a value is its notation and tells it from other values

`Says v s`: the text `s` is the usual notation of `v`. A notation has at most one value of a given type.
-/

namespace Verif.Sql

open Verif.Wire Verif.Bytes

/-! ## Specification -/

/-- Decimal notation: digits, with a minus sign before them for a negative number. -/
def Numeral (i : Int) (s : List Byte) : Prop :=
  (0 ≤ i ∧ s ≠ [] ∧ digits 0 s = some i.toNat) ∨ (i < 0 ∧ ∃ ds, s = 45 :: ds ∧ ds ≠ [] ∧ digits 0 ds = some (-i).toNat)

/-- Two digits. -/
def Two (n : Nat) (s : List Byte) : Prop := ∃ a b : Byte, s = [a, b] ∧ digits 0 [a, b] = some n

/-- Hours, minutes and seconds as in `07:05:00`. -/
def Clock (h m c : Nat) (s : List Byte) : Prop := m < 60 ∧ c < 60 ∧ ∃ x y z, s = x ++ lit ":" ++ y ++ lit ":" ++ z ∧ Two h x ∧ Two m y ∧ Two c z

/-- Hexadecimal notation of a byte. -/
def HexByte (b : Byte) (s : List Byte) : Prop :=
  ∃ x y : Nat, x < 16 ∧ y < 16 ∧ b.val = 16 * x + y ∧ (lit "0123456789abcdef")[x]? = s[0]? ∧ (lit "0123456789abcdef")[y]? = s[1]? ∧ s.length = 2

/-- Hexadecimal notation of bytes, one after the other. -/
def HexBytes : List Byte → List Byte → Prop
  | [], s => s = []
  | b :: bs, s => ∃ h r, s = h ++ r ∧ HexByte b h ∧ HexBytes bs r

/-- The text is the notation of the value: `true` and `false`, decimal numbers, texts as they are, `CHAR` texts with spaces after them, times of day, lengths of time
as days, hours, minutes and seconds, calendar dates, bytes in hexadecimal. -/
def Says : Val → List Byte → Prop
  | .boolean b, s => s = lit (if b then "true" else "false")
  | .tinyInt i, s | .smallInt i, s | .integer i, s | .bigInt i, s => Numeral i s
  | .timestamp n, s => Numeral n s
  | .varLen t, s | .json t, s | .uuid t, s => s = t
  | .constLen t, s => ∃ k, s = t ++ List.replicate k 32
  | .time i, s => ∃ h m c : Nat, h < 24 ∧ i = 3600 * h + 60 * m + c ∧ Clock h m c s
  | .interval i, s => ∃ d h m c : Nat, h < 24 ∧ (i.natAbs : Nat) = 86400 * d + 3600 * h + 60 * m + c ∧ ∃ sg ds cl,
      s = sg ++ ds ++ cl ∧ sg = (if i < 0 then lit "-" else []) ∧ (if d = 0 then ds = [] else ∃ n, ds = n ++ lit " days " ∧ n ≠ [] ∧ digits 0 n = some d) ∧ Clock h m c cl
  | .date i, s => ∃ y m d : Nat, y < 10000 ∧ Time.IsDate y m d ∧ i = (Time.dayNumber y m d : Int) - Time.epochDay ∧
      ∃ a b x z, s = a ++ b ++ lit "-" ++ x ++ lit "-" ++ z ∧ Two (y / 100) a ∧ Two (y % 100) b ∧ Two m x ∧ Two d z
  | .binary b, s => ∃ hs, s = lit "\\x" ++ hs ∧ HexBytes b hs
  | _, _ => False

/-- `chrono` counts days in the Gregorian calendar, and knows the years from 1970 to 9999. -/
structure Printers.Right (P : Printers) : Prop where
  sound : ∀ n y m d, P.dateAfter n = some (y, m, d) → Time.IsDate y m d ∧ Time.dayNumber y m d = Time.epochDay + n
  total : ∀ y m d, Time.IsDate y m d → 1970 ≤ y → y < 10000 → ∃ r, P.dateAfter (Time.dayNumber y m d - Time.epochDay) = some r
  range : ∀ n, 2 ^ 63 ≤ n → P.dateAfter n = none

/-- A character of a text, for counting. -/
def charCount (s : List Byte) : Nat := (s.filter isLead).length

/-- The values whose notation is claimed to be shown: those of the variants above, of the type of their variant, with dates from 1970 to 9999, times within a day,
`CHAR` texts of at most 255 characters, and intervals other than the least. -/
def Showable : Value → Prop
  | .mk v _ _ t _ => t = tag v ∧ match v with
    | .boolean _ | .tinyInt _ | .smallInt _ | .integer _ | .bigInt _ | .timestamp _ | .varLen _ | .json _ | .uuid _ | .binary _ => True
    | .constLen s => charCount s ≤ 255
    | .time i => 0 ≤ i ∧ i < 86400
    | .interval i => i ≠ - 2 ^ 63
    | .date i => ∃ y m d : Nat, 1970 ≤ y ∧ y < 10000 ∧ Time.IsDate y m d ∧ i = (Time.dayNumber y m d : Int) - Time.epochDay
    | _ => False

/-! ## What is shown is the notation -/

theorem digits_pair {n : Nat} (h : n < 100) : digits 0 (pad2 n) = some n := by
  have : ∀ n : Fin 100, digits 0 (pad2 n.val) = some n.val := by decide +kernel
  exact this ⟨n, h⟩

theorem two_pad2 {n : Nat} (h : n < 100) : Two n (pad2 n) := ⟨_, _, rfl, digits_pair h⟩

theorem natStr_ne_nil {f n : Nat} (h : n < f) : natStr f n ≠ [] := by
  obtain ⟨b, bs, e, _⟩ := natStr_head f n h
  rw [e]; exact List.cons_ne_nil _ _

theorem numeral_natStr (n : Nat) : Numeral (n : Int) (natStr (n + 1) n) :=
  .inl ⟨by omega, natStr_ne_nil (by omega), by rw [digits_natStr _ _ (by omega)]; rfl⟩

theorem numeral_intStr (i : Int) : Numeral i (intStr i) := by
  unfold intStr
  by_cases h : i < 0
  · rw [if_pos h]
    refine .inr ⟨h, _, rfl, natStr_ne_nil (by omega), ?_⟩
    rw [digits_natStr _ _ (by omega)]; congr 1; omega
  · rw [if_neg h]
    refine .inl ⟨by omega, natStr_ne_nil (by omega), ?_⟩
    rw [digits_natStr _ _ (by omega)]; congr 1; omega

theorem clock_says {h m c : Nat} (hh : h < 100) (hm : m < 60) (hc : c < 60) : Clock h m c (clock h m c) :=
  ⟨hm, hc, _, _, _, rfl, two_pad2 hh, two_pad2 (by omega), two_pad2 (by omega)⟩

theorem takeChars_all : ∀ (s : List Byte) (n : Nat), charCount s ≤ n → takeChars n s = s := by
  intro s
  induction s with
  | nil => intro n _; cases n <;> rfl
  | cons b s ih =>
    intro n h
    cases hl : isLead b with
    | true =>
      have hc : charCount (b :: s) = charCount s + 1 := by simp [charCount, hl]
      cases n with
      | zero => omega
      | succ n => simp only [takeChars, hl, if_true]; rw [ih n (by omega)]
    | false =>
      have hc : charCount (b :: s) = charCount s := by simp [charCount, hl]
      cases n with
      | zero => simp only [takeChars, hl]; rw [ih 0 (by omega)]; rfl
      | succ n => simp only [takeChars, hl]; rw [show (if (false : Bool) = true then n else n + 1) = n + 1 from rfl, ih (n + 1) (by omega)]

theorem hex_says (b : Byte) : HexByte b [hexDigit (b.val / 16), hexDigit (b.val % 16)] := by
  have : ∀ b : Byte, (lit "0123456789abcdef")[b.val / 16]? = some (hexDigit (b.val / 16)) ∧ (lit "0123456789abcdef")[b.val % 16]? = some (hexDigit (b.val % 16)) := by
    decide +kernel
  exact ⟨b.val / 16, b.val % 16, by have := b.isLt; omega, Nat.mod_lt _ (by decide), by omega, (this b).1, (this b).2, rfl⟩

theorem hexes_says (bs : List Byte) : HexBytes bs (hex bs) := by
  induction bs with
  | nil => rfl
  | cons b bs ih => exact ⟨_, hex bs, rfl, hex_says b, ih⟩

theorem date_eq {y m d y' m' d' : Nat} (h : Time.IsDate y m d) (h' : Time.IsDate y' m' d') (e : Time.dayNumber y m d = Time.dayNumber y' m' d') :
    y = y' ∧ m = m' ∧ d = d' := by
  have v : (⟨y, m, d, 0, 0, 0⟩ : Time.Civil).Valid := ⟨h, Nat.zero_lt_succ _, Nat.zero_lt_succ _, Nat.zero_lt_succ _⟩
  have v' : (⟨y', m', d', 0, 0, 0⟩ : Time.Civil).Valid := ⟨h', Nat.zero_lt_succ _, Nat.zero_lt_succ _, Nat.zero_lt_succ _⟩
  have := (Time.seconds_eq v v').1 (by simp only [Time.seconds, e])
  injection this with a b c; exact ⟨a, b, c⟩

theorem epoch_le {y m d : Nat} (h : Time.IsDate y m d) (hy : 1970 ≤ y) : Time.epochDay ≤ Time.dayNumber y m d := by
  have v : (⟨y, m, d, 0, 0, 0⟩ : Time.Civil).Valid := ⟨h, Nat.zero_lt_succ _, Nat.zero_lt_succ _, Nat.zero_lt_succ _⟩
  have := (Time.seconds_nonneg v).2 hy
  unfold Time.seconds at this
  simp only at this
  omega

theorem says_date {P : Printers} (hP : P.Right) {y m d : Nat} (h0 : 1970 ≤ y) (hy : y < 10000) (hd : Time.IsDate y m d) :
    dateText P ((Time.dayNumber y m d : Int) - Time.epochDay) = yearText y ++ [45] ++ pad2 m ++ [45] ++ pad2 d := by
  have hle := epoch_le hd h0
  obtain ⟨⟨y', m', d'⟩, hr⟩ := hP.total y m d hd h0 hy
  obtain ⟨h1, h2⟩ := hP.sound _ _ _ _ hr
  obtain ⟨rfl, rfl, rfl⟩ := date_eq hd h1 (by omega)
  unfold dateText
  rw [if_pos (by omega), show ((Time.dayNumber y m d : Int) - Time.epochDay).toNat = Time.dayNumber y m d - Time.epochDay by omega, hr]

/-- **C132**, in part: the text shown for a value is its notation: `true` or `false`, the number in decimal, the text itself (with spaces after it if it is a `CHAR`), the
time of day, the length of time, the calendar date or the bytes. Nothing is claimed of floats, points, enumerations, arrays (see `C132_array_partial`) and structures.
Missing, because false of the code: `CHAR` texts of more than 255 characters, dates before 1970 and the least interval. -/
theorem C132_shown_partial {P : Printers} (hP : P.Right) {v : Value} (hv : Showable v) : ∃ s, display P v = some s ∧ Says (val v) s := by
  obtain ⟨v, sz, mg, t, fs⟩ := v
  obtain ⟨rfl, hv⟩ := hv
  cases v <;> simp only [tag] at hv ⊢ <;> simp only [display, val, if_true]
  case boolean b => exact ⟨_, rfl, rfl⟩
  case tinyInt i => exact ⟨_, rfl, numeral_intStr i⟩
  case smallInt i => exact ⟨_, rfl, numeral_intStr i⟩
  case integer i => exact ⟨_, rfl, numeral_intStr i⟩
  case bigInt i => exact ⟨_, rfl, numeral_intStr i⟩
  case timestamp n => exact ⟨_, rfl, numeral_natStr n⟩
  case date i =>
    obtain ⟨y, m, d, h0, hy, hd, he⟩ := hv
    refine ⟨yearText y ++ [45] ++ pad2 m ++ [45] ++ pad2 d, by rw [he, says_date hP h0 hy hd], ?_⟩
    obtain ⟨hm, hd'⟩ := Time.date_small hd
    refine ⟨y, m, d, hy, hd, he, pad2 (y / 100), pad2 (y % 100), pad2 m, pad2 d, ?_, two_pad2 (by omega), two_pad2 (Nat.mod_lt _ (by decide)), two_pad2 hm, two_pad2 hd'⟩
    rw [yearText, if_pos hy]
    rfl
  case time i =>
    obtain ⟨h0, h1⟩ := hv
    refine ⟨_, rfl, i.toNat / 3600, i.toNat % 3600 / 60, i.toNat % 60, by omega, by omega, ?_⟩
    rw [timeText, if_pos ⟨h0, h1⟩]
    exact clock_says (by omega) (by omega) (Nat.mod_lt _ (by decide))
  case interval i =>
    refine ⟨_, by rw [intervalText, if_neg hv], i.natAbs / 86400, i.natAbs % 86400 / 3600, i.natAbs % 3600 / 60, i.natAbs % 60, by omega, by omega, _, _, _, rfl, ?_, ?_,
      clock_says (by omega) (by omega) (Nat.mod_lt _ (by decide))⟩
    · rfl
    · by_cases hd : i.natAbs / 86400 = 0
      · rw [if_pos hd, if_neg (by omega)]
      · rw [if_neg hd, if_pos (by omega)]
        exact ⟨_, rfl, natStr_ne_nil (by omega), digits_natStr _ _ (by omega)⟩
  case varLen s => exact ⟨_, rfl, rfl⟩
  case constLen s =>
    refine ⟨_, rfl, 255 - s.length, ?_⟩
    rw [if_neg (by decide), normalize, takeChars_all s 255 hv]
  case binary s => exact ⟨_, rfl, _, rfl, hexes_says s⟩
  case json s => exact ⟨_, rfl, rfl⟩
  case uuid s => exact ⟨_, rfl, rfl⟩

/-- There are such libraries. -/
theorem right_exists : ∃ P : Printers, P.Right := by
  classical
  refine ⟨⟨fun _ => [], fun _ => [], fun n => if h : n < 2 ^ 63 ∧ ∃ c : Nat × Nat × Nat, Time.IsDate c.1 c.2.1 c.2.2 ∧ Time.dayNumber c.1 c.2.1 c.2.2 = Time.epochDay + n
    then some h.2.choose else none⟩, ?_, ?_, ?_⟩
  · intro n y m d h
    simp only at h
    split at h
    next hc => injection h with h; have := hc.2.choose_spec; rw [h] at this; exact this
    next => cases h
  · intro y m d hd h0 hy
    have hle := epoch_le hd h0
    have hs := (Time.seconds_small (c := ⟨y, m, d, 0, 0, 0⟩) ⟨hd, Nat.zero_lt_succ _, Nat.zero_lt_succ _, Nat.zero_lt_succ _⟩ hy).2
    simp only [Time.seconds] at hs
    have hc : Time.dayNumber y m d - Time.epochDay < 2 ^ 63 ∧ ∃ c : Nat × Nat × Nat, Time.IsDate c.1 c.2.1 c.2.2 ∧ Time.dayNumber c.1 c.2.1 c.2.2 =
        Time.epochDay + (Time.dayNumber y m d - Time.epochDay) := ⟨by omega, (y, m, d), hd, by simp only; omega⟩
    generalize Time.dayNumber y m d - Time.epochDay = n at hc
    exact ⟨_, dif_pos hc⟩
  · intro n hn
    exact dif_neg (fun h => by omega)

theorem leap_day : Time.IsDate 2024 2 29 := Time.ex_valid.1

theorem showable_date {y m d : Nat} {i : Int} (h0 : 1970 ≤ y) (hy : y < 10000) (hd : Time.IsDate y m d) (he : i = (Time.dayNumber y m d : Int) - Time.epochDay) :
    Showable (new (.date i)) := ⟨rfl, y, m, d, h0, hy, hd, he⟩

-- A leap day, a negative number, 26 hours, two letters that need two bytes each in a CHAR, and bytes.
example : Showable (new (.date ((Time.dayNumber 2024 2 29 : Int) - Time.epochDay))) ∧ Showable (new (.bigInt (-42))) ∧ Showable (new (.interval 93784))
    ∧ Showable (new (.constLen [195, 164, 195, 182])) ∧ Showable (new (.binary [0, 255])) :=
  ⟨showable_date (by decide) (by decide) leap_day (Eq.refl _), ⟨rfl, trivial⟩, ⟨rfl, by decide⟩, ⟨rfl, by decide⟩, ⟨rfl, trivial⟩⟩

/-! ## A notation has one value -/

theorem numeral_unique {i j : Int} {s : List Byte} (h : Numeral i s) (h' : Numeral j s) : i = j := by
  have bad : ∀ (ds : List Byte) n, digits 0 (45 :: ds) = some n → False := by
    intro ds n e; simp only [digits] at e; rw [if_neg (by decide)] at e; cases e
  rcases h with ⟨h1, _, h3⟩ | ⟨h1, ds, rfl, _, h3⟩ <;> rcases h' with ⟨g1, _, g3⟩ | ⟨g1, es, e, _, g3⟩
  · rw [h3] at g3; injection g3; omega
  · subst e; exact (bad _ _ h3).elim
  · exact (bad _ _ g3).elim
  · injection e with _ e; subst e; rw [h3] at g3; injection g3; omega

theorem two_unique {n m : Nat} {s : List Byte} (h : Two n s) (h' : Two m s) : n = m := by
  obtain ⟨a, b, rfl, h⟩ := h
  obtain ⟨a', b', e, h'⟩ := h'
  injection e with e1 e2; injection e2 with e2 _
  subst e1 e2; rw [h] at h'; injection h'

theorem two_length {n : Nat} {s : List Byte} (h : Two n s) : s.length = 2 := by obtain ⟨a, b, rfl, _⟩ := h; rfl

theorem clock_length {h m c : Nat} {s : List Byte} (x : Clock h m c s) : s.length = 8 := by
  obtain ⟨_, _, x, y, z, rfl, hx, hy, hz⟩ := x
  simp [two_length hx, two_length hy, two_length hz, lit]

theorem clock_unique {h m c h' m' c' : Nat} {s : List Byte} (x : Clock h m c s) (x' : Clock h' m' c' s) : h = h' ∧ m = m' ∧ c = c' := by
  obtain ⟨_, _, x, y, z, rfl, hx, hy, hz⟩ := x
  obtain ⟨_, _, x', y', z', e, hx', hy', hz'⟩ := x'
  obtain ⟨e, e3⟩ := List.append_inj' e (by rw [two_length hz, two_length hz'])
  obtain ⟨e, _⟩ := List.append_inj' e rfl
  obtain ⟨e, e2⟩ := List.append_inj' e (by rw [two_length hy, two_length hy'])
  obtain ⟨e1, _⟩ := List.append_inj' e rfl
  subst e1 e2 e3
  exact ⟨two_unique hx hx', two_unique hy hy', two_unique hz hz'⟩

theorem hexByte_unique {b b' : Byte} {s : List Byte} (h : HexByte b s) (h' : HexByte b' s) : b = b' := by
  obtain ⟨x, y, hx, hy, e, h1, h2, _⟩ := h
  obtain ⟨x', y', hx', hy', e', h1', h2', _⟩ := h'
  have inj : ∀ x y : Fin 16, (lit "0123456789abcdef")[x.val]? = (lit "0123456789abcdef")[y.val]? → x = y := by decide +kernel
  have ex := congrArg Fin.val (inj ⟨x, hx⟩ ⟨x', hx'⟩ (h1.trans h1'.symm))
  have ey := congrArg Fin.val (inj ⟨y, hy⟩ ⟨y', hy'⟩ (h2.trans h2'.symm))
  simp only at ex ey
  exact Fin.ext (by omega)

theorem hexBytes_unique : ∀ {bs bs' s : List Byte}, HexBytes bs s → HexBytes bs' s → bs = bs' := by
  intro bs
  induction bs with
  | nil =>
    intro bs' s h h'
    cases bs' with
    | nil => rfl
    | cons b' bs' =>
      obtain ⟨hh, r, e, ⟨_, _, _, _, _, _, _, hl⟩, _⟩ := h'
      rw [show s = [] from h] at e
      have := congrArg List.length e
      simp only [List.length_nil, List.length_append, hl] at this
      omega
  | cons b bs ih =>
    intro bs' s h h'
    obtain ⟨x, r, rfl, hb, hr⟩ := h
    cases bs' with
    | nil =>
      have := congrArg List.length (show x ++ r = [] from h')
      obtain ⟨_, _, _, _, _, _, _, hl⟩ := hb
      simp [hl] at this
    | cons b' bs' =>
      obtain ⟨x', r', e, hb', hr'⟩ := h'
      have l : x.length = x'.length := by
        obtain ⟨_, _, _, _, _, _, _, hl⟩ := hb
        obtain ⟨_, _, _, _, _, _, _, hl'⟩ := hb'
        omega
      obtain ⟨rfl, rfl⟩ := List.append_inj e l
      rw [hexByte_unique hb hb', ih hr hr']

/-- A text that does not end with a space. -/
def NoSpaceAfter (s : List Byte) : Prop := s.getLast? ≠ some 32

theorem spaces_unique {s t : List Byte} (hs : NoSpaceAfter s) (ht : NoSpaceAfter t) : ∀ {k l : Nat}, s ++ List.replicate k 32 = t ++ List.replicate l 32 → s = t := by
  have one : ∀ {s t : List Byte} {l : Nat}, NoSpaceAfter s → s = t ++ List.replicate l 32 → l = 0 := by
    intro s t l hs e
    cases l with
    | zero => rfl
    | succ l => refine (hs ?_).elim; rw [e, List.replicate_succ', ← List.append_assoc, List.getLast?_concat]
  intro k
  induction k with
  | zero =>
    intro l e
    rw [List.replicate_zero, List.append_nil] at e
    have := one hs e; subst this; simpa using e
  | succ k ih =>
    intro l e
    cases l with
    | zero =>
      rw [List.replicate_zero, List.append_nil] at e
      exact absurd (one ht e.symm) (by omega)
    | succ l =>
      rw [List.replicate_succ', List.replicate_succ', ← List.append_assoc, ← List.append_assoc] at e
      exact ih (List.append_inj' e rfl).1

theorem digits_head {n : Nat} {s t : List Byte} (h : digits 0 s = some n) (hn : s ≠ []) (c : Byte) (e : ∃ r, s ++ t = c :: r) : 48 ≤ c.val ∧ c.val ≤ 57 := by
  cases s with
  | nil => exact absurd rfl hn
  | cons b s =>
    obtain ⟨r, e⟩ := e
    injection e with e _
    subst e
    simp only [digits] at h
    split at h
    · assumption
    · cases h

theorem interval_unique {i j : Int} {s : List Byte} (h : Says (.interval i) s) (h' : Says (.interval j) s) : i = j := by
  obtain ⟨d, hh, m, c, h1, h2, sg, ds, cl, rfl, h3, h4, h5⟩ := h
  obtain ⟨d', hh', m', c', g1, g2, sg', ds', cl', e, g3, g4, g5⟩ := h'
  have e2 := List.append_inj' e (by rw [clock_length h5, clock_length g5])
  clear e
  obtain ⟨e, ec⟩ := e2
  subst ec
  obtain ⟨rfl, rfl, rfl⟩ := clock_unique h5 g5
  have noMinus : ∀ {d : Nat} {ds r : List Byte}, (if d = 0 then ds = [] else ∃ n, ds = n ++ lit " days " ∧ n ≠ [] ∧ digits 0 n = some d) → 45 :: r = ds → False := by
    intro d ds r h e
    split at h
    · subst h; cases e
    · obtain ⟨n, rfl, hn, hd⟩ := h
      have := digits_head hd hn 45 ⟨r, e.symm⟩
      revert this; decide
  have hsg : (i < 0 ↔ j < 0) ∧ ds = ds' := by
    by_cases hi : i < 0 <;> by_cases hj : j < 0
    · rw [h3, g3, if_pos hi, if_pos hj] at e
      exact ⟨by simp [hi, hj], List.append_cancel_left e⟩
    · rw [h3, g3, if_pos hi, if_neg hj] at e
      exact (noMinus g4 e).elim
    · rw [h3, g3, if_neg hi, if_pos hj] at e
      exact (noMinus h4 e.symm).elim
    · rw [h3, g3, if_neg hi, if_neg hj] at e
      exact ⟨by simp [hi, hj], e⟩
  obtain ⟨hsg, rfl⟩ := hsg
  have hd : d = d' := by
    by_cases h0 : d = 0 <;> by_cases h0' : d' = 0
    · omega
    · rw [if_pos h0] at h4; rw [if_neg h0'] at g4
      obtain ⟨n, e, hn, _⟩ := g4
      rw [h4] at e
      exact absurd (List.append_eq_nil_iff.1 e.symm).1 hn
    · rw [if_neg h0] at h4; rw [if_pos h0'] at g4
      obtain ⟨n, e, hn, _⟩ := h4
      rw [g4] at e
      exact absurd (List.append_eq_nil_iff.1 e.symm).1 hn
    · rw [if_neg h0] at h4; rw [if_neg h0'] at g4
      obtain ⟨n, e, _, h⟩ := h4
      obtain ⟨n', e', _, h'⟩ := g4
      rw [e] at e'
      obtain ⟨rfl, _⟩ := List.append_inj' e' rfl
      rw [h] at h'; injection h'
  subst hd
  omega

theorem says_unique {v w : Val} {s : List Byte} (ht : tag v = tag w) (hv : Says v s) (hw : Says w s)
    (hc : ∀ t, v = .constLen t → NoSpaceAfter t) (hc' : ∀ t, w = .constLen t → NoSpaceAfter t) : v = w := by
  cases v <;> cases w <;> simp only [tag] at ht <;> try omega
  case boolean.boolean b c => 
    have e : lit (if b then "true" else "false") = lit (if c then "true" else "false") := hv.symm.trans hw
    have : b = c := by revert e; cases b <;> cases c <;> decide
    rw [this]
  case tinyInt.tinyInt i j => rw [numeral_unique hv hw]
  case smallInt.smallInt i j => rw [numeral_unique hv hw]
  case integer.integer i j => rw [numeral_unique hv hw]
  case bigInt.bigInt i j => rw [numeral_unique hv hw]
  case timestamp.timestamp i j =>
    have := numeral_unique hv hw
    rw [show i = j by omega]
  case date.date i j =>
    obtain ⟨y, m, d, hy, hd, e, a, b, x, z, rfl, ha, hb, hx, hz⟩ := hv
    obtain ⟨y', m', d', hy', hd', e', a', b', x', z', es, ha', hb', hx', hz'⟩ := hw
    obtain ⟨es, e3⟩ := List.append_inj' es (by rw [two_length hz, two_length hz'])
    obtain ⟨es, _⟩ := List.append_inj' es rfl
    obtain ⟨es, e2⟩ := List.append_inj' es (by rw [two_length hx, two_length hx'])
    obtain ⟨es, _⟩ := List.append_inj' es rfl
    obtain ⟨e0, e1⟩ := List.append_inj' es (by rw [two_length hb, two_length hb'])
    subst e0 e1 e2 e3
    have h1 := two_unique ha ha'
    have h2 := two_unique hb hb'
    have h3 := two_unique hx hx'
    have h4 := two_unique hz hz'
    have h5 : y = y' := by omega
    subst h3 h4 h5
    rw [e, e']
  case time.time i j =>
    obtain ⟨h, m, c, _, e, x⟩ := hv
    obtain ⟨h', m', c', _, e', x'⟩ := hw
    obtain ⟨rfl, rfl, rfl⟩ := clock_unique x x'
    rw [e, e']
  case interval.interval i j => rw [interval_unique hv hw]
  case varLen.varLen i j => rw [← show s = i from hv, ← show s = j from hw]
  case constLen.constLen i j =>
    obtain ⟨k, e⟩ := hv
    obtain ⟨l, e'⟩ := hw
    rw [spaces_unique (hc i rfl) (hc' j rfl) (e.symm.trans e')]
  case binary.binary i j =>
    obtain ⟨x, rfl, h⟩ := hv
    obtain ⟨y, e, h'⟩ := hw
    obtain rfl := List.append_cancel_left e
    rw [hexBytes_unique h h']
  case json.json i j => rw [← show s = i from hv, ← show s = j from hw]
  case uuid.uuid i j => rw [← show s = i from hv, ← show s = j from hw]
  all_goals exact (False.elim hv)

/-- Values that can be told from others by their text: NULL, and the values above whose text does not end with a space (`CHAR`) or is `NULL` (other texts). -/
def Tellable (v : Value) : Prop := isNull v = true ∨
  (Showable v ∧ match val v with
    | .constLen s => NoSpaceAfter s
    | .varLen s | .json s | .uuid s => s ≠ lit "NULL"
    | _ => True)

theorem says_null {v : Val} (h : Says v (lit "NULL")) : (∃ s, v = .varLen s ∧ s = lit "NULL") ∨ (∃ s, v = .json s ∧ s = lit "NULL") ∨ (∃ s, v = .uuid s ∧ s = lit "NULL") ∨
    (∃ s, v = .constLen s) := by
  have num : ∀ {i}, Numeral i (lit "NULL") → False := by
    rintro i (⟨_, _, e⟩ | ⟨_, ds, e, _⟩)
    · rw [show digits 0 (lit "NULL") = none by decide +kernel] at e; cases e
    · have := congrArg List.head? e
      simp [lit] at this
  cases v
  case boolean b => exact absurd h (by cases b <;> (simp only [Says]; decide +kernel))
  case tinyInt => exact (num h).elim
  case smallInt => exact (num h).elim
  case integer => exact (num h).elim
  case bigInt => exact (num h).elim
  case timestamp => exact (num h).elim
  case date =>
    obtain ⟨y, m, d, hy, hd, e, a, b, x, z, es, ha, hb, hx, hz⟩ := h
    have := congrArg List.length es
    simp [two_length ha, two_length hb, two_length hx, two_length hz, lit] at this
  case time => obtain ⟨_, _, _, _, _, c⟩ := h; exact absurd (clock_length c) (by decide +kernel)
  case interval =>
    obtain ⟨d, hh, m, c, h1, h2, sg, ds, cl, e, h3, h4, h5⟩ := h
    have := congrArg List.length e
    have hl := clock_length h5
    simp only [List.length_append, hl] at this
    rw [show (lit "NULL").length = 4 by decide +kernel] at this
    omega
  case varLen s => exact .inl ⟨s, rfl, h.symm⟩
  case constLen s => exact .inr (.inr (.inr ⟨s, rfl⟩))
  case binary s =>
    obtain ⟨x, e, _⟩ := h
    have := congrArg List.head? e
    revert this; simp [lit]
  case json s => exact .inr (.inl ⟨s, rfl, h.symm⟩)
  case uuid s => exact .inr (.inr (.inl ⟨s, rfl, h.symm⟩))
  all_goals exact (False.elim h)

/-- A `CHAR` fills 255 bytes on the screen, whatever its declared length. -/
theorem C132_char_width (s : List Byte) : 255 ≤ (normalize s).length := by
  rw [normalize, List.length_append, List.length_replicate]; omega

theorem null_not {P : Printers} (hP : P.Right) {b : Value} (hb : Showable b) (hm : match val b with
    | .constLen s => NoSpaceAfter s
    | .varLen s | .json s | .uuid s => s ≠ lit "NULL"
    | _ => True) : display P b ≠ some (lit "NULL") := by
  intro e
  obtain ⟨s, hs, hy⟩ := C132_shown_partial hP hb
  rw [e] at hs; injection hs with hs; subst hs
  rcases says_null hy with ⟨s, h1, h2⟩ | ⟨s, h1, h2⟩ | ⟨s, h1, h2⟩ | ⟨s, h1⟩
  · rw [h1] at hm; exact hm h2
  · rw [h1] at hm; exact hm h2
  · rw [h1] at hm; exact hm h2
  · obtain ⟨v, sz, mg, t, fs⟩ := b
    obtain ⟨rfl, _⟩ := hb
    simp only [val] at h1
    subst h1
    simp only [display, tag] at e
    rw [if_neg (by decide)] at e
    injection e with e
    have := C132_char_width s
    rw [show normalize s = lit "NULL" from e] at this
    revert this; decide +kernel

theorem display_null (P : Printers) {a : Value} (h : isNull a = true) : display P a = some (lit "NULL") ∧ val a = .null := by
  obtain ⟨v, sz, mg, t, fs⟩ := a
  cases v <;> simp [isNull, val] at h
  exact ⟨rfl, rfl⟩

/-- **C132**, in part: two values of a column that are shown alike are the same value. -/
theorem C132_distinct_partial {P : Printers} (hP : P.Right) {a b : Value} (ha : Tellable a) (hb : Tellable b) (ht : isNull a = true ∨ isNull b = true ∨ ty a = ty b)
    (h : display P a = display P b) : val a = val b := by
  rcases ha with na | ⟨ha, ma⟩ <;> rcases hb with nb | ⟨hb, mb⟩
  · rw [(display_null P na).2, (display_null P nb).2]
  · rw [(display_null P na).1] at h; exact (null_not hP hb mb h.symm).elim
  · rw [(display_null P nb).1] at h; exact (null_not hP ha ma h).elim
  · obtain ⟨s, hs, sa⟩ := C132_shown_partial hP ha
    obtain ⟨s', hs', sb⟩ := C132_shown_partial hP hb
    rw [hs, hs'] at h; injection h with h; subst h
    have ta : ty a = tag (val a) := by obtain ⟨v, sz, mg, t, fs⟩ := a; exact ha.1
    have tb : ty b = tag (val b) := by obtain ⟨v, sz, mg, t, fs⟩ := b; exact hb.1
    have na : ∀ {v : Value}, isNull v = true → Showable v → False := by
      intro v hn hv
      obtain ⟨v, sz, mg, t, fs⟩ := v
      cases v <;> simp [isNull, val] at hn
      exact hv.2
    have htt : tag (val a) = tag (val b) := by
      rcases ht with ht | ht | ht
      · exact (na ht ha).elim
      · exact (na ht hb).elim
      · rw [← ta, ← tb, ht]
    refine says_unique htt sa sb ?_ ?_
    · intro t e; rw [e] at ma; exact ma
    · intro t e; rw [e] at mb; exact mb

example : Tellable (new .null) ∧ Tellable (new (.varLen (lit "null"))) ∧ Tellable (new (.constLen (lit "ab"))) ∧ Tellable (new (.time 86399)) :=
  ⟨.inl rfl, .inr ⟨⟨rfl, trivial⟩, by simp only [new, newTyped, val]; decide +kernel⟩,
    .inr ⟨⟨rfl, by decide +kernel⟩, by simp only [new, newTyped, val, NoSpaceAfter]; decide +kernel⟩, .inr ⟨⟨rfl, by decide, by decide⟩, trivial⟩⟩

/-! ## Arrays -/

theorem joinComma_inj : ∀ {ss ts : List (List Byte)}, (∀ s ∈ ss, s ≠ [] ∧ (44 : Byte) ∉ s) → (∀ s ∈ ts, s ≠ [] ∧ (44 : Byte) ∉ s) → joinComma ss = joinComma ts → ss = ts := by
  have split : ∀ {s t r r' : List Byte}, (44 : Byte) ∉ s → (44 : Byte) ∉ t → s ++ 44 :: r = t ++ 44 :: r' → s = t ∧ r = r' := by
    intro s
    induction s with
    | nil =>
      intro t r r' _ ht e
      cases t with
      | nil => injection e with _ e; exact ⟨rfl, e⟩
      | cons b t => injection e with e _; subst e; exact absurd (List.mem_cons_self ..) ht
    | cons a s ih =>
      intro t r r' hs ht e
      cases t with
      | nil => injection e with e _; subst e; exact absurd (List.mem_cons_self ..) hs
      | cons b t =>
        injection e with e e'
        obtain ⟨h1, h2⟩ := ih (fun h => hs (List.mem_cons_of_mem _ h)) (fun h => ht (List.mem_cons_of_mem _ h)) e'
        exact ⟨by rw [e, h1], h2⟩
  have comma : ∀ {s t : List Byte} {r : List Byte}, (44 : Byte) ∉ s → s = t ++ 44 :: r → False := by
    intro s t r hs e; subst e; exact hs (by simp)
  intro ss
  induction ss with
  | nil =>
    intro ts _ ht e
    match ts, ht, e with
    | [], _, _ => rfl
    | [t], ht, e => exact absurd e.symm (ht t (by simp)).1
    | t :: u :: ts, ht, e =>
      have := congrArg List.length e
      simp [joinComma] at this
  | cons s ss ih =>
    intro ts hs ht e
    cases ss with
    | nil =>
      match ts, ht, e with
      | [], _, e => exact absurd e (hs s (by simp)).1
      | [t], _, e => rw [show s = t from e]
      | t :: u :: ts, _, e =>
        refine (comma (hs s (by simp)).2 (show s = t ++ 44 :: (32 :: joinComma (u :: ts)) from ?_)).elim
        simpa [joinComma] using e
    | cons s' ss =>
      match ts, ht, e with
      | [], _, e =>
        have := congrArg List.length e
        simp [joinComma] at this
      | [t], ht, e =>
        refine (comma (ht t (by simp)).2 (show t = s ++ 44 :: (32 :: joinComma (s' :: ss)) from ?_)).elim
        simpa [joinComma] using e.symm
      | t :: u :: ts, ht, e =>
        have e' : s ++ 44 :: (32 :: joinComma (s' :: ss)) = t ++ 44 :: (32 :: joinComma (u :: ts)) := by simpa [joinComma] using e
        obtain ⟨h1, h2⟩ := split (hs s (by simp)).2 (ht t (by simp)).2 e'
        injection h2 with _ h2
        rw [h1, ih (fun x hx => hs x (List.mem_cons_of_mem _ hx)) (fun x hx => ht x (List.mem_cons_of_mem _ hx)) h2]

theorem digits_no_comma : ∀ {s : List Byte} {acc n : Nat}, digits acc s = some n → (44 : Byte) ∉ s := by
  intro s
  induction s with
  | nil => intro _ _ _ h; cases h
  | cons b s ih =>
    intro acc n h hm
    simp only [digits] at h
    split at h
    next hb =>
      rcases List.mem_cons.1 hm with rfl | hm
      · revert hb; decide
      · exact ih h hm
    next => cases h

/-- An item of an array of integers: an Integer or NULL. -/
def Item (v : Value) : Prop := isNull v = true ∨ ∃ i, val v = .integer i ∧ ty v = 3

theorem item_text (P : Printers) {v : Value} (h : Item v) : ∃ s, display P v = some s ∧ s ≠ [] ∧ (44 : Byte) ∉ s ∧ ∀ w t, Item w → display P w = some t → s = t → val v = val w := by
  have num : ∀ i : Int, intStr i ≠ [] ∧ (44 : Byte) ∉ intStr i ∧ intStr i ≠ lit "NULL" := by
    intro i
    have hn : Numeral i (intStr i) := numeral_intStr i
    refine ⟨?_, ?_, ?_⟩
    · rcases hn with ⟨_, h, _⟩ | ⟨_, ds, e, _, _⟩
      · exact h
      · rw [e]; exact List.cons_ne_nil _ _
    · rcases hn with ⟨_, _, h⟩ | ⟨_, ds, e, _, h⟩
      · exact digits_no_comma h
      · rw [e]; intro hm
        rcases List.mem_cons.1 hm with h' | h'
        · revert h'; decide
        · exact digits_no_comma h h'
    · intro e
      rw [e] at hn
      rcases says_null (v := .integer i) hn with ⟨_, h, _⟩ | ⟨_, h, _⟩ | ⟨_, h, _⟩ | ⟨_, h⟩ <;> cases h
  have shown : ∀ {v : Value}, Item v → (display P v = some (lit "NULL") ∧ val v = .null) ∨ ∃ i, display P v = some (intStr i) ∧ val v = .integer i := by
    intro v h
    rcases h with h | ⟨i, h, h'⟩
    · exact .inl (display_null P h)
    · obtain ⟨v, sz, mg, t, fs⟩ := v
      simp only [val, ty] at h h'
      subst h h'
      exact .inr ⟨i, rfl, rfl⟩
  rcases shown h with ⟨h1, h2⟩ | ⟨i, h1, h2⟩
  · refine ⟨_, h1, by decide +kernel, by decide +kernel, ?_⟩
    intro w t hw ht e
    rcases shown hw with ⟨g1, g2⟩ | ⟨j, g1, g2⟩
    · rw [h2, g2]
    · rw [g1] at ht; injection ht with ht; exact absurd (ht.trans e.symm) (num j).2.2
  · refine ⟨_, h1, (num i).1, (num i).2.1, ?_⟩
    intro w t hw ht e
    rcases shown hw with ⟨g1, g2⟩ | ⟨j, g1, g2⟩
    · rw [g1] at ht; injection ht with ht; exact absurd (e.trans ht.symm) (num i).2.2
    · rw [g1] at ht; injection ht with ht
      rw [h2, g2, numeral_unique (numeral_intStr i) (by rw [e, ← ht]; exact numeral_intStr j)]

theorem items_text (P : Printers) : ∀ {vs : List Value}, (∀ v ∈ vs, Item v) → ∃ ss, displays P vs = some ss ∧ (∀ s ∈ ss, s ≠ [] ∧ (44 : Byte) ∉ s) ∧
    ∀ ws, (∀ w ∈ ws, Item w) → displays P ws = some ss → vs.map val = ws.map val := by
  intro vs
  induction vs with
  | nil =>
    intro _
    refine ⟨[], rfl, by simp, ?_⟩
    intro ws hw e
    cases ws with
    | nil => rfl
    | cons w ws =>
      simp only [displays] at e
      split at e <;> cases e
  | cons v vs ih =>
    intro h
    obtain ⟨s, h1, h2, h3, h4⟩ := item_text P (h v (by simp))
    obtain ⟨ss, g1, g2, g3⟩ := ih fun v hv => h v (List.mem_cons_of_mem _ hv)
    refine ⟨s :: ss, by simp only [displays, h1, g1], ?_, ?_⟩
    · intro t ht
      rcases List.mem_cons.1 ht with rfl | ht
      · exact ⟨h2, h3⟩
      · exact g2 t ht
    · intro ws hw e
      cases ws with
      | nil => cases e
      | cons w ws =>
        simp only [displays] at e
        split at e
        next t ts e1 e2 =>
          injection e with e; injection e with e e'
          subst e e'
          rw [List.map_cons, List.map_cons, h4 w t (hw w (by simp)) e1 rfl, g3 ws (fun x hx => hw x (List.mem_cons_of_mem _ hx)) e2]
        next => cases e

/-- **C132**, in part: two arrays of integers and NULLs that are shown alike have the same items. -/
theorem C132_array_partial (P : Printers) {xs ys : List Value} (hx : ∀ v ∈ xs, Item v) (hy : ∀ v ∈ ys, Item v)
    (h : display P (new (.array xs)) = display P (new (.array ys))) : xs.map val = ys.map val := by
  obtain ⟨ss, h1, h2, h3⟩ := items_text P hx
  obtain ⟨ts, g1, g2, _⟩ := items_text P hy
  simp only [new, newTyped, display, h1, g1, Option.map_some] at h
  injection h with h; injection h with _ h
  have := joinComma_inj h2 g2 (List.append_inj' h rfl).1
  exact h3 ys hy (by rw [g1, this])

example : ∀ v ∈ [new (.integer (-7)), new .null, new (.integer 0)], Item v := by
  intro v hv
  simp only [List.mem_cons, List.not_mem_nil, or_false] at hv
  rcases hv with rfl | rfl | rfl
  · exact .inr ⟨-7, rfl, rfl⟩
  · exact .inl rfl
  · exact .inr ⟨0, rfl, rfl⟩

/-! ## What is not so -/

/-- The text `NULL` is shown as NULL is. -/
theorem C132_null_fails (P : Printers) : display P (new (.varLen (lit "NULL"))) = display P (new .null) := rfl

theorem normalize_space {s : List Byte} (h : s.length < 255) : normalize (s ++ [32]) = normalize s := by
  have hc : ∀ t : List Byte, t.length ≤ 255 → takeChars 255 t = t := by
    intro t ht
    exact takeChars_all t 255 (Nat.le_trans (List.length_filter_le _ _) ht)
  have hl : (s ++ [32]).length = s.length + 1 := by simp
  unfold normalize
  rw [hc s (by omega), hc (s ++ [32]) (by omega), hl, show 255 - s.length = (255 - (s.length + 1)) + 1 by omega, List.replicate_succ, List.append_assoc]
  rfl

/-- A `CHAR` text and the same with a space after it are shown alike. -/
theorem C132_char_space_fails (P : Printers) {s : List Byte} (h : s.length < 255) : display P (new (.constLen (s ++ [32]))) = display P (new (.constLen s)) := by
  have : ∀ s, display P (new (.constLen s)) = some (normalize s) := fun s => rfl
  rw [this, this, normalize_space h]

theorem takeChars_long : ∀ (s : List Byte) (n : Nat) (a : Byte), (∀ b ∈ s, isLead b = true) → s.length = n → isLead a = true → takeChars n (s ++ [a]) = s := by
  intro s
  induction s with
  | nil => intro n a _ hn ha; subst hn; simp [takeChars, ha]
  | cons b s ih =>
    intro n a hs hn ha
    cases n with
    | zero => simp at hn
    | succ n =>
      simp only [List.cons_append, takeChars, hs b (by simp), if_true]
      rw [ih n a (fun x hx => hs x (List.mem_cons_of_mem _ hx)) (by simpa using hn) ha]

/-- What a `CHAR` text has after its 255th character is not shown. -/
theorem C132_char_long_fails (P : Printers) {s : List Byte} (hs : ∀ b ∈ s, isLead b = true) (hl : s.length = 255) {a : Byte} (ha : isLead a = true) :
    display P (new (.constLen (s ++ [a]))) = some s := by
  have : ∀ s, display P (new (.constLen s)) = some (normalize s) := fun s => rfl
  rw [this, normalize, takeChars_long s 255 a hs hl ha, hl]
  simp

-- 255 letters and one more.
example : (∀ b ∈ List.replicate 255 (97 : Byte), isLead b = true) ∧ (List.replicate 255 (97 : Byte)).length = 255 ∧ isLead 98 = true := by
  refine ⟨fun b hb => ?_, List.length_replicate, by decide⟩
  rw [List.eq_of_mem_replicate hb]; decide

/-- A date before 1970 is not shown. -/
theorem C132_date_fails {P : Printers} (hP : P.Right) {i : Int} (h0 : - 2 ^ 31 ≤ i) (h : i < 0) :
    display P (new (.date i)) = some (lit "INVALID_DATE(" ++ intStr i ++ lit ")") := by
  have e : dateText P i = lit "INVALID_DATE(" ++ intStr i ++ lit ")" := by
    unfold dateText
    rw [if_neg (by omega), hP.range _ (by omega)]
  exact congrArg some e

/-- The least interval cannot be shown: a panic in a debug build. -/
theorem C132_interval_fails (P : Printers) : display P (new (.interval (- 2 ^ 63))) = none := rfl

/-- Arrays of texts are shown alike although their lengths differ. -/
theorem C132_array_fails (P : Printers) :
    display P (new (.array [new (.varLen (lit "a, b"))])) = display P (new (.array [new (.varLen (lit "a")), new (.varLen (lit "b"))])) ∧
    display P (new (.array [new (.varLen [])])) = display P (new (.array [])) := ⟨rfl, rfl⟩

/-- The number of an enumeration value is not shown. -/
theorem C132_enum_fails (P : Printers) (i j : Int) (s : List Byte) : display P (new (.enum i s)) = display P (new (.enum j s)) := rfl

end Verif.Sql
