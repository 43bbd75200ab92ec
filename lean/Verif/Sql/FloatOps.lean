import Verif.Sql.FloatRound

/-! # The operations on floats round the exact results -/

namespace Verif.Sql.Fmt

/-- `z` is the float nearest to `p / q`, both in units of the smallest positive float; of two equally near ones it is the one whose last bit is 0. Infinity counts as the power of two
after the greatest number, as IEEE 754 has it: numbers nearer to that than to the greatest one become infinite. -/
structure Rounds (f : Fmt) (p : Int) (q : Nat) (z : Nat) : Prop where
  number : f.nan z = false
  nearest : ∀ z', f.nan z' = false → (f.exact z * q - p).natAbs ≤ (f.exact z' * q - p).natAbs
  even : ∀ z', f.nan z' = false → (f.exact z' * q - p).natAbs = (f.exact z * q - p).natAbs → f.exact z' ≠ f.exact z → f.mag z % 2 = 0
  positive : 0 < p → f.neg z = false
  negative : p < 0 → f.neg z = true

theorem near_same {A P : Nat} {p : Int} {s : Bool} (hp : p = if s then -(P : Int) else P) : ((if s then -(A : Int) else A) - p).natAbs = ((A : Int) - P).natAbs := by
  rw [hp]; cases s <;> simp only [if_true, Bool.false_eq_true, if_false] <;> omega

theorem near_other {A P : Nat} {p : Int} {s s' : Bool} (hp : p = if s then -(P : Int) else P) (h : s' ≠ s) : ((if s' then -(A : Int) else A) - p).natAbs = A + P := by
  rw [hp]; cases s <;> cases s' <;> simp only [if_true, Bool.false_eq_true, if_false] <;> first | exact absurd rfl h | omega

theorem near_arith {A A' P : Nat} (n1 : ((A : Int) - P).natAbs ≤ ((A' : Int) - P).natAbs) : ((A : Int) - P).natAbs ≤ A' + P ∧
    (A' + P = ((A : Int) - P).natAbs → A' = 0 ∨ P = 0) := by
  omega

theorem rounds_of_near {f : Fmt} {p : Int} {q b : Nat} {s : Bool} (hq : 0 < q) (h : f.Near p.natAbs q b) (hs : p ≠ 0 → s = decide (p < 0)) : f.Rounds p q (f.signed s b) := by
  have hb : b < 2 ^ (f.m + f.e) := Nat.lt_of_le_of_lt h.1 inf_lt_pow
  have hmag : f.mag (f.signed s b) = b := mag_signed hb
  have hneg : f.neg (f.signed s b) = s := neg_signed hb
  have ex : f.exact (f.signed s b) = if s then -(f.scaled b : Int) else f.scaled b := by rw [exact, hmag, hneg]
  have z0 := (h.2 0 (Nat.zero_le _)).1
  rw [dist, dist, scaled_zero, Nat.zero_mul] at z0
  have key : ∀ z', f.nan z' = false → (f.exact (f.signed s b) * q - p).natAbs ≤ (f.exact z' * q - p).natAbs ∧
      ((f.exact z' * q - p).natAbs = (f.exact (f.signed s b) * q - p).natAbs → f.exact z' ≠ f.exact (f.signed s b) → b % 2 = 0) := by
    intro z' hz'
    have hb' : f.mag z' ≤ f.inf := by simpa [nan] using hz'
    obtain ⟨n1, n2⟩ := h.2 _ hb'
    rw [dist, dist] at n1 n2
    have exz : f.exact z' = if f.neg z' then -(f.scaled (f.mag z') : Int) else f.scaled (f.mag z') := rfl
    have hsc : f.mag z' = b → f.scaled (f.mag z') = f.scaled b := fun h => by rw [h]
    have hpos : ∀ g, 0 < f.scaled g → 0 < f.scaled g * q := fun g h => Nat.mul_pos h hq
    have p1 := hpos b
    have p2 := hpos (f.mag z')
    have e0 : f.scaled b = 0 → f.scaled b * q = 0 := fun h => by rw [h, Nat.zero_mul]
    have e1 : f.scaled (f.mag z') = 0 → f.scaled (f.mag z') * q = 0 := fun h => by rw [h, Nat.zero_mul]
    rw [exz, ex]
    have c1 : ((if s then -(f.scaled b : Int) else f.scaled b) * (q : Int)) = if s then -((f.scaled b * q : Nat) : Int) else ((f.scaled b * q : Nat) : Int) := by
      cases s
      · rw [if_neg (by simp), if_neg (by simp), Int.natCast_mul]
      · rw [if_pos rfl, if_pos rfl, Int.natCast_mul, Int.neg_mul]
    have c2 : ((if f.neg z' then -(f.scaled (f.mag z') : Int) else f.scaled (f.mag z')) * (q : Int)) =
        if f.neg z' then -((f.scaled (f.mag z') * q : Nat) : Int) else ((f.scaled (f.mag z') * q : Nat) : Int) := by
      cases f.neg z'
      · rw [if_neg (by simp), if_neg (by simp), Int.natCast_mul]
      · rw [if_pos rfl, if_pos rfl, Int.natCast_mul, Int.neg_mul]
    rw [c1, c2]
    have hp : p = if s then -(p.natAbs : Int) else p.natAbs := by
      by_cases h0 : p = 0
      · subst h0; cases s <;> rfl
      · rw [hs h0]
        by_cases hl : p < 0
        · rw [decide_eq_true hl, if_pos rfl]; omega
        · rw [decide_eq_false hl, if_neg (by simp)]; omega
    generalize hPn : p.natAbs = P at *
    clear hPn hs ex exz c1 c2 hmag hneg
    generalize f.scaled b * q = A at *
    generalize f.scaled (f.mag z') * q = A' at *
    generalize f.scaled b = S at *
    generalize f.scaled (f.mag z') = S' at *
    generalize f.mag z' = b' at *
    generalize f.neg z' = s' at *
    rw [near_same hp]
    by_cases hss : s' = s
    · subst hss
      rw [near_same hp]
      refine ⟨n1, fun h1 h2 => n2 h1 fun hb => h2 ?_⟩
      rw [hsc hb]
    · rw [near_other hp hss]
      obtain ⟨g1, g2⟩ := near_arith n1
      refine ⟨g1, fun h1 h2 => ?_⟩
      by_cases hS' : S' = 0
      · have hA' := e1 hS'
        by_cases hb : b' = b
        · exfalso
          have := hsc hb
          apply h2
          rw [← this, hS']
          cases s <;> cases s' <;> rfl
        · exact n2 (by clear n1 n2 p1 p2 e0 e1; omega) hb
      · exfalso
        have h3 := p2 (Nat.pos_of_ne_zero hS')
        clear n1 n2 p1 p2 e0 e1 hsc
        have : P = 0 := by omega
        omega
  refine ⟨by simp [nan, hmag, h.1], fun z' hz => (key z' hz).1, fun z' hz => by rw [hmag]; exact (key z' hz).2, fun hp => ?_, fun hp => ?_⟩
  · rw [hneg, hs (by omega)]; simp; omega
  · rw [hneg, hs (by omega)]; simp; omega

theorem near_zero (f : Fmt) (Q : Nat) : f.Near 0 Q 0 := by
  refine ⟨Nat.zero_le _, fun b' _ => ⟨?_, fun _ _ => rfl⟩⟩
  simp [dist, scaled_zero]

/-- `2 ^ -emin`. -/
theorem unit_exp {f : Fmt} (he : 2 ≤ f.e) : ((f.m + 2 ^ (f.e - 1) - 2 : Nat) : Int) = f.bias + f.m - 1 := by
  have := bias_eq f
  have : 2 ^ 1 ≤ 2 ^ (f.e - 1) := Nat.pow_le_pow_right (by omega) (by omega)
  omega

theorem expo_ge {f : Fmt} (x : Nat) : 1 - f.bias - f.m ≤ f.expo x := by
  unfold expo
  dsimp only
  generalize f.mag x / 2 ^ f.m = E
  split <;> omega

theorem exact_at {f : Fmt} {e : Int} {x : Nat} (h1 : 1 - f.bias - f.m ≤ e) (h2 : e ≤ f.expo x) : f.exact x = f.at_ e x * 2 ^ (e + f.bias + f.m - 1).toNat := by
  have h := scaled_mant f x
  have e1 : (f.expo x + f.bias + f.m - 1).toNat = (f.expo x - e).toNat + (e + f.bias + f.m - 1).toNat := by omega
  rw [e1, Nat.pow_add, ← Nat.mul_assoc] at h
  unfold exact at_
  dsimp only
  rw [h]
  split
  · push_cast
    rw [Int.neg_mul]
  · push_cast
    rfl

theorem mul_pow_natAbs (s : Int) (k : Nat) : (s * 2 ^ k).natAbs = s.natAbs * 2 ^ k := by
  rw [Int.natAbs_mul, Int.natAbs_pow]; rfl

theorem add_rounds {f : Fmt} {x y : Nat} (hm : 1 ≤ f.m) (hx : f.mag x < f.inf) (hy : f.mag y < f.inf) :
    f.Rounds (f.exact x + f.exact y) 1 (f.add x y) ∧ (f.exact x + f.exact y = 0 → f.neg (f.add x y) = (f.neg x && f.neg y)) := by
  have nx : f.nan x = false := by simp [nan]; omega
  have ny : f.nan y = false := by simp [nan]; omega
  unfold add
  rw [if_neg (by simp [nx, ny]), if_neg (by omega), if_neg (by omega)]
  dsimp only
  generalize hE : min (f.expo x) (f.expo y) = e
  have gx := expo_ge (f := f) x
  have gy := expo_ge (f := f) y
  have hsum : f.exact x + f.exact y = (f.at_ e x + f.at_ e y) * 2 ^ (e + f.bias + f.m - 1).toNat := by
    rw [exact_at (e := e) (by omega) (by omega), exact_at (e := e) (x := y) (by omega) (by omega), Int.add_mul]
  rw [hsum]
  generalize f.at_ e x + f.at_ e y = s
  have hpow : (0 : Int) < 2 ^ (e + f.bias + f.m - 1).toNat := Int.pow_pos (by decide)
  by_cases h0 : s = 0
  · subst h0
    rw [if_pos rfl, Int.zero_mul]
    exact ⟨rounds_of_near (by omega) (near_zero f 1) (fun h => absurd rfl h), fun _ => neg_signed (Nat.two_pow_pos _)⟩
  · rw [if_neg h0]
    have hne : s * 2 ^ (e + f.bias + f.m - 1).toNat ≠ 0 := Int.mul_ne_zero h0 (by omega)
    refine ⟨rounds_of_near (by omega) ?_ fun _ => ?_, fun h => absurd h hne⟩
    · rw [mul_pow_natAbs]
      refine ofDyadic_near (a := 0) (b := (e + f.bias + f.m - 1).toNat) (g := 1) hm (by omega) (by omega) (by omega) (fun t _ => ?_) (.inl rfl)
      rw [Nat.pow_zero, Nat.mul_one, Nat.mul_one]
      have hp := Nat.two_pow_pos (e + f.bias + f.m - 1).toNat
      exact ⟨fun h => Nat.mul_lt_mul_of_pos_right h hp, fun h => by rw [h], fun h => Nat.mul_lt_mul_of_pos_right h hp⟩
    · rw [decide_eq_decide]
      constructor
      · exact fun h => Int.mul_neg_of_neg_of_pos h hpow
      · intro h
        rcases Int.lt_or_le s 0 with h1 | h1
        · exact h1
        · exact absurd (Int.mul_nonneg h1 (Int.le_of_lt hpow)) (by omega)

/-- The magnitude of a product of two floats, in units times the unit. -/
theorem exact_natAbs (f : Fmt) (x : Nat) : (f.exact x).natAbs = f.scaled (f.mag x) := by
  unfold exact
  split <;> omega

theorem exact_neg_iff {f : Fmt} {x : Nat} (h : f.exact x ≠ 0) : f.neg x = decide (f.exact x < 0) := by
  unfold exact at h ⊢
  cases f.neg x
  · simp only [Bool.false_eq_true, if_false]; symm; simp
  · simp only [if_true] at h ⊢; symm; simp; omega

theorem mul_sign {f : Fmt} {x y : Nat} (h : f.exact x * f.exact y ≠ 0) : (f.neg x != f.neg y) = decide (f.exact x * f.exact y < 0) := by
  have hx : f.exact x ≠ 0 := fun h0 => h (by rw [h0, Int.zero_mul])
  have hy : f.exact y ≠ 0 := fun h0 => h (by rw [h0, Int.mul_zero])
  rw [exact_neg_iff hx, exact_neg_iff hy]
  rcases Int.lt_or_lt_of_ne hx with a | a <;> rcases Int.lt_or_lt_of_ne hy with b | b
  · have := Int.mul_pos_of_neg_of_neg a b
    rw [decide_eq_true a, decide_eq_true b, decide_eq_false (by omega)]; rfl
  · have := Int.mul_neg_of_neg_of_pos a b
    rw [decide_eq_true a, decide_eq_false (by omega : ¬f.exact y < 0), decide_eq_true this]; rfl
  · have := Int.mul_neg_of_pos_of_neg a b
    rw [decide_eq_false (by omega : ¬f.exact x < 0), decide_eq_true b, decide_eq_true this]; rfl
  · have := Int.mul_pos a b
    rw [decide_eq_false (by omega : ¬f.exact x < 0), decide_eq_false (by omega : ¬f.exact y < 0), decide_eq_false (by omega)]; rfl

theorem mul_rounds {f : Fmt} {x y : Nat} (hm : 1 ≤ f.m) (he : 2 ≤ f.e) (hx : f.mag x < f.inf) (hy : f.mag y < f.inf) :
    f.Rounds (f.exact x * f.exact y) f.unit (f.mul x y) ∧ f.neg (f.mul x y) = (f.neg x != f.neg y) := by
  have nx : f.nan x = false := by simp [nan]; omega
  have ny : f.nan y = false := by simp [nan]; omega
  unfold mul
  dsimp only
  rw [if_neg (by simp [nx, ny]), if_neg (by omega)]
  have hu : 0 < f.unit := Nat.two_pow_pos _
  refine ⟨rounds_of_near hu ?_ mul_sign, neg_signed (Nat.lt_of_le_of_lt (ofDyadic_le f _ _) inf_lt_pow)⟩
  rw [Int.natAbs_mul, exact_natAbs, exact_natAbs]
  by_cases h0 : f.mant x * f.mant y = 0
  · have : f.scaled (f.mag x) * f.scaled (f.mag y) = 0 := by
      rw [scaled_mant, scaled_mant]
      rcases Nat.mul_eq_zero.1 h0 with h | h <;> simp [h]
    rw [this, h0, ofDyadic, if_pos rfl]
    exact near_zero f _
  · have gx := expo_ge (f := f) x
    have gy := expo_ge (f := f) y
    have ue := unit_exp he
    rw [scaled_mant, scaled_mant]
    have ex : ((f.expo x + f.bias + f.m - 1).toNat : Int) = f.expo x + f.bias + f.m - 1 := by omega
    have ey : ((f.expo y + f.bias + f.m - 1).toNat : Int) = f.expo y + f.bias + f.m - 1 := by omega
    generalize (f.expo x + f.bias + f.m - 1).toNat = kx at *
    generalize (f.expo y + f.bias + f.m - 1).toNat = ky at *
    unfold unit at hu ⊢
    generalize f.m + 2 ^ (f.e - 1) - 2 = U at *
    refine ofDyadic_near (a := U) (b := kx + ky) (g := 1) hm (by omega) hu (by omega) (fun t _ => ?_) (.inl rfl)
    have e1 : f.mant x * 2 ^ kx * (f.mant y * 2 ^ ky) * 2 ^ U = f.mant x * f.mant y * 2 ^ (kx + ky) * 2 ^ U := by rw [Nat.pow_add]; ac_rfl
    rw [e1, Nat.mul_assoc t, Nat.mul_assoc (f.mant x * f.mant y)]
    have hp : 0 < 2 ^ (kx + ky) * 2 ^ U := Nat.mul_pos (Nat.two_pow_pos _) (Nat.two_pow_pos _)
    exact ⟨fun h => Nat.mul_lt_mul_of_pos_right h hp, fun h => by rw [h], fun h => Nat.mul_lt_mul_of_pos_right h hp⟩

theorem div_rounds {f : Fmt} {x y : Nat} (hm : 1 ≤ f.m) (he : 2 ≤ f.e) (hx : f.mag x < f.inf) (hy : f.mag y < f.inf) (h0 : f.mag y ≠ 0) :
    f.Rounds (f.exact x * f.unit * (if f.neg y then -1 else 1)) (f.scaled (f.mag y)) (f.div x y) ∧ f.neg (f.div x y) = (f.neg x != f.neg y) := by
  have nx : f.nan x = false := by simp [nan]; omega
  have ny : f.nan y = false := by simp [nan]; omega
  have hdiv : f.div x y = f.signed (f.neg x != f.neg y) (f.ofDyadic (2 * (f.mant x * 2 ^ (2 * f.m + 4) / f.mant y) +
      (if f.mant x * 2 ^ (2 * f.m + 4) % f.mant y = 0 then 0 else 1)) (f.expo x - f.expo y - (2 * f.m + 4 : Nat) - 1)) := by
    unfold div
    dsimp only
    rw [if_neg (by simp [nx, ny]), if_neg (by omega), if_neg (by omega), if_neg h0]
  rw [hdiv]
  have hu : 0 < f.unit := Nat.two_pow_pos _
  have hsy : 0 < f.scaled (f.mag y) := by have := scaled_lt (f := f) (show 0 < f.mag y by omega); rw [scaled_zero] at this; exact this
  refine ⟨rounds_of_near hsy ?_ fun hp => ?_, neg_signed (Nat.lt_of_le_of_lt (ofDyadic_le f _ _) inf_lt_pow)⟩
  · rw [Int.natAbs_mul, Int.natAbs_mul, exact_natAbs, Int.natAbs_natCast, show (if f.neg y = true then (-1 : Int) else 1).natAbs = 1 by split <;> rfl, Nat.mul_one]
    have my0 : 0 < f.mant y := by
      rcases Nat.eq_zero_or_pos (f.mant y) with h | h
      · rw [scaled_mant, h, Nat.zero_mul] at hsy; omega
      · exact h
    have mylt := mant_lt f y
    rcases Nat.eq_zero_or_pos (f.mant x) with hmx | hmx
    · have e1 : f.scaled (f.mag x) = 0 := by rw [scaled_mant, hmx, Nat.zero_mul]
      have e2 : 2 * (f.mant x * 2 ^ (2 * f.m + 4) / f.mant y) + (if f.mant x * 2 ^ (2 * f.m + 4) % f.mant y = 0 then 0 else 1) = 0 := by
        rw [hmx, Nat.zero_mul, Nat.zero_div, Nat.zero_mod, if_pos rfl]
      rw [e1, e2, ofDyadic, if_pos rfl, Nat.zero_mul]
      exact near_zero f _
    · have gx := expo_ge (f := f) x
      have gy := expo_ge (f := f) y
      have ue := unit_exp he
      have sx := scaled_mant f x
      have sy := scaled_mant f y
      have ex : ((f.expo x + f.bias + f.m - 1).toNat : Int) = f.expo x + f.bias + f.m - 1 := by omega
      have ey : ((f.expo y + f.bias + f.m - 1).toNat : Int) = f.expo y + f.bias + f.m - 1 := by omega
      generalize (f.expo x + f.bias + f.m - 1).toNat = kx at *
      generalize (f.expo y + f.bias + f.m - 1).toNat = ky at *
      unfold unit at hu ⊢
      generalize f.m + 2 ^ (f.e - 1) - 2 = U at *
      generalize hk : 2 * f.m + 4 = k at *
      have hdm := Nat.div_add_mod (f.mant x * 2 ^ k) (f.mant y)
      have hml := Nat.mod_lt (f.mant x * 2 ^ k) my0
      have hbig : 2 ^ (f.m + 3) ≤ f.mant x * 2 ^ k / f.mant y := by
        rw [Nat.le_div_iff_mul_le my0]
        calc 2 ^ (f.m + 3) * f.mant y ≤ 2 ^ (f.m + 3) * 2 ^ (f.m + 1) := Nat.mul_le_mul_left _ (Nat.le_of_lt mylt)
          _ = 2 ^ k := by rw [← Nat.pow_add]; congr 1; omega
          _ ≤ f.mant x * 2 ^ k := Nat.le_mul_of_pos_left _ hmx
      have hbp := Nat.two_pow_pos (f.m + 3)
      generalize hn : f.mant x * 2 ^ k = n at *
      generalize hd : n / f.mant y = d at *
      generalize n % f.mant y = r at *
      have hst : (if r = 0 then 0 else 1) ≤ 1 := by split <;> omega
      have hst0 : (if r = 0 then 0 else 1) = 0 ↔ r = 0 := by split <;> omega
      generalize (if r = 0 then 0 else 1) = st at *
      refine ofDyadic_near (a := ky + k + 1) (b := kx + U) (g := 2) hm (by omega) hsy (by omega) (fun t ht => ?_) (.inr ⟨rfl, ?_⟩)
      · obtain ⟨u, rfl⟩ := ht
        rw [sx, sy]
        have e1 : 2 * u * 2 ^ (kx + U) * (f.mant y * 2 ^ ky) = u * f.mant y * (2 * 2 ^ kx * 2 ^ U * 2 ^ ky) := by rw [Nat.pow_add]; ac_rfl
        have e2 : f.mant x * 2 ^ kx * 2 ^ U * 2 ^ (ky + k + 1) = n * (2 * 2 ^ kx * 2 ^ U * 2 ^ ky) := by
          rw [← hn, Nat.pow_succ, Nat.pow_add]; ac_rfl
        rw [e1, e2]
        have hp : 0 < 2 * 2 ^ kx * 2 ^ U * 2 ^ ky :=
          Nat.mul_pos (Nat.mul_pos (Nat.mul_pos (by decide) (Nat.two_pow_pos _)) (Nat.two_pow_pos _)) (Nat.two_pow_pos _)
        have mono : ∀ v, u ≤ v → u * f.mant y ≤ f.mant y * v := fun v h => by rw [Nat.mul_comm]; exact Nat.mul_le_mul_left _ h
        have mono' : ∀ v, v ≤ u → f.mant y * v ≤ u * f.mant y := fun v h => by rw [Nat.mul_comm u]; exact Nat.mul_le_mul_left _ h
        refine ⟨fun h => Nat.mul_lt_mul_of_pos_right ?_ hp, fun h => ?_, fun h => Nat.mul_lt_mul_of_pos_right ?_ hp⟩
        · rcases Nat.lt_or_ge u d with h1 | h1
          · have := mono' u (Nat.le_refl _)
            have := Nat.mul_le_mul_left (f.mant y) (show u + 1 ≤ d from h1)
            rw [Nat.mul_add, Nat.mul_one] at this
            have := mono u (Nat.le_refl _)
            omega
          · have h2 : u = d := by omega
            have h3 : r ≠ 0 := by omega
            have := mono d (by omega)
            omega
        · have h2 : u = d := by omega
          have h3 : r = 0 := by omega
          subst h2
          rw [Nat.mul_comm u]
          rw [show n = f.mant y * u by omega]
        · have := mono' (d + 1) (by omega)
          rw [Nat.mul_add, Nat.mul_one] at this
          omega
      · rw [Nat.le_log2 (by omega)]
        have : 2 ^ (f.m + 2) ≤ 2 ^ (f.m + 3) := Nat.pow_le_pow_right (by omega) (by omega)
        omega
  · have hxx : f.exact x ≠ 0 := fun h => hp (by rw [h, Int.zero_mul, Int.zero_mul])
    rw [exact_neg_iff hxx]
    have hup : (0 : Int) < f.unit := by omega
    cases f.neg y
    · simp only [Bool.false_eq_true, if_false, Int.mul_one, Bool.bne_false]
      rw [decide_eq_decide]
      constructor
      · exact fun h => Int.mul_neg_of_neg_of_pos h hup
      · intro h
        rcases Int.lt_or_le (f.exact x) 0 with h1 | h1
        · exact h1
        · exact absurd (Int.mul_nonneg h1 (Int.le_of_lt hup)) (by omega)
    · simp only [if_true, Int.mul_neg, Int.mul_one, Bool.bne_true]
      rcases Int.lt_or_lt_of_ne hxx with h | h
      · have := Int.mul_neg_of_neg_of_pos h hup
        rw [decide_eq_true h, decide_eq_false (by omega)]; rfl
      · have := Int.mul_pos h hup
        rw [decide_eq_false (by omega), decide_eq_true (by omega)]; rfl

end Verif.Sql.Fmt
