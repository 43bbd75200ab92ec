import Verif.HashPage.Slots
/-!
# Threads that use the same slots
-/

namespace Verif.HashPage

variable {K V α β : Type}

/-! ## Any number of writers: values come from calls -/

/-- A program that writes the pair `own` only, makes a slot readable only if it knows that the slot holds a pair somebody has inserted, and returns
what it may: `S` are the slots known to hold such a pair, `X` the pairs known to be such. -/
def Good (own : Option (K × V)) (R : (K × V → Prop) → α → Prop) : (Nat → Prop) → (K × V → Prop) → Prog K V α → Prop
  | _, X, .ret a => R X a
  | _, _, .panic => True
  | S, X, .isOccupied _ k => ∀ b, Good own R S X (k b)
  | S, X, .isReadable i k => Good own R S X (k false) ∧ Good own R (fun j => S j ∨ j = i) X (k true)
  | S, X, .setOccupied _ k => Good own R S X k
  | S, X, .setReadable i k => S i ∧ Good own R S X k
  | S, X, .clearReadable _ k => Good own R S X k
  | S, X, .pairAt i k => ∀ p, Good own R S (fun q => X q ∨ (S i ∧ q = p)) (k p)
  | S, X, .write i p k => own = some p ∧ Good own R (fun j => S j ∨ j = i) X k

theorem good_bind (own : Option (K × V)) {R : (K × V → Prop) → α → Prop} {Q : (K × V → Prop) → β → Prop} (p : Prog K V α)
    (f : α → Prog K V β) : ∀ {S X}, Good own R S X p → (∀ S X a, R X a → Good own Q S X (f a)) → Good own Q S X (p.bind f) := by
  induction p with
  | ret a => intro S X h hf; exact hf _ _ _ h
  | panic => intro S X h hf; trivial
  | isOccupied i k ih => intro S X h hf; exact fun b => ih b (h b) hf
  | isReadable i k ih => intro S X h hf; exact ⟨ih _ h.1 hf, ih _ h.2 hf⟩
  | setOccupied i k ih => intro S X h hf; exact ih h hf
  | setReadable i k ih => intro S X h hf; exact ⟨h.1, ih h.2 hf⟩
  | clearReadable i k ih => intro S X h hf; exact ih h hf
  | pairAt i k ih => intro S X h hf; exact fun p => ih p (h p) hf
  | write i q k ih => intro S X h hf; exact ⟨h.1, ih h.2 hf⟩

theorem good_numReadable (own : Option (K × V)) (todo : Nat) : ∀ S X i c, Good own (fun _ _ => True) S X (numReadableFrom todo i c) := by
  induction todo with
  | zero => intro S X i c; trivial
  | succ t ih => intro S X i c; exact ⟨ih _ _ _ _, ih _ _ _ _⟩

/-- Each value belongs to one of the pairs. -/
def FromPairs (X : K × V → Prop) (vs : List V) : Prop := ∀ v ∈ vs, ∃ k, X (k, v)

theorem FromPairs.mono {X Y : K × V → Prop} (h : ∀ p, X p → Y p) {vs : List V} (hv : FromPairs X vs) : FromPairs Y vs := by
  intro v hm
  obtain ⟨k, hk⟩ := hv v hm
  exact ⟨k, h _ hk⟩

theorem good_getValue (own : Option (K × V)) (cmp : K → K → Bool) (key : K) (todo : Nat) : ∀ S X i acc, FromPairs X acc →
    Good own FromPairs S X (getValueFrom cmp key todo i acc) := by
  induction todo with
  | zero => intro S X i acc h; exact h
  | succ t ih =>
    intro S X i acc h
    refine ⟨ih _ _ _ _ h, fun p => ?_⟩
    dsimp only
    split
    · intro q
      refine ih _ _ _ _ ?_
      intro v hv
      rw [List.mem_append, List.mem_singleton] at hv
      rcases hv with hv | rfl
      · obtain ⟨k, hk⟩ := h v hv
        exact ⟨k, .inl (.inl hk)⟩
      · exact ⟨q.1, .inr ⟨.inr rfl, rfl⟩⟩
    · exact ih _ _ _ _ (h.mono fun p hp => .inl hp)

theorem good_hasKey (own : Option (K × V)) (cmp : K → K → Bool) (key : K) (todo : Nat) : ∀ S X i,
    Good own (fun _ _ => True) S X (hasKeyFrom (V := V) cmp key todo i) := by
  induction todo with
  | zero => intro S X i; trivial
  | succ t ih =>
    intro S X i
    refine ⟨ih _ _ _, fun p => ?_⟩
    dsimp only
    split
    · trivial
    · exact ih _ _ _

theorem good_insertAt (k : K) (v : V) (i : Nat) (S X) : Good (some (k, v)) (fun _ _ => True) S X (insertAt i k v) := by
  intro b
  cases b
  · exact ⟨rfl, .inr rfl, trivial⟩
  · trivial

theorem good_insertFrom (k : K) (v : V) (todo : Nat) : ∀ S X i, Good (some (k, v)) (fun _ _ => True) S X (insertFrom k v todo i) := by
  induction todo with
  | zero => intro S X i; trivial
  | succ t ih =>
    intro S X i b
    cases b
    · exact good_insertAt k v i S X
    · exact ih _ _ _

theorem good_remove (own : Option (K × V)) (cmp : K → K → Bool) (veq : V → V → Bool) (key : K) (value : V) (todo : Nat) : ∀ S X i,
    Good own (fun _ _ => True) S X (removeFrom cmp veq key value todo i) := by
  induction todo with
  | zero => intro S X i; trivial
  | succ t ih =>
    intro S X i
    refine ⟨ih _ _ _, fun p => ?_⟩
    dsimp only
    split
    · intro q
      dsimp only
      split
      · trivial
      · exact ih _ _ _
    · exact ih _ _ _

/-- The values a call has returned, if it returns values, belong to the pairs. -/
def ResFrom (X : K × V → Prop) : Res K V → Prop
  | .values vs => FromPairs X vs
  | _ => True

theorem ResFrom.mono {X Y : K × V → Prop} (h : ∀ p, X p → Y p) {r : Res K V} (hr : ResFrom X r) : ResFrom Y r := by
  cases r with
  | values vs => exact FromPairs.mono h hr
  | _ => trivial

theorem good_call (cmp : K → K → Bool) (veq : V → V → Bool) (n : Nat) (c : Call K V) : Good c.inserts ResFrom (fun _ => False) (fun _ => False) (c.prog cmp veq n) := by
  cases c with
  | insert k v =>
    refine good_bind _ (R := fun _ _ => True) _ _ ?_ fun _ _ _ _ => trivial
    refine good_bind _ (R := fun _ _ => True) _ _ (good_numReadable _ _ _ _ _ _) fun S X c _ => ?_
    split
    · trivial
    · refine good_bind _ (R := fun _ _ => True) _ _ (good_hasKey _ cmp k n _ _ _) fun S X b _ => ?_
      split
      · trivial
      · exact good_insertFrom k v n _ _ _
  | remove k v => exact good_bind _ (R := fun _ _ => True) _ _ (good_remove _ cmp veq k v n _ _ _) fun _ _ _ _ => trivial
  | getValue k => exact good_bind _ (R := FromPairs) _ _ (good_getValue _ cmp k n _ _ _ [] (by intro v hv; cases hv)) fun _ _ _ h => h
  | numReadable => exact good_bind _ (R := fun _ _ => True) _ _ (good_numReadable _ _ _ _ _ _) fun _ _ _ _ => trivial
  | isFull => exact good_bind _ (R := fun _ _ => True) _ _ (good_numReadable _ _ _ _ _ _) fun _ _ _ _ => trivial
  | isEmpty => exact good_bind _ (R := fun _ _ => True) _ _ (good_numReadable _ _ _ _ _ _) fun _ _ _ _ => trivial
  | insertAt i k v => exact good_bind _ (R := fun _ _ => True) _ _ (good_insertAt k v i _ _) fun _ _ _ _ => trivial
  | removeAt i => trivial
  | isOccupied i => exact fun _ => trivial
  | isReadable i => exact ⟨trivial, trivial⟩
  | keyAt i => exact fun _ => trivial
  | valueAt i => exact fun _ => trivial

/-- One step: the page keeps what it promises about any set `W` of pairs with `own` in it, and so does the thread. -/
theorem good_step {W : K × V → Prop} {own : Option (K × V)} {R : (K × V → Prop) → α → Prop} {S X} {g : View K V} {p : Prog K V α}
    (hown : ∀ q, own = some q → W q) (hg : ∀ i, g.rd i = true → W (g.pair i)) (hS : ∀ i, S i → W (g.pair i)) (hX : ∀ q, X q → W q)
    (hp : Good own R S X p) :
    (∀ i, (vstep g p).1.rd i = true → W ((vstep g p).1.pair i)) ∧ (∀ i, W (g.pair i) → W ((vstep g p).1.pair i)) ∧
    ∃ S' X', (∀ i, S' i → W ((vstep g p).1.pair i)) ∧ (∀ q, X' q → W q) ∧ Good own R S' X' (vstep g p).2 := by
  cases p with
  | ret a => exact ⟨hg, fun _ h => h, S, X, hS, hX, hp⟩
  | panic => exact ⟨hg, fun _ h => h, S, X, hS, hX, hp⟩
  | isOccupied i k => exact ⟨hg, fun _ h => h, S, X, hS, hX, hp _⟩
  | isReadable i k =>
    refine ⟨hg, fun _ h => h, ?_⟩
    simp only [vstep]
    cases hr : g.rd i
    · exact ⟨S, X, hS, hX, hp.1⟩
    · refine ⟨_, X, ?_, hX, hp.2⟩
      rintro j (hj | rfl)
      · exact hS j hj
      · exact hg _ hr
  | setOccupied i k => exact ⟨hg, fun _ h => h, S, X, hS, hX, hp⟩
  | setReadable i k =>
    refine ⟨?_, fun _ h => h, S, X, hS, hX, hp.2⟩
    intro j hj
    simp only [vstep, Bool.or_eq_true, decide_eq_true_eq] at hj
    rcases hj with rfl | hj
    · exact hS _ hp.1
    · exact hg j hj
  | clearReadable i k =>
    refine ⟨?_, fun _ h => h, S, X, hS, hX, hp⟩
    intro j hj
    simp only [vstep, Bool.and_eq_true] at hj
    exact hg j hj.2
  | pairAt i k =>
    refine ⟨hg, fun _ h => h, S, _, hS, ?_, hp _⟩
    rintro q (hq | ⟨hi, rfl⟩)
    · exact hX q hq
    · exact hS i hi
  | write i q k =>
    have hq : W q := hown q hp.1
    have key : ∀ j, W (g.pair j) → W (if j = i then q else g.pair j) := by
      intro j hj
      split
      · exact hq
      · exact hj
    refine ⟨fun j hj => key j (hg j hj), key, _, X, ?_, hX, hp.2⟩
    rintro j (hj | rfl)
    · exact key j (hS j hj)
    · simp only [vstep, if_true]; exact hq

/-- Every thread keeps the rules, and what has been returned came from pairs whose insertion had begun. -/
structure VInv (d : K × V) (n : Nat) (s : Sys K V) : Prop where
  wf : WF n s.page
  page : ∀ i, (view d s.page).rd i = true → s.Begun ((view d s.page).pair i)
  range : ∀ t, ∀ c ∈ (s.threads t).todo, c.InRange n
  now : ∀ t c p, (s.threads t).now = some (c, p) → Within n p ∧
    ∃ S X, (∀ i, S i → s.Begun ((view d s.page).pair i)) ∧ (∀ q, X q → s.Begun q) ∧ Good c.inserts ResFrom S X p
  past : ∀ t, ∀ x ∈ (s.threads t).past, ResFrom s.Begun x.2

theorem begun_put {s : Sys K V} {t : Nat} {g : Page K V} {th : Thread K V}
    (hp : ∀ x ∈ (s.threads t).past, x ∈ th.past)
    (hn : ∀ x, (s.threads t).now = some x → (∃ y, th.now = some y ∧ y.1 = x.1) ∨ ∃ y ∈ th.past, y.1 = x.1) (q : K × V)
    (h : s.Begun q) : (s.put t g th).Begun q := by
  obtain ⟨u, h⟩ := h
  refine ⟨u, ?_⟩
  by_cases hu : u = t
  · subst hu
    rw [put_same]
    rcases h with ⟨x, hx, hq⟩ | ⟨x, hx, hq⟩
    · exact .inl ⟨x, hp x hx, hq⟩
    · rcases hn x hx with ⟨y, hy, e⟩ | ⟨y, hy, e⟩
      · exact .inr ⟨y, hy, by rw [e]; exact hq⟩
      · exact .inl ⟨y, hy, by rw [e]; exact hq⟩
  · rw [put_other _ hu]; exact h

theorem vinv_step {d : K × V} {n : Nat} (cmp : K → K → Bool) (veq : V → V → Bool) {s : Sys K V} (h : VInv d n s) (u : Nat) :
    VInv d n (s.step cmp veq n u) := by
  rcases sysStep_cases cmp veq n s u with ⟨e, _⟩ | ⟨c, cs, hn, ht, e⟩ | ⟨c, r, hn, e⟩ | ⟨c, p, hn, hnr, e⟩
  · rw [e]; exact h
  · rw [e]
    have hb := begun_put (s := s) (t := u) (g := s.page) (th := { s.threads u with now := some (c, c.prog cmp veq n), todo := cs })
      (fun _ h => h) (by intro x hx; rw [hn] at hx; cases hx)
    refine ⟨h.wf, fun i hi => hb _ (h.page i hi), fun t => ?_, fun t c' p' hnow => ?_, fun t => ?_⟩
    · by_cases hw : t = u
      · subst hw; rw [put_same]
        exact fun c' hc' => h.range t c' (by rw [ht]; exact List.mem_cons_of_mem _ hc')
      · rw [put_other _ hw]; exact h.range t
    · by_cases hw : t = u
      · subst hw; rw [put_same] at hnow
        cases hnow
        exact ⟨within_call cmp veq _ (h.range t _ (by rw [ht]; simp)), _, _, fun _ hS => hS.elim, fun _ hX => hX.elim, good_call cmp veq n _⟩
      · rw [put_other _ hw] at hnow
        obtain ⟨a, S, X, b1, b2, b3⟩ := h.now t c' p' hnow
        exact ⟨a, S, X, fun i hi => hb _ (b1 i hi), fun q hq => hb _ (b2 q hq), b3⟩
    · by_cases hw : t = u
      · subst hw; rw [put_same]
        exact fun x hx => (h.past t x hx).mono hb
      · rw [put_other _ hw]
        exact fun x hx => (h.past t x hx).mono hb
  · rw [e]
    have hb := begun_put (s := s) (t := u) (g := s.page) (th := { s.threads u with past := (s.threads u).past ++ [(c, r)], now := none })
      (fun _ h => List.mem_append_left _ h) (by
        intro x hx
        rw [hn] at hx
        cases hx
        exact .inr ⟨(c, r), List.mem_append_right _ (by simp), rfl⟩)
    refine ⟨h.wf, fun i hi => hb _ (h.page i hi), fun t => ?_, fun t c' p' hnow => ?_, fun t => ?_⟩
    · by_cases hw : t = u
      · subst hw; rw [put_same]; exact h.range t
      · rw [put_other _ hw]; exact h.range t
    · by_cases hw : t = u
      · subst hw; rw [put_same] at hnow; cases hnow
      · rw [put_other _ hw] at hnow
        obtain ⟨a, S, X, b1, b2, b3⟩ := h.now t c' p' hnow
        exact ⟨a, S, X, fun i hi => hb _ (b1 i hi), fun q hq => hb _ (b2 q hq), b3⟩
    · by_cases hw : t = u
      · subst hw; rw [put_same]
        intro x hx
        rw [List.mem_append, List.mem_singleton] at hx
        rcases hx with hx | rfl
        · exact (h.past t x hx).mono hb
        · obtain ⟨a, S, X, b1, b2, b3⟩ := h.now t c _ hn
          exact ResFrom.mono (fun q hq => hb _ (b2 q hq)) b3
      · rw [put_other _ hw]
        exact fun x hx => (h.past t x hx).mono hb
  · rw [e]
    have hb := begun_put (s := s) (t := u) (g := (step s.page p).1) (th := { s.threads u with now := some (c, (step s.page p).2) })
      (fun _ h => h) (by
        intro x hx
        rw [hn] at hx
        cases hx
        exact .inl ⟨_, rfl, rfl⟩)
    obtain ⟨hin, S, X, b1, b2, b3⟩ := h.now u c p hn
    obtain ⟨w1, w2, w3, w4⟩ := step_view d h.wf hin
    obtain ⟨q1, q2, S', X', q3, q4, q5⟩ := good_step (W := s.Begun) (fun q hq => ⟨u, .inr ⟨_, hn, hq⟩⟩) h.page b1 b2 b3
    rw [← w2] at q1 q2 q3
    rw [← w3] at q5
    refine ⟨w1, fun i hi => hb _ (q1 i hi), fun t => ?_, fun t c' p' hnow => ?_, fun t => ?_⟩
    · by_cases hw : t = u
      · subst hw; rw [put_same]; exact h.range t
      · rw [put_other _ hw]; exact h.range t
    · by_cases hw : t = u
      · subst hw; rw [put_same] at hnow
        cases hnow
        exact ⟨w4, S', X', fun i hi => hb _ (q3 i hi), fun q hq => hb _ (q4 q hq), q5⟩
      · rw [put_other _ hw] at hnow
        obtain ⟨a, S, X, b1, b2, b3⟩ := h.now t c' p' hnow
        exact ⟨a, S, X, fun i hi => hb _ (q2 i (b1 i hi)), fun q hq => hb _ (b2 q hq), b3⟩
    · by_cases hw : t = u
      · subst hw; rw [put_same]
        exact fun x hx => (h.past t x hx).mono hb
      · rw [put_other _ hw]
        exact fun x hx => (h.past t x hx).mono hb

theorem vinv_runs {d : K × V} {n : Nat} (cmp : K → K → Bool) (veq : V → V → Bool) (sched : List Nat) :
    ∀ {s : Sys K V}, VInv d n s → VInv d n (s.runs cmp veq n sched) := by
  induction sched with
  | nil => intro s h; exact h
  | cons u us ih => intro s h; exact ih (vinv_step cmp veq h u)

theorem vinv_start {dk : K} {dv : V} {n : Nat} {g : Page K V} (hg : Page.new dk dv n = some g) (calls : Nat → List (Call K V))
    (hr : ∀ t, ∀ c ∈ calls t, c.InRange n) : VInv (dk, dv) n (Sys.start g calls) := by
  obtain ⟨h1, h2⟩ := new_wf hg
  refine ⟨h1, fun i hi => ?_, hr, fun t c p hnow => (by cases hnow), fun t x hx => (by cases hx)⟩
  rw [show (Sys.start g calls).page = g from rfl, h2] at hi
  cases hi

end Verif.HashPage
