import Verif.HashPage.Spec
/-!
# Bits, views of a page, and calls that run alone
-/

namespace Verif.HashPage

variable {K V α β : Type}

/-! ## Bits -/

theorem and_shift (b j : Nat) : decide (b &&& (1 <<< j) ≠ 0) = b.testBit j := by
  rw [Nat.shiftLeft_eq, Nat.one_mul]
  cases hb : b.testBit j
  · have : b &&& 2 ^ j = 0 := by
      apply Nat.eq_of_testBit_eq
      intro i
      rw [Nat.testBit_and, Nat.testBit_two_pow, Nat.zero_testBit]
      by_cases h : j = i
      · subst h; simp [hb]
      · simp [h]
    simp [this]
  · have : b &&& 2 ^ j ≠ 0 := by
      intro h
      have := congrArg (Nat.testBit · j) h
      simp [Nat.testBit_and, Nat.testBit_two_pow, hb] at this
    simp [this]

/-- The bit `i` of a bitmap; bits that do not exist are 0. -/
def bit (bytes : List Nat) (i : Nat) : Bool := match bytes[i / 8]? with
  | some b => b.testBit (i % 8)
  | none => false

theorem bitAt_eq {bytes : List Nat} {i : Nat} (h : i / 8 < bytes.length) : bitAt bytes i = some (bit bytes i) := by
  unfold bitAt bit
  rw [List.getElem?_eq_getElem h]
  simp only [Option.map_some, and_shift]

theorem setBit_eq {bytes : List Nat} {i : Nat} (h : i / 8 < bytes.length) :
    ∃ bs, setBit bytes i = some bs ∧ bs.length = bytes.length ∧ ∀ j, bit bs j = (decide (j = i) || bit bytes j) := by
  unfold setBit
  rw [List.getElem?_eq_getElem h]
  refine ⟨_, rfl, by simp, fun j => ?_⟩
  unfold bit
  rw [List.getElem?_set]
  by_cases hb : i / 8 = j / 8
  · rw [if_pos hb, if_pos (by omega), ← hb, List.getElem?_eq_getElem h]
    simp only [Nat.testBit_or, Nat.shiftLeft_eq, Nat.one_mul, Nat.testBit_two_pow]
    by_cases hj : j = i
    · subst hj; simp
    · have : ¬ i % 8 = j % 8 := by omega
      simp [hj, this]
  · rw [if_neg hb]
    have : j ≠ i := by intro h; exact hb (by rw [h])
    simp [this]

theorem clearBit_eq {bytes : List Nat} {i : Nat} (h : i / 8 < bytes.length) :
    ∃ bs, clearBit bytes i = some bs ∧ bs.length = bytes.length ∧ ∀ j, bit bs j = (!decide (j = i) && bit bytes j) := by
  unfold clearBit
  rw [List.getElem?_eq_getElem h]
  refine ⟨_, rfl, by simp, fun j => ?_⟩
  unfold bit
  rw [List.getElem?_set]
  by_cases hb : i / 8 = j / 8
  · rw [if_pos hb, if_pos (by omega), ← hb, List.getElem?_eq_getElem h]
    have h255 : (255 : Nat).testBit (j % 8) = true := by
      have : j % 8 < 8 := Nat.mod_lt _ (by omega)
      have : j % 8 = 0 ∨ j % 8 = 1 ∨ j % 8 = 2 ∨ j % 8 = 3 ∨ j % 8 = 4 ∨ j % 8 = 5 ∨ j % 8 = 6 ∨ j % 8 = 7 := by omega
      rcases this with h | h | h | h | h | h | h | h <;> rw [h] <;> decide
    simp only [Nat.testBit_and, Nat.testBit_xor, Nat.shiftLeft_eq, Nat.one_mul, Nat.testBit_two_pow, h255]
    by_cases hj : j = i
    · subst hj; simp
    · have : ¬ i % 8 = j % 8 := by omega
      simp [hj, this]
  · rw [if_neg hb]
    have : j ≠ i := by intro h; exact hb (by rw [h])
    simp [this]

/-! ## Views -/

/-- A page as functions of the slot number. -/
structure View (K V : Type) where
  occ : Nat → Bool
  rd : Nat → Bool
  pair : Nat → K × V

/-- The view of a page. -/
def view (d : K × V) (g : Page K V) : View K V := ⟨bit g.occupied, bit g.readable, fun i => (g.array[i]?).getD d⟩

/-- A page of `n` slots on which no thread has panicked. -/
structure WF (n : Nat) (g : Page K V) : Prop where
  occ : ∀ i, i < n → i / 8 < g.occupied.length
  rd : ∀ i, i < n → i / 8 < g.readable.length
  arr : g.array.length = n
  calm : g.poisoned = false

/-- A step on a view. -/
def vstep (g : View K V) : Prog K V α → View K V × Prog K V α
  | .ret a => (g, .ret a)
  | .panic => (g, .panic)
  | .isOccupied i k => (g, k (g.occ i))
  | .isReadable i k => (g, k (g.rd i))
  | .setOccupied i k => ({ g with occ := fun j => decide (j = i) || g.occ j }, k)
  | .setReadable i k => ({ g with rd := fun j => decide (j = i) || g.rd j }, k)
  | .clearReadable i k => ({ g with rd := fun j => !decide (j = i) && g.rd j }, k)
  | .pairAt i k => (g, k (g.pair i))
  | .write i p k => ({ g with pair := fun j => if j = i then p else g.pair j }, k)

/-- A whole program on a view. -/
def vrun : View K V → Prog K V α → View K V × Option α
  | g, .ret a => (g, some a)
  | g, .panic => (g, none)
  | g, .isOccupied i k => vrun g (k (g.occ i))
  | g, .isReadable i k => vrun g (k (g.rd i))
  | g, .setOccupied i k => vrun { g with occ := fun j => decide (j = i) || g.occ j } k
  | g, .setReadable i k => vrun { g with rd := fun j => decide (j = i) || g.rd j } k
  | g, .clearReadable i k => vrun { g with rd := fun j => !decide (j = i) && g.rd j } k
  | g, .pairAt i k => vrun g (k (g.pair i))
  | g, .write i p k => vrun { g with pair := fun j => if j = i then p else g.pair j } k

/-- The program touches slots below `n` only and does not panic by itself. -/
def Within (n : Nat) : Prog K V α → Prop
  | .ret _ => True
  | .panic => False
  | .isOccupied i k => i < n ∧ ∀ b, Within n (k b)
  | .isReadable i k => i < n ∧ ∀ b, Within n (k b)
  | .setOccupied i k => i < n ∧ Within n k
  | .setReadable i k => i < n ∧ Within n k
  | .clearReadable i k => i < n ∧ Within n k
  | .pairAt i k => i < n ∧ ∀ p, Within n (k p)
  | .write i _ k => i < n ∧ Within n k

theorem step_view (d : K × V) {n : Nat} {g : Page K V} {p : Prog K V α} (hg : WF n g) (hp : Within n p) :
    WF n (step g p).1 ∧ view d (step g p).1 = (vstep (view d g) p).1 ∧ (step g p).2 = (vstep (view d g) p).2 ∧ Within n (step g p).2 := by
  cases p with
  | ret a => exact ⟨hg, rfl, rfl, hp⟩
  | panic => exact hp.elim
  | isOccupied i k =>
    simp only [step, vstep, bitAt_eq (hg.occ i hp.1)]
    exact ⟨hg, trivial, rfl, hp.2 _⟩
  | isReadable i k =>
    simp only [step, vstep, bitAt_eq (hg.rd i hp.1)]
    exact ⟨hg, trivial, rfl, hp.2 _⟩
  | setOccupied i k =>
    obtain ⟨bs, h1, h2, h3⟩ := setBit_eq (hg.occ i hp.1)
    simp only [step, vstep, h1]
    exact ⟨⟨fun j hj => h2 ▸ hg.occ j hj, hg.rd, hg.arr, hg.calm⟩, by simp only [view, funext h3], trivial, hp.2⟩
  | setReadable i k =>
    obtain ⟨bs, h1, h2, h3⟩ := setBit_eq (hg.rd i hp.1)
    simp only [step, vstep, h1]
    exact ⟨⟨hg.occ, fun j hj => h2 ▸ hg.rd j hj, hg.arr, hg.calm⟩, by simp only [view, funext h3], trivial, hp.2⟩
  | clearReadable i k =>
    obtain ⟨bs, h1, h2, h3⟩ := clearBit_eq (hg.rd i hp.1)
    simp only [step, vstep, h1]
    exact ⟨⟨hg.occ, fun j hj => h2 ▸ hg.rd j hj, hg.arr, hg.calm⟩, by simp only [view, funext h3], trivial, hp.2⟩
  | pairAt i k =>
    have hi : i < g.array.length := hg.arr ▸ hp.1
    simp only [step, vstep, hg.calm, Bool.false_eq_true, if_false, List.getElem?_eq_getElem hi, view, Option.getD_some]
    exact ⟨hg, trivial, trivial, hp.2 _⟩
  | write i q k =>
    have hi : i < g.array.length := hg.arr ▸ hp.1
    simp only [step, vstep, hg.calm, Bool.false_eq_true, if_false, if_pos hi]
    refine ⟨⟨hg.occ, hg.rd, by simp [hg.arr], rfl⟩, ?_, trivial, hp.2⟩
    simp only [view, View.mk.injEq, true_and]
    funext j
    rw [List.getElem?_set]
    by_cases hj : j = i
    · subst hj; simp [hi]
    · rw [if_neg (Ne.symm hj), if_neg hj]

theorem run_step (g : Page K V) (p : Prog K V α) : run (step g p).1 (step g p).2 = run g p := by
  cases p with
  | ret a => rfl
  | panic => rfl
  | isOccupied i k => simp only [step, run]; split <;> rfl
  | isReadable i k => simp only [step, run]; split <;> rfl
  | setOccupied i k => simp only [step, run]; split <;> rfl
  | setReadable i k => simp only [step, run]; split <;> rfl
  | clearReadable i k => simp only [step, run]; split <;> rfl
  | pairAt i k => simp only [step, run]; split; · rfl
                  split <;> rfl
  | write i q k => simp only [step, run]; split; · rfl
                   split <;> rfl

theorem vrun_step (g : View K V) (p : Prog K V α) : vrun (vstep g p).1 (vstep g p).2 = vrun g p := by
  cases p <;> rfl

theorem run_view (d : K × V) {n : Nat} (p : Prog K V α) : ∀ {g : Page K V}, WF n g → Within n p →
    WF n (run g p).1 ∧ view d (run g p).1 = (vrun (view d g) p).1 ∧ (run g p).2 = (vrun (view d g) p).2 := by
  induction p with
  | ret a => intro g hg _; exact ⟨hg, rfl, rfl⟩
  | panic => intro g _ hp; exact hp.elim
  | isOccupied i k ih =>
    intro g hg hp
    obtain ⟨h1, h2, h3, h4⟩ := step_view d hg hp
    rw [← run_step, ← vrun_step, ← h2, ← h3]
    simp only [step, bitAt_eq (hg.occ i hp.1)] at *
    exact ih _ h1 h4
  | isReadable i k ih =>
    intro g hg hp
    obtain ⟨h1, h2, h3, h4⟩ := step_view d hg hp
    rw [← run_step, ← vrun_step, ← h2, ← h3]
    simp only [step, bitAt_eq (hg.rd i hp.1)] at *
    exact ih _ h1 h4
  | setOccupied i k ih =>
    intro g hg hp
    obtain ⟨h1, h2, h3, h4⟩ := step_view d hg hp
    rw [← run_step, ← vrun_step, ← h2, ← h3, h3]
    exact ih h1 hp.2
  | setReadable i k ih =>
    intro g hg hp
    obtain ⟨h1, h2, h3, h4⟩ := step_view d hg hp
    rw [← run_step, ← vrun_step, ← h2, ← h3, h3]
    exact ih h1 hp.2
  | clearReadable i k ih =>
    intro g hg hp
    obtain ⟨h1, h2, h3, h4⟩ := step_view d hg hp
    rw [← run_step, ← vrun_step, ← h2, ← h3, h3]
    exact ih h1 hp.2
  | pairAt i k ih =>
    intro g hg hp
    obtain ⟨h1, h2, h3, h4⟩ := step_view d hg hp
    rw [← run_step, ← vrun_step, ← h2, ← h3, h3]
    rw [h3] at h4
    exact ih _ h1 (hp.2 _)
  | write i q k ih =>
    intro g hg hp
    obtain ⟨h1, h2, h3, h4⟩ := step_view d hg hp
    rw [← run_step, ← vrun_step, ← h2, ← h3, h3]
    exact ih h1 hp.2

theorem within_bind {n : Nat} (p : Prog K V α) {f : α → Prog K V β} (hp : Within n p) (hf : ∀ a, Within n (f a)) :
    Within n (p.bind f) := by
  induction p with
  | ret a => exact hf a
  | panic => exact hp.elim
  | isOccupied i k ih => exact ⟨hp.1, fun b => ih b (hp.2 b)⟩
  | isReadable i k ih => exact ⟨hp.1, fun b => ih b (hp.2 b)⟩
  | setOccupied i k ih => exact ⟨hp.1, ih hp.2⟩
  | setReadable i k ih => exact ⟨hp.1, ih hp.2⟩
  | clearReadable i k ih => exact ⟨hp.1, ih hp.2⟩
  | pairAt i k ih => exact ⟨hp.1, fun b => ih b (hp.2 b)⟩
  | write i q k ih => exact ⟨hp.1, ih hp.2⟩

theorem within_numReadable {n : Nat} (todo : Nat) : ∀ i c, i + todo ≤ n → Within (K := K) (V := V) n (numReadableFrom todo i c) := by
  induction todo with
  | zero => intro i c _; trivial
  | succ t ih => intro i c h; exact ⟨by omega, fun b => ih _ _ (by omega)⟩

theorem within_getValue {n : Nat} (cmp : K → K → Bool) (key : K) (todo : Nat) :
    ∀ i (acc : List V), i + todo ≤ n → Within n (getValueFrom cmp key todo i acc) := by
  induction todo with
  | zero => intro i c _; trivial
  | succ t ih =>
    intro i acc h
    refine ⟨by omega, fun b => ?_⟩
    dsimp only
    split
    · refine ⟨by omega, fun p => ?_⟩
      dsimp only
      split
      · exact ⟨by omega, fun q => ih _ _ (by omega)⟩
      · exact ih _ _ (by omega)
    · exact ih _ _ (by omega)

theorem within_hasKey {n : Nat} (cmp : K → K → Bool) (key : K) (todo : Nat) :
    ∀ i, i + todo ≤ n → Within (V := V) n (hasKeyFrom cmp key todo i) := by
  induction todo with
  | zero => intro i _; trivial
  | succ t ih =>
    intro i h
    refine ⟨by omega, fun b => ?_⟩
    dsimp only
    split
    · refine ⟨by omega, fun p => ?_⟩
      dsimp only
      split
      · trivial
      · exact ih _ (by omega)
    · exact ih _ (by omega)

theorem within_insertAt {n i : Nat} (key : K) (value : V) (h : i < n) : Within n (insertAt i key value) := by
  refine ⟨h, fun b => ?_⟩
  dsimp only
  split
  · trivial
  · exact ⟨h, h, h, trivial⟩

theorem within_insertFrom {n : Nat} (key : K) (value : V) (todo : Nat) : ∀ i, i + todo ≤ n → Within n (insertFrom key value todo i) := by
  induction todo with
  | zero => intro i _; trivial
  | succ t ih =>
    intro i h
    refine ⟨by omega, fun b => ?_⟩
    dsimp only
    split
    · exact ih _ (by omega)
    · exact within_insertAt _ _ (by omega)

theorem within_remove {n : Nat} (cmp : K → K → Bool) (veq : V → V → Bool) (key : K) (value : V) (todo : Nat) :
    ∀ i, i + todo ≤ n → Within n (removeFrom cmp veq key value todo i) := by
  induction todo with
  | zero => intro i _; trivial
  | succ t ih =>
    intro i h
    refine ⟨by omega, fun b => ?_⟩
    dsimp only
    split
    · refine ⟨by omega, fun p => ?_⟩
      dsimp only
      split
      · refine ⟨by omega, fun q => ?_⟩
        dsimp only
        split
        · exact ⟨by omega, trivial⟩
        · exact ih _ (by omega)
      · exact ih _ (by omega)
    · exact ih _ (by omega)

theorem within_call {n : Nat} (cmp : K → K → Bool) (veq : V → V → Bool) (c : Call K V) (hc : c.InRange n) : Within n (c.prog cmp veq n) := by
  cases c with
  | insert k v =>
    refine within_bind _ ?_ fun _ => trivial
    refine within_bind _ (within_numReadable n 0 0 (by omega)) fun c => ?_
    split
    · trivial
    · refine within_bind _ (within_hasKey cmp k n 0 (by omega)) fun b => ?_
      split
      · trivial
      · exact within_insertFrom k v n 0 (by omega)
  | remove k v => exact within_bind _ (within_remove cmp veq k v n 0 (by omega)) fun _ => trivial
  | getValue k => exact within_bind _ (within_getValue cmp k n 0 [] (by omega)) fun _ => trivial
  | numReadable => exact within_bind _ (within_numReadable n 0 0 (by omega)) fun _ => trivial
  | isFull => exact within_bind _ (within_numReadable n 0 0 (by omega)) fun _ => trivial
  | isEmpty => exact within_bind _ (within_numReadable n 0 0 (by omega)) fun _ => trivial
  | insertAt i k v => exact within_bind _ (within_insertAt k v (hc i rfl)) fun _ => trivial
  | removeAt i => exact ⟨hc i rfl, trivial⟩
  | isOccupied i => exact ⟨hc i rfl, fun _ => trivial⟩
  | isReadable i => exact ⟨hc i rfl, fun _ => trivial⟩
  | keyAt i => exact ⟨hc i rfl, fun _ => trivial⟩
  | valueAt i => exact ⟨hc i rfl, fun _ => trivial⟩

theorem new_wf {dk : K} {dv : V} {n : Nat} {g : Page K V} (h : Page.new dk dv n = some g) :
    WF n g ∧ view (dk, dv) g = ⟨fun _ => false, fun _ => false, fun _ => (dk, dv)⟩ := by
  unfold Page.new at h
  split at h
  · cases h
  · cases h
    refine ⟨⟨fun i hi => ?_, fun i hi => ?_, by simp, rfl⟩, ?_⟩
    · simp only [List.length_replicate]; omega
    · simp only [List.length_replicate]; omega
    · have hb : ∀ m i, bit (List.replicate m 0) i = false := by
        intro m i
        unfold bit
        split
        · rename_i b hb
          have := List.mem_of_getElem? hb
          rw [List.mem_replicate] at this
          rw [this.2]; exact Nat.zero_testBit _
        · rfl
      simp only [view, View.mk.injEq]
      refine ⟨funext fun i => hb _ i, funext fun i => hb _ i, funext fun i => ?_⟩
      rw [List.getElem?_replicate]
      split <;> rfl

theorem vrun_bind (g : View K V) (p : Prog K V α) (f : α → Prog K V β) :
    vrun g (p.bind f) = match vrun g p with
      | (g', some a) => vrun g' (f a)
      | (g', none) => (g', none) := by
  induction p generalizing g with
  | ret a => rfl
  | panic => rfl
  | isOccupied i k ih => exact ih _ _
  | isReadable i k ih => exact ih _ _
  | setOccupied i k ih => exact ih _
  | setReadable i k ih => exact ih _
  | clearReadable i k ih => exact ih _
  | pairAt i k ih => exact ih _ _
  | write i q k ih => exact ih _

end Verif.HashPage
