import Verif.HashPage.Conc
/-!
# One thread that inserts, any number of others
-/

namespace Verif.HashPage

variable {K V α β : Type}

/-- A slot gets another fact. -/
def more (S : Nat → K × V → Prop) (i : Nat) (p : K × V) : Nat → K × V → Prop := fun j q => S j q ∨ (j = i ∧ q = p)

/-- A program of the thread that inserts (`w`) or of another one. It knows: `S`, the pairs of used slots; `D`, slots that are readable (as long as nobody
removes anything, `nr`); and, if it is the one that inserts, `F`, slots that are not used, and `P`, the pairs it has written. It writes the pair `own`
only, into slots that are not used, and makes a slot readable only when it is used. -/
def Fair (w nr : Bool) (own : Option (K × V)) (R : (Nat → K × V → Prop) → (Nat → Prop) → α → Prop) :
    (Nat → K × V → Prop) → (Nat → Prop) → (Nat → Prop) → (Nat → K × V → Prop) → Prog K V α → Prop
  | S, D, _, _, .ret a => R S D a
  | _, _, _, _, .panic => True
  | S, D, F, P, .isOccupied i k => Fair w nr own R S D F P (k true) ∧ Fair w nr own R S D (fun j => F j ∨ j = i) P (k false)
  | S, D, F, P, .isReadable i k => Fair w nr own R S D F P (k false) ∧ ∀ p, Fair w nr own R (more S i p) D F P (k true)
  | S, D, F, P, .setOccupied i k => w = true ∧ ∃ p, P i p ∧ own = some p ∧ Fair w nr own R (more S i p) D (fun j => F j ∧ j ≠ i) P k
  | S, D, F, P, .setReadable i k => w = true ∧ (∃ p, S i p) ∧ Fair w nr own R S (fun j => D j ∨ j = i) F P k
  | S, D, F, P, .clearReadable _ k => nr = false ∧ Fair w nr own R S D F P k
  | S, D, F, P, .pairAt i k => ∀ p, (∀ q, S i q → q = p) → Fair w nr own R S D F P (k p)
  | S, D, F, P, .write i p k => w = true ∧ F i ∧ own = some p ∧ Fair w nr own R S D F (fun j q => (j = i ∧ q = p) ∨ (j ≠ i ∧ P j q)) k

theorem fair_bind (w nr : Bool) (own : Option (K × V)) {R : (Nat → K × V → Prop) → (Nat → Prop) → α → Prop}
    {Q : (Nat → K × V → Prop) → (Nat → Prop) → β → Prop} (p : Prog K V α) (f : α → Prog K V β) :
    ∀ {S D F P}, Fair w nr own R S D F P p → (∀ S D F P a, R S D a → Fair w nr own Q S D F P (f a)) → Fair w nr own Q S D F P (p.bind f) := by
  induction p with
  | ret a => intro S D F P h hf; exact hf _ _ _ _ _ h
  | panic => intro S D F P h hf; trivial
  | isOccupied i k ih => intro S D F P h hf; exact ⟨ih _ h.1 hf, ih _ h.2 hf⟩
  | isReadable i k ih => intro S D F P h hf; exact ⟨ih _ h.1 hf, fun p => ih _ (h.2 p) hf⟩
  | setOccupied i k ih =>
    intro S D F P h hf
    obtain ⟨h1, p, h2, h3, h4⟩ := h
    exact ⟨h1, p, h2, h3, ih h4 hf⟩
  | setReadable i k ih => intro S D F P h hf; exact ⟨h.1, h.2.1, ih h.2.2 hf⟩
  | clearReadable i k ih => intro S D F P h hf; exact ⟨h.1, ih h.2 hf⟩
  | pairAt i k ih => intro S D F P h hf; exact fun p hp => ih p (h p hp) hf
  | write i q k ih => intro S D F P h hf; exact ⟨h.1, h.2.1, h.2.2.1, ih h.2.2.2 hf⟩

variable (w nr : Bool) (own : Option (K × V))

theorem fair_numReadable (todo : Nat) : ∀ S D F P i c, Fair w nr own (fun _ _ _ => True) S D F P (numReadableFrom todo i c) := by
  induction todo with
  | zero => intro S D F P i c; trivial
  | succ t ih => intro S D F P i c; exact ⟨ih _ _ _ _ _ _, fun p => ih _ _ _ _ _ _⟩

/-- Each value belongs to a pair in some slot with a key equal to the one asked for. -/
def FromSlots (cmp : K → K → Bool) (key : K) (S : Nat → K × V → Prop) (vs : List V) : Prop :=
  ∀ v ∈ vs, ∃ i k, S i (k, v) ∧ cmp k key = true

theorem fair_getValue (cmp : K → K → Bool) (key : K) (todo : Nat) : ∀ S D F P i acc, FromSlots cmp key S acc →
    Fair w nr own (fun S _ vs => FromSlots cmp key S vs) S D F P (getValueFrom cmp key todo i acc) := by
  induction todo with
  | zero => intro S D F P i acc h; exact h
  | succ t ih =>
    intro S D F P i acc h
    refine ⟨ih _ _ _ _ _ _ h, fun p => ?_⟩
    have h' : FromSlots cmp key (more S i p) acc := by
      intro v hv
      obtain ⟨j, k, a, b⟩ := h v hv
      exact ⟨j, k, .inl a, b⟩
    intro q hq
    dsimp only
    split
    · rename_i hc
      intro r hr
      refine ih _ _ _ _ _ _ ?_
      intro v hv
      rw [List.mem_append, List.mem_singleton] at hv
      rcases hv with hv | rfl
      · exact h' v hv
      · have e1 := hq p (.inr ⟨rfl, rfl⟩)
        have e2 := hr p (.inr ⟨rfl, rfl⟩)
        subst e1
        subst e2
        exact ⟨i, p.1, .inr ⟨rfl, rfl⟩, hc⟩
    · exact ih _ _ _ _ _ _ h'

theorem fair_hasKey (cmp : K → K → Bool) (key : K) (todo : Nat) : ∀ S D F P i,
    Fair w nr own (fun _ _ _ => True) S D F P (hasKeyFrom (V := V) cmp key todo i) := by
  induction todo with
  | zero => intro S D F P i; trivial
  | succ t ih =>
    intro S D F P i
    refine ⟨ih _ _ _ _ _, fun p q _ => ?_⟩
    dsimp only
    split
    · trivial
    · exact ih _ _ _ _ _

/-- If the pair was taken, a readable slot holds it. -/
def Took (n : Nat) (p : K × V) (S : Nat → K × V → Prop) (D : Nat → Prop) (b : Bool) : Prop := b = true → ∃ i, i < n ∧ S i p ∧ D i

theorem fair_insertAt {n : Nat} (k : K) (v : V) (i : Nat) (hi : i < n) (S D F P) :
    Fair true nr (some (k, v)) (Took n (k, v)) S D F P (insertAt i k v) := by
  refine ⟨fun h => (by cases h), rfl, .inr rfl, rfl, rfl, (k, v), .inl ⟨rfl, rfl⟩, rfl, rfl, ⟨(k, v), .inr ⟨rfl, rfl⟩⟩, ?_⟩
  exact fun _ => ⟨i, hi, .inr ⟨rfl, rfl⟩, .inr rfl⟩

theorem fair_insertFrom {n : Nat} (k : K) (v : V) (todo : Nat) : ∀ S D F P i, i + todo ≤ n →
    Fair true nr (some (k, v)) (Took n (k, v)) S D F P (insertFrom k v todo i) := by
  induction todo with
  | zero => intro S D F P i _ h; cases h
  | succ t ih =>
    intro S D F P i hi
    exact ⟨ih _ _ _ _ _ (by omega), fair_insertAt nr k v i (by omega) _ _ _ _⟩

theorem fair_remove (cmp : K → K → Bool) (veq : V → V → Bool) (key : K) (value : V) (todo : Nat) : ∀ S D F P i,
    Fair w false own (fun _ _ _ => True) S D F P (removeFrom cmp veq key value todo i) := by
  induction todo with
  | zero => intro S D F P i; trivial
  | succ t ih =>
    intro S D F P i
    refine ⟨ih _ _ _ _ _, fun p q _ => ?_⟩
    dsimp only
    split
    · intro r _
      dsimp only
      split
      · exact ⟨rfl, trivial⟩
      · exact ih _ _ _ _ _
    · exact ih _ _ _ _ _

/-- What a call returns, in terms of the slots. -/
def ResFair (cmp : K → K → Bool) (n : Nat) : Call K V → (Nat → K × V → Prop) → (Nat → Prop) → Res K V → Prop
  | .getValue key, S, _, .values vs => FromSlots cmp key S vs
  | .insert k v, S, D, .bool b => Took n (k, v) S D b
  | .insertAt _ k v, S, D, .bool b => Took n (k, v) S D b
  | _, _, _, _ => True

/-- The call removes something. -/
def Call.removes : Call K V → Bool
  | .remove _ _ => true
  | .removeAt _ => true
  | _ => false

theorem fair_call (cmp : K → K → Bool) (veq : V → V → Bool) (n : Nat) (c : Call K V) (hw : c.inserts ≠ none → w = true)
    (hnr : c.removes = true → nr = false) (hc : c.InRange n) :
    Fair w nr c.inserts (ResFair cmp n c) (fun _ _ => False) (fun _ => False) (fun _ => False) (fun _ _ => False) (c.prog cmp veq n) := by
  cases c with
  | insert k v =>
    obtain rfl : w = true := hw (by simp [Call.inserts])
    refine fair_bind _ _ _ (R := Took n (k, v)) _ _ ?_ fun _ _ _ _ _ h => h
    refine fair_bind _ _ _ (R := fun _ _ _ => True) _ _ (fair_numReadable _ _ _ _ _ _ _ _ _ _) fun S D F P c _ => ?_
    split
    · intro h; cases h
    · refine fair_bind _ _ _ (R := fun _ _ _ => True) _ _ (fair_hasKey _ _ _ cmp k n _ _ _ _ _) fun S D F P b _ => ?_
      split
      · intro h; cases h
      · exact fair_insertFrom nr k v n _ _ _ _ _ (by omega)
  | remove k v =>
    obtain rfl : nr = false := hnr rfl
    exact fair_bind _ _ _ (R := fun _ _ _ => True) _ _ (fair_remove _ _ cmp veq k v n _ _ _ _ _) fun _ _ _ _ _ _ => trivial
  | getValue k =>
    exact fair_bind _ _ _ (R := fun S _ vs => FromSlots cmp k S vs) _ _ (fair_getValue _ _ _ cmp k n _ _ _ _ _ [] (by intro v hv; cases hv))
      fun _ _ _ _ _ h => h
  | numReadable => exact fair_bind _ _ _ (R := fun _ _ _ => True) _ _ (fair_numReadable _ _ _ _ _ _ _ _ _ _) fun _ _ _ _ _ _ => trivial
  | isFull => exact fair_bind _ _ _ (R := fun _ _ _ => True) _ _ (fair_numReadable _ _ _ _ _ _ _ _ _ _) fun _ _ _ _ _ _ => trivial
  | isEmpty => exact fair_bind _ _ _ (R := fun _ _ _ => True) _ _ (fair_numReadable _ _ _ _ _ _ _ _ _ _) fun _ _ _ _ _ _ => trivial
  | insertAt i k v =>
    obtain rfl : w = true := hw (by simp [Call.inserts])
    exact fair_bind _ _ _ (R := Took n (k, v)) _ _ (fair_insertAt nr k v i (hc i rfl) _ _ _ _) fun _ _ _ _ _ h => h
  | removeAt i => exact ⟨hnr rfl, trivial⟩
  | isOccupied i => exact ⟨trivial, trivial⟩
  | isReadable i => exact ⟨trivial, fun _ => trivial⟩
  | keyAt i => exact fun _ _ => trivial
  | valueAt i => exact fun _ _ => trivial

variable {w nr own}

/-- The facts of a thread hold. -/
structure Facts (w nr : Bool) (W : K × V → Prop) (g : View K V) (S : Nat → K × V → Prop) (D F : Nat → Prop) (P : Nat → K × V → Prop) : Prop where
  slots : ∀ i p, S i p → g.occ i = true ∧ g.pair i = p ∧ W p
  readable : nr = true → ∀ i, D i → g.rd i = true
  free : w = true → ∀ i, F i → g.occ i = false
  written : w = true → ∀ i p, P i p → g.pair i = p

/-- What never changes back: a used slot stays used and keeps its pair, and if nobody removes anything, a readable slot stays readable. -/
structure Grows (nr : Bool) (g h : View K V) : Prop where
  used : ∀ i, g.occ i = true → h.occ i = true ∧ h.pair i = g.pair i
  readable : nr = true → ∀ i, g.rd i = true → h.rd i = true

theorem Grows.refl (nr : Bool) (g : View K V) : Grows nr g g := ⟨fun _ h => ⟨h, rfl⟩, fun _ _ h => h⟩

/-- The page: a readable slot is used and holds a pair somebody has begun to insert. -/
def Sound (W : K × V → Prop) (g : View K V) : Prop := ∀ i, g.rd i = true → g.occ i = true ∧ W (g.pair i)

theorem fair_step {W : K × V → Prop} {R : (Nat → K × V → Prop) → (Nat → Prop) → α → Prop} {S D F P} {g : View K V} {p : Prog K V α}
    (hown : ∀ q, own = some q → W q) (hg : Sound W g) (hf : Facts w nr W g S D F P) (hp : Fair w nr own R S D F P p) :
    Sound W (vstep g p).1 ∧ Grows nr g (vstep g p).1 ∧ (w = false → (vstep g p).1.occ = g.occ ∧ (vstep g p).1.pair = g.pair) ∧
    ∃ S' D' F' P', Facts w nr W (vstep g p).1 S' D' F' P' ∧ Fair w nr own R S' D' F' P' (vstep g p).2 := by
  cases p with
  | ret a => exact ⟨hg, .refl _ _, fun _ => ⟨rfl, rfl⟩, S, D, F, P, hf, hp⟩
  | panic => exact ⟨hg, .refl _ _, fun _ => ⟨rfl, rfl⟩, S, D, F, P, hf, hp⟩
  | isOccupied i k =>
    refine ⟨hg, .refl _ _, fun _ => ⟨rfl, rfl⟩, ?_⟩
    simp only [vstep]
    cases ho : g.occ i
    · refine ⟨S, D, _, P, ⟨hf.slots, hf.readable, fun hw j hj => ?_, hf.written⟩, hp.2⟩
      rcases hj with hj | rfl
      · exact hf.free hw j hj
      · exact ho
    · exact ⟨S, D, F, P, hf, hp.1⟩
  | isReadable i k =>
    refine ⟨hg, .refl _ _, fun _ => ⟨rfl, rfl⟩, ?_⟩
    simp only [vstep]
    cases hr : g.rd i
    · exact ⟨S, D, F, P, hf, hp.1⟩
    · refine ⟨_, D, F, P, ⟨fun j q hj => ?_, hf.readable, hf.free, hf.written⟩, hp.2 (g.pair i)⟩
      rcases hj with hj | ⟨rfl, rfl⟩
      · exact hf.slots j q hj
      · exact ⟨(hg _ hr).1, rfl, (hg _ hr).2⟩
  | setOccupied i k =>
    obtain ⟨hw, q, h1, h2, h3⟩ := hp
    refine ⟨fun j hj => ⟨?_, (hg j hj).2⟩, ⟨fun j hj => ⟨?_, rfl⟩, fun _ _ h => h⟩, fun h => (by rw [hw] at h; cases h), _, D, _, P, ⟨?_, hf.readable, ?_, hf.written⟩, h3⟩
    · simp [vstep, (hg j hj).1]
    · simp [vstep, hj]
    · rintro j r (hj | ⟨rfl, rfl⟩)
      · obtain ⟨a, b⟩ := hf.slots j r hj
        exact ⟨by simp [vstep, a], b⟩
      · exact ⟨by simp [vstep], hf.written hw _ _ h1, hown _ h2⟩
    · intro _ j hj
      simp [vstep, hj.2, hf.free hw j hj.1]
  | setReadable i k =>
    obtain ⟨hw, ⟨q, h1⟩, h2⟩ := hp
    obtain ⟨a, b, c⟩ := hf.slots i q h1
    refine ⟨fun j hj => ?_, ⟨fun j hj => ⟨hj, rfl⟩, fun _ j hj => by simp [vstep, hj]⟩, fun h => (by rw [hw] at h; cases h), S, _, F, P,
      ⟨hf.slots, fun hn j hj => ?_, hf.free, hf.written⟩, h2⟩
    · simp only [vstep, Bool.or_eq_true, decide_eq_true_eq] at hj
      rcases hj with rfl | hj
      · exact ⟨a, b ▸ c⟩
      · exact hg j hj
    · rcases hj with hj | rfl
      · simp [vstep, hf.readable hn j hj]
      · simp [vstep]
  | clearReadable i k =>
    obtain ⟨hn, hp⟩ := hp
    refine ⟨fun j hj => ?_, ⟨fun j hj => ⟨hj, rfl⟩, fun h => (by rw [hn] at h; cases h)⟩, fun _ => ⟨rfl, rfl⟩, S, D, F, P,
      ⟨hf.slots, fun h => (by rw [hn] at h; cases h), hf.free, hf.written⟩, hp⟩
    simp only [vstep, Bool.and_eq_true] at hj
    exact hg j hj.2
  | pairAt i k =>
    exact ⟨hg, .refl _ _, fun _ => ⟨rfl, rfl⟩, S, D, F, P, hf, hp _ fun q hq => (hf.slots i q hq).2.1.symm⟩
  | write i q k =>
    obtain ⟨hw, h1, h2, h3⟩ := hp
    have ho := hf.free hw i h1
    have hne : ∀ j, g.occ j = true → j ≠ i := by rintro j hj rfl; rw [ho] at hj; cases hj
    refine ⟨fun j hj => ?_, ⟨fun j hj => ⟨hj, ?_⟩, fun _ _ h => h⟩, fun h => (by rw [hw] at h; cases h), S, D, F, _,
      ⟨fun j r hj => ?_, hf.readable, hf.free, fun _ j r hj => ?_⟩, h3⟩
    · obtain ⟨a, b⟩ := hg j hj
      refine ⟨a, ?_⟩
      simp only [vstep, if_neg (hne j a)]
      exact b
    · simp only [vstep, if_neg (hne j hj)]
    · obtain ⟨a, b, c⟩ := hf.slots j r hj
      refine ⟨a, ?_, c⟩
      simp only [vstep, if_neg (hne j a)]
      exact b
    · rcases hj with ⟨rfl, rfl⟩ | ⟨hj, hP⟩
      · simp [vstep]
      · simp only [vstep, if_neg hj]; exact hf.written hw j r hP

/-- What has been returned still fits the page. -/
def PastFair (cmp : K → K → Bool) (nr : Bool) (n : Nat) (W : K × V → Prop) (g : View K V) (x : Call K V × Res K V) : Prop :=
  match x with
  | (.getValue key, .values vs) => ∀ v ∈ vs, ∃ k, W (k, v) ∧ cmp k key = true
  | (.insert k v, .bool true) => nr = true → ∃ i, i < n ∧ g.occ i = true ∧ g.rd i = true ∧ g.pair i = (k, v)
  | (.insertAt _ k v, .bool true) => nr = true → ∃ i, i < n ∧ g.occ i = true ∧ g.rd i = true ∧ g.pair i = (k, v)
  | _ => True

theorem PastFair.grow {cmp : K → K → Bool} {nr : Bool} {n : Nat} {W W' : K × V → Prop} {g h : View K V} {x : Call K V × Res K V}
    (hW : ∀ p, W p → W' p) (hgr : Grows nr g h) (hx : PastFair cmp nr n W g x) : PastFair cmp nr n W' h x := by
  have key : ∀ k v, (nr = true → ∃ i, i < n ∧ g.occ i = true ∧ g.rd i = true ∧ g.pair i = (k, v)) →
      (nr = true → ∃ i, i < n ∧ h.occ i = true ∧ h.rd i = true ∧ h.pair i = (k, v)) := by
    intro k v hx hn
    obtain ⟨i, hi, h1, h2, h3⟩ := hx hn
    obtain ⟨a, b⟩ := hgr.used i h1
    exact ⟨i, hi, a, hgr.readable hn i h2, b.trans h3⟩
  unfold PastFair at *
  split
  · intro v hv
    obtain ⟨k, a, b⟩ := hx v hv
    exact ⟨k, hW _ a, b⟩
  · exact key _ _ hx
  · exact key _ _ hx
  · trivial

theorem pastFair_of_res {cmp : K → K → Bool} {n : Nat} {W : K × V → Prop} {g : View K V} {S D F P} (hf : Facts w nr W g S D F P)
    {c : Call K V} {r : Res K V} (hr : ResFair cmp n c S D r) : PastFair cmp nr n W g (c, r) := by
  have key : ∀ k v, Took n (k, v) S D true → (nr = true → ∃ i, i < n ∧ g.occ i = true ∧ g.rd i = true ∧ g.pair i = (k, v)) := by
    intro k v ht hn
    obtain ⟨i, hi, h1, h2⟩ := ht rfl
    obtain ⟨a, b, _⟩ := hf.slots i _ h1
    exact ⟨i, hi, a, hf.readable hn i h2, b⟩
  unfold PastFair
  split
  · rename_i heq
    cases heq
    intro v hv
    obtain ⟨i, k, a, b⟩ := hr v hv
    exact ⟨k, (hf.slots i _ a).2.2, b⟩
  · rename_i heq; cases heq; exact key _ _ hr
  · rename_i heq; cases heq; exact key _ _ hr
  · trivial

/-- Only thread `w` inserts. -/
structure WInv (cmp : K → K → Bool) (d : K × V) (n : Nat) (nr : Bool) (w : Nat) (s : Sys K V) : Prop where
  wf : WF n s.page
  page : Sound s.Begun (view d s.page)
  range : ∀ t, ∀ c ∈ (s.threads t).todo, c.InRange n ∧ (c.inserts ≠ none → t = w) ∧ (c.removes = true → nr = false)
  now : ∀ t c p, (s.threads t).now = some (c, p) → Within n p ∧
    ∃ S D F P, Facts (decide (t = w)) nr s.Begun (view d s.page) S D F P ∧ Fair (decide (t = w)) nr c.inserts (ResFair cmp n c) S D F P p
  past : ∀ t, ∀ x ∈ (s.threads t).past, PastFair cmp nr n s.Begun (view d s.page) x

theorem Facts.mono {w nr : Bool} {W W' : K × V → Prop} (hW : ∀ p, W p → W' p) {g : View K V} {S D F P} (h : Facts w nr W g S D F P) :
    Facts w nr W' g S D F P :=
  ⟨fun i p hp => ⟨(h.slots i p hp).1, (h.slots i p hp).2.1, hW _ (h.slots i p hp).2.2⟩, h.readable, h.free, h.written⟩

theorem winv_step {d : K × V} {n w : Nat} {nr : Bool} (cmp : K → K → Bool) (veq : V → V → Bool) {s : Sys K V} (h : WInv cmp d n nr w s)
    (u : Nat) : WInv cmp d n nr w (s.step cmp veq n u) ∧ Grows nr (view d s.page) (view d (s.step cmp veq n u).page) := by
  rcases sysStep_cases cmp veq n s u with ⟨e, _⟩ | ⟨c, cs, hn, ht, e⟩ | ⟨c, r, hn, e⟩ | ⟨c, p, hn, hnr, e⟩
  · rw [e]; exact ⟨h, .refl _ _⟩
  · rw [e]
    have hb := begun_put (s := s) (t := u) (g := s.page) (th := { s.threads u with now := some (c, c.prog cmp veq n), todo := cs })
      (fun _ h => h) (by intro x hx; rw [hn] at hx; cases hx)
    refine ⟨⟨h.wf, fun i hi => ⟨(h.page i hi).1, hb _ (h.page i hi).2⟩, fun t => ?_, fun t c' p' hnow => ?_, fun t => ?_⟩, .refl _ _⟩
    · by_cases hw : t = u
      · subst hw; rw [put_same]
        exact fun c' hc' => h.range t c' (by rw [ht]; exact List.mem_cons_of_mem _ hc')
      · rw [put_other _ hw]; exact h.range t
    · by_cases hw : t = u
      · subst hw; rw [put_same] at hnow
        cases hnow
        obtain ⟨r1, r2, r3⟩ := h.range t _ (by rw [ht]; exact List.mem_cons_self ..)
        exact ⟨within_call cmp veq _ r1, _, _, _, _, ⟨fun _ _ h => h.elim, fun _ _ h => h.elim, fun _ _ h => h.elim, fun _ _ _ h => h.elim⟩,
          fair_call _ _ cmp veq n _ (fun h => decide_eq_true (r2 h)) r3 r1⟩
      · rw [put_other _ hw] at hnow
        obtain ⟨a, S, D, F, P, b1, b2⟩ := h.now t c' p' hnow
        exact ⟨a, S, D, F, P, b1.mono hb, b2⟩
    · by_cases hw : t = u
      · subst hw; rw [put_same]
        exact fun x hx => (h.past t x hx).grow hb (.refl _ _)
      · rw [put_other _ hw]
        exact fun x hx => (h.past t x hx).grow hb (.refl _ _)
  · rw [e]
    have hb := begun_put (s := s) (t := u) (g := s.page) (th := { s.threads u with past := (s.threads u).past ++ [(c, r)], now := none })
      (fun _ h => List.mem_append_left _ h) (by
        intro x hx
        rw [hn] at hx
        cases hx
        exact .inr ⟨(c, r), List.mem_append_right _ (by simp), rfl⟩)
    refine ⟨⟨h.wf, fun i hi => ⟨(h.page i hi).1, hb _ (h.page i hi).2⟩, fun t => ?_, fun t c' p' hnow => ?_, fun t => ?_⟩, .refl _ _⟩
    · by_cases hw : t = u
      · subst hw; rw [put_same]; exact h.range t
      · rw [put_other _ hw]; exact h.range t
    · by_cases hw : t = u
      · subst hw; rw [put_same] at hnow; cases hnow
      · rw [put_other _ hw] at hnow
        obtain ⟨a, S, D, F, P, b1, b2⟩ := h.now t c' p' hnow
        exact ⟨a, S, D, F, P, b1.mono hb, b2⟩
    · by_cases hw : t = u
      · subst hw; rw [put_same]
        intro x hx
        rw [List.mem_append, List.mem_singleton] at hx
        rcases hx with hx | rfl
        · exact (h.past t x hx).grow hb (.refl _ _)
        · obtain ⟨a, S, D, F, P, b1, b2⟩ := h.now t c _ hn
          exact (pastFair_of_res b1 b2).grow hb (.refl _ _)
      · rw [put_other _ hw]
        exact fun x hx => (h.past t x hx).grow hb (.refl _ _)
  · rw [e]
    have hb := begun_put (s := s) (t := u) (g := (step s.page p).1) (th := { s.threads u with now := some (c, (step s.page p).2) })
      (fun _ h => h) (by
        intro x hx
        rw [hn] at hx
        cases hx
        exact .inl ⟨_, rfl, rfl⟩)
    obtain ⟨hin, S, D, F, P, b1, b2⟩ := h.now u c p hn
    obtain ⟨w1, w2, w3, w4⟩ := step_view d h.wf hin
    obtain ⟨q1, q2, q3, S', D', F', P', q4, q5⟩ := fair_step (W := s.Begun) (fun q hq => ⟨u, .inr ⟨_, hn, hq⟩⟩) h.page b1 b2
    rw [← w2] at q1 q2 q3 q4
    rw [← w3] at q5
    refine ⟨⟨w1, fun i hi => ⟨(q1 i hi).1, hb _ (q1 i hi).2⟩, fun t => ?_, fun t c' p' hnow => ?_, fun t => ?_⟩, q2⟩
    · by_cases hw : t = u
      · subst hw; rw [put_same]; exact h.range t
      · rw [put_other _ hw]; exact h.range t
    · by_cases hw : t = u
      · subst hw; rw [put_same] at hnow
        cases hnow
        exact ⟨w4, S', D', F', P', q4.mono hb, q5⟩
      · rw [put_other _ hw] at hnow
        obtain ⟨a, S, D, F, P, c1, c2⟩ := h.now t c' p' hnow
        refine ⟨a, S, D, F, P, ?_, c2⟩
        refine ⟨fun i q hq => ?_, fun hr i hi => q2.readable hr i (c1.readable hr i hi), fun htw i hi => ?_, fun htw i q hq => ?_⟩
        · obtain ⟨x, y, z⟩ := c1.slots i q hq
          exact ⟨(q2.used i x).1, (q2.used i x).2.trans y, hb _ z⟩
        · have : decide (u = w) = false := decide_eq_false (fun h => hw (by rw [of_decide_eq_true htw, h]))
          show (view d (step s.page p).1).occ i = _
          rw [(q3 this).1]
          exact c1.free htw i hi
        · have : decide (u = w) = false := decide_eq_false (fun h => hw (by rw [of_decide_eq_true htw, h]))
          show (view d (step s.page p).1).pair i = _
          rw [(q3 this).2]
          exact c1.written htw i q hq
    · by_cases hw : t = u
      · subst hw; rw [put_same]
        exact fun x hx => (h.past t x hx).grow hb q2
      · rw [put_other _ hw]
        exact fun x hx => (h.past t x hx).grow hb q2

theorem winv_runs {d : K × V} {n w : Nat} {nr : Bool} (cmp : K → K → Bool) (veq : V → V → Bool) (sched : List Nat) :
    ∀ {s : Sys K V}, WInv cmp d n nr w s → WInv cmp d n nr w (s.runs cmp veq n sched) := by
  induction sched with
  | nil => intro s h; exact h
  | cons u us ih => intro s h; exact ih (winv_step cmp veq h u).1

theorem winv_start {dk : K} {dv : V} {n w : Nat} {nr : Bool} {g : Page K V} (cmp : K → K → Bool) (hg : Page.new dk dv n = some g)
    (calls : Nat → List (Call K V))
    (hr : ∀ t, ∀ c ∈ calls t, c.InRange n ∧ (c.inserts ≠ none → t = w) ∧ (c.removes = true → nr = false)) :
    WInv cmp (dk, dv) n nr w (Sys.start g calls) := by
  obtain ⟨h1, h2⟩ := new_wf hg
  refine ⟨h1, fun i hi => ?_, hr, fun t c p hnow => (by cases hnow), fun t x hx => (by cases hx)⟩
  rw [show (Sys.start g calls).page = g from rfl, h2] at hi
  cases hi

/-! ## A pair that is there is found -/

/-- If slot `i` is readable and holds `p` all the time, the program returns something that fits. -/
def Finds (i : Nat) (p : K × V) (R : α → Prop) : Prog K V α → Prop
  | .ret a => R a
  | .panic => True
  | .isOccupied _ k => ∀ b, Finds i p R (k b)
  | .isReadable j k => (j ≠ i → Finds i p R (k false)) ∧ Finds i p R (k true)
  | .setOccupied _ k => Finds i p R k
  | .setReadable _ k => Finds i p R k
  | .clearReadable _ k => Finds i p R k
  | .pairAt j k => ∀ q, (j = i → q = p) → Finds i p R (k q)
  | .write _ _ k => Finds i p R k

theorem finds_step {i : Nat} {p : K × V} {R : α → Prop} {g : View K V} {q : Prog K V α} (hr : g.rd i = true) (hp : g.pair i = p)
    (h : Finds i p R q) : Finds i p R (vstep g q).2 := by
  cases q with
  | ret a => exact h
  | panic => trivial
  | isOccupied j k => exact h _
  | isReadable j k =>
    simp only [vstep]
    cases hj : g.rd j
    · exact h.1 (by rintro rfl; rw [hr] at hj; cases hj)
    · exact h.2
  | setOccupied j k => exact h
  | setReadable j k => exact h
  | clearReadable j k => exact h
  | pairAt j k => exact h _ (by rintro rfl; exact hp)
  | write j r k => exact h

theorem finds_getValueFrom (cmp : K → K → Bool) (key : K) (p : K × V) (hc : cmp p.1 key = true) (l : Nat) (todo : Nat) : ∀ i acc,
    (p.2 ∈ acc ∨ (i ≤ l ∧ l < i + todo)) → Finds l p (fun r => ∀ vs, r = .values vs → p.2 ∈ vs)
      ((getValueFrom cmp key todo i acc).bind fun vs => .ret (Res.values (K := K) vs)) := by
  induction todo with
  | zero =>
    intro i acc h vs hv
    cases hv
    rcases h with h | ⟨h1, h2⟩
    · exact h
    · omega
  | succ t ih =>
    intro i acc h
    have skip : i ≠ l → p.2 ∈ acc ∨ (i + 1 ≤ l ∧ l < i + 1 + t) := by
      intro hne
      rcases h with h | h
      · exact .inl h
      · exact .inr ⟨by omega, by omega⟩
    refine ⟨fun hne => ih _ _ (skip hne), ?_⟩
    intro q hq
    dsimp only [Prog.bind]
    split
    · intro r hr
      refine ih _ _ ?_
      by_cases hne : i = l
      · rw [hr hne]; exact .inl (by simp)
      · rcases skip hne with h | h
        · exact .inl (by simp [h])
        · exact .inr h
    · rename_i hcq
      by_cases hne : i = l
      · rw [hq hne] at hcq; exact absurd hc hcq
      · exact ih _ _ (skip hne)

theorem finds_true (i : Nat) (p : K × V) {R : α → Prop} (hR : ∀ a, R a) (q : Prog K V α) : Finds i p R q := by
  induction q with
  | ret a => exact hR a
  | panic => trivial
  | isOccupied j k ih => exact fun b => ih b
  | isReadable j k ih => exact ⟨fun _ => ih _, ih _⟩
  | setOccupied j k ih => exact ih
  | setReadable j k ih => exact ih
  | clearReadable j k ih => exact ih
  | pairAt j k ih => exact fun q _ => ih q
  | write j r k ih => exact ih

/-- What a call has to return when `p` is there all the time. -/
def Must (cmp : K → K → Bool) (p : K × V) (c : Call K V) (r : Res K V) : Prop :=
  ∀ key vs, c = .getValue key → cmp p.1 key = true → r = .values vs → p.2 ∈ vs

theorem finds_call (cmp : K → K → Bool) (veq : V → V → Bool) (n i : Nat) (hi : i < n) (p : K × V) (c : Call K V) :
    Finds i p (Must cmp p c) (c.prog cmp veq n) := by
  by_cases hc : ∃ key, c = .getValue key ∧ cmp p.1 key = true
  · obtain ⟨key, rfl, hk⟩ := hc
    have := finds_getValueFrom cmp key p hk i n 0 [] (.inr ⟨by omega, by omega⟩)
    have mono : ∀ (q : Prog K V (Res K V)), Finds i p (fun r => ∀ vs, r = .values vs → p.2 ∈ vs) q → Finds i p (Must cmp p (.getValue key)) q := by
      intro q
      induction q with
      | ret a => intro h k vs _ _ hv; exact h vs hv
      | panic => intro _; trivial
      | isOccupied j k ih => intro h b; exact ih b (h b)
      | isReadable j k ih => intro h; exact ⟨fun hne => ih _ (h.1 hne), ih _ h.2⟩
      | setOccupied j k ih => intro h; exact ih h
      | setReadable j k ih => intro h; exact ih h
      | clearReadable j k ih => intro h; exact ih h
      | pairAt j k ih => intro h q hq; exact ih q (h q hq)
      | write j r k ih => intro h; exact ih h
    exact mono _ this
  · exact finds_true _ _ (fun r key vs h1 h2 _ => absurd ⟨key, h1, h2⟩ hc) _

/-- From some moment on `p` is in slot `i`; thread `t` had made the calls `before` by then and was in none. -/
structure FInv (cmp : K → K → Bool) (d : K × V) (n i t : Nat) (p : K × V) (before : List (Call K V × Res K V)) (s : Sys K V) : Prop where
  used : (view d s.page).occ i = true
  rd : (view d s.page).rd i = true
  pair : (view d s.page).pair i = p
  now : ∀ c q, (s.threads t).now = some (c, q) → Finds i p (Must cmp p c) q
  past : ∃ after, (s.threads t).past = before ++ after ∧ ∀ x ∈ after, Must cmp p x.1 x.2

theorem finv_step {d : K × V} {n i t w : Nat} (hi : i < n) {p : K × V} {before : List (Call K V × Res K V)} (cmp : K → K → Bool) (veq : V → V → Bool)
    {s : Sys K V} (hw : WInv cmp d n true w s) (h : FInv cmp d n i t p before s) (u : Nat) : FInv cmp d n i t p before (s.step cmp veq n u) := by
  obtain ⟨_, hgr⟩ := winv_step cmp veq hw u
  have h1 := hgr.used i h.used
  have h2 := hgr.readable rfl i h.rd
  refine ⟨h1.1, h2, h1.2.trans h.pair, ?_, ?_⟩
  · rcases sysStep_cases cmp veq n s u with ⟨e, _⟩ | ⟨c, cs, hn, ht, e⟩ | ⟨c, r, hn, e⟩ | ⟨c, q, hn, hnr, e⟩
    · rw [e]; exact h.now
    · rw [e]
      intro c' q' hnow
      by_cases hu : t = u
      · subst hu; rw [put_same] at hnow; cases hnow
        exact finds_call cmp veq n i hi p _
      · rw [put_other _ hu] at hnow; exact h.now c' q' hnow
    · rw [e]
      intro c' q' hnow
      by_cases hu : t = u
      · subst hu; rw [put_same] at hnow; cases hnow
      · rw [put_other _ hu] at hnow; exact h.now c' q' hnow
    · rw [e]
      intro c' q' hnow
      by_cases hu : t = u
      · subst hu; rw [put_same] at hnow; cases hnow
        obtain ⟨_, _, w3, _⟩ := step_view d hw.wf (hw.now t _ _ hn).1
        rw [w3]
        exact finds_step h.rd h.pair (h.now _ _ hn)
      · rw [put_other _ hu] at hnow; exact h.now c' q' hnow
  · obtain ⟨after, ha, hb⟩ := h.past
    rcases sysStep_cases cmp veq n s u with ⟨e, _⟩ | ⟨c, cs, hn, ht, e⟩ | ⟨c, r, hn, e⟩ | ⟨c, q, hn, hnr, e⟩
    · rw [e]; exact ⟨after, ha, hb⟩
    · rw [e]
      by_cases hu : t = u
      · subst hu; rw [put_same]; exact ⟨after, ha, hb⟩
      · rw [put_other _ hu]; exact ⟨after, ha, hb⟩
    · rw [e]
      by_cases hu : t = u
      · subst hu; rw [put_same]
        refine ⟨after ++ [(c, r)], by simp [ha], fun x hx => ?_⟩
        rw [List.mem_append, List.mem_singleton] at hx
        rcases hx with hx | rfl
        · exact hb x hx
        · exact h.now _ _ hn
      · rw [put_other _ hu]; exact ⟨after, ha, hb⟩
    · rw [e]
      by_cases hu : t = u
      · subst hu; rw [put_same]; exact ⟨after, ha, hb⟩
      · rw [put_other _ hu]; exact ⟨after, ha, hb⟩

theorem finv_runs {d : K × V} {n i t w : Nat} (hi : i < n) {p : K × V} {before : List (Call K V × Res K V)} (cmp : K → K → Bool) (veq : V → V → Bool)
    (sched : List Nat) : ∀ {s : Sys K V}, WInv cmp d n true w s → FInv cmp d n i t p before s → FInv cmp d n i t p before (s.runs cmp veq n sched) := by
  induction sched with
  | nil => intro s _ h; exact h
  | cons u us ih => intro s hw h; exact ih (winv_step cmp veq hw u).1 (finv_step hi cmp veq hw h u)

end Verif.HashPage
