import Verif.HashPage.Seq
/-!
# Threads that use different slots
-/

namespace Verif.HashPage

variable {K V α β : Type}

/-- The program touches slot `i` only. -/
def Only (i : Nat) : Prog K V α → Prop
  | .ret _ => True
  | .panic => True
  | .isOccupied j k => j = i ∧ ∀ b, Only i (k b)
  | .isReadable j k => j = i ∧ ∀ b, Only i (k b)
  | .setOccupied j k => j = i ∧ Only i k
  | .setReadable j k => j = i ∧ Only i k
  | .clearReadable j k => j = i ∧ Only i k
  | .pairAt j k => j = i ∧ ∀ p, Only i (k p)
  | .write j _ k => j = i ∧ Only i k

/-- The program does not change slot `i`. -/
def Quiet (i : Nat) : Prog K V α → Prop
  | .ret _ => True
  | .panic => True
  | .isOccupied _ k => ∀ b, Quiet i (k b)
  | .isReadable _ k => ∀ b, Quiet i (k b)
  | .setOccupied j k => j ≠ i ∧ Quiet i k
  | .setReadable j k => j ≠ i ∧ Quiet i k
  | .clearReadable j k => j ≠ i ∧ Quiet i k
  | .pairAt _ k => ∀ p, Quiet i (k p)
  | .write j _ k => j ≠ i ∧ Quiet i k

/-- Two views agree on slot `i`. -/
def Agree (i : Nat) (g h : View K V) : Prop := g.occ i = h.occ i ∧ g.rd i = h.rd i ∧ g.pair i = h.pair i

theorem quiet_of_only {i j : Nat} (hij : j ≠ i) (p : Prog K V α) (h : Only j p) : Quiet i p := by
  induction p with
  | ret a => trivial
  | panic => trivial
  | isOccupied l k ih => exact fun b => ih b (h.2 b)
  | isReadable l k ih => exact fun b => ih b (h.2 b)
  | setOccupied l k ih => exact ⟨h.1 ▸ hij, ih h.2⟩
  | setReadable l k ih => exact ⟨h.1 ▸ hij, ih h.2⟩
  | clearReadable l k ih => exact ⟨h.1 ▸ hij, ih h.2⟩
  | pairAt l k ih => exact fun b => ih b (h.2 b)
  | write l q k ih => exact ⟨h.1 ▸ hij, ih h.2⟩

theorem quiet_step {i : Nat} {g : View K V} {p : Prog K V α} (h : Quiet i p) : Agree i (vstep g p).1 g ∧ Quiet i (vstep g p).2 := by
  cases p with
  | ret a => exact ⟨⟨rfl, rfl, rfl⟩, trivial⟩
  | panic => exact ⟨⟨rfl, rfl, rfl⟩, trivial⟩
  | isOccupied l k => exact ⟨⟨rfl, rfl, rfl⟩, h _⟩
  | isReadable l k => exact ⟨⟨rfl, rfl, rfl⟩, h _⟩
  | setOccupied l k =>
    have : i ≠ l := Ne.symm h.1
    exact ⟨⟨by simp [vstep, this], rfl, rfl⟩, h.2⟩
  | setReadable l k =>
    have : i ≠ l := Ne.symm h.1
    exact ⟨⟨rfl, by simp [vstep, this], rfl⟩, h.2⟩
  | clearReadable l k =>
    have : i ≠ l := Ne.symm h.1
    exact ⟨⟨rfl, by simp [vstep, this], rfl⟩, h.2⟩
  | pairAt l k => exact ⟨⟨rfl, rfl, rfl⟩, h _⟩
  | write l q k =>
    have : i ≠ l := Ne.symm h.1
    exact ⟨⟨rfl, rfl, by simp [vstep, this]⟩, h.2⟩

theorem only_step {i : Nat} {g : View K V} {p : Prog K V α} (h : Only i p) : Only i (vstep g p).2 := by
  cases p with
  | ret a => trivial
  | panic => trivial
  | isOccupied l k => exact h.2 _
  | isReadable l k => exact h.2 _
  | setOccupied l k => exact h.2
  | setReadable l k => exact h.2
  | clearReadable l k => exact h.2
  | pairAt l k => exact h.2 _
  | write l q k => exact h.2

theorem only_run {i : Nat} (p : Prog K V α) : ∀ {g h : View K V}, Only i p → Agree i g h →
    Agree i (vrun g p).1 (vrun h p).1 ∧ (vrun g p).2 = (vrun h p).2 := by
  induction p with
  | ret a => intro g h _ ha; exact ⟨ha, rfl⟩
  | panic => intro g h _ ha; exact ⟨ha, rfl⟩
  | isOccupied l k ih =>
    intro g h ho ha
    obtain ⟨rfl, ho⟩ := ho
    simp only [vrun, ha.1]
    exact ih _ (ho _) ha
  | isReadable l k ih =>
    intro g h ho ha
    obtain ⟨rfl, ho⟩ := ho
    simp only [vrun, ha.2.1]
    exact ih _ (ho _) ha
  | setOccupied l k ih =>
    intro g h ho ha
    obtain ⟨rfl, ho⟩ := ho
    exact ih ho ⟨by simp, ha.2.1, ha.2.2⟩
  | setReadable l k ih =>
    intro g h ho ha
    obtain ⟨rfl, ho⟩ := ho
    exact ih ho ⟨ha.1, by simp, ha.2.2⟩
  | clearReadable l k ih =>
    intro g h ho ha
    obtain ⟨rfl, ho⟩ := ho
    exact ih ho ⟨ha.1, by simp, ha.2.2⟩
  | pairAt l k ih =>
    intro g h ho ha
    obtain ⟨rfl, ho⟩ := ho
    simp only [vrun, ha.2.2]
    exact ih _ (ho _) ha
  | write l q k ih =>
    intro g h ho ha
    obtain ⟨rfl, ho⟩ := ho
    exact ih ho ⟨ha.1, ha.2.1, by simp⟩

theorem Agree.match {d : K × V} {i : Nat} {g h : View K V} {s : Slot K V} (ha : Agree i g h) (hm : Match d h i s) : Match d g i s :=
  ⟨ha.1.trans hm.1, ha.2.1.trans hm.2.1, ha.2.2.trans hm.2.2⟩

/-- A call on a slot, as a call of the interface. -/
def onSlot (c : Nat × SlotCall K V) : Call K V := c.2.on c.1

theorem only_call (cmp : K → K → Bool) (veq : V → V → Bool) (n : Nat) (c : Nat × SlotCall K V) : Only c.1 ((onSlot c).prog cmp veq n) := by
  obtain ⟨i, c⟩ := c
  cases c with
  | insertAt k v =>
    refine ⟨rfl, fun b => ?_⟩
    cases b
    · exact ⟨rfl, rfl, rfl, trivial⟩
    · trivial
  | removeAt => exact ⟨rfl, trivial⟩
  | isOccupied => exact ⟨rfl, fun _ => trivial⟩
  | isReadable => exact ⟨rfl, fun _ => trivial⟩
  | keyAt => exact ⟨rfl, fun _ => trivial⟩
  | valueAt => exact ⟨rfl, fun _ => trivial⟩

theorem quiet_call (cmp : K → K → Bool) (veq : V → V → Bool) (n i : Nat) (c : Nat × SlotCall K V) (h : c.2.changes = false) :
    Quiet i ((onSlot c).prog cmp veq n) := by
  obtain ⟨j, c⟩ := c
  cases c with
  | insertAt k v => cases h
  | removeAt => cases h
  | isOccupied => exact fun _ => trivial
  | isReadable => exact fun _ => trivial
  | keyAt => exact fun _ => trivial
  | valueAt => exact fun _ => trivial

theorem slotCall_run {d : K × V} (cmp : K → K → Bool) (veq : V → V → Bool) (n i : Nat) (c : SlotCall K V) {g : View K V} {s : Slot K V}
    (h : Match d g i s) :
    (vrun g ((onSlot (i, c)).prog cmp veq n)).2 = some (c.act d s).2 ∧ Match d (vrun g ((onSlot (i, c)).prog cmp veq n)).1 i (c.act d s).1 := by
  cases c with
  | insertAt k v =>
    simp only [onSlot, SlotCall.on, Call.prog, vrun_bind, vrun_insertAt, h.1]
    cases s with
    | free => exact ⟨rfl, by simp [vrun, Match, View.fill, SlotCall.act, Slot.put, Slot.used, Slot.pair?, Slot.stored]⟩
    | full a b => exact ⟨rfl, h⟩
    | grave a b => exact ⟨rfl, h⟩
  | removeAt =>
    refine ⟨rfl, ?_⟩
    obtain ⟨h1, h2, h3⟩ := h
    refine ⟨?_, ?_, ?_⟩
    · simp only [onSlot, SlotCall.on, Call.prog, vrun, h1]; cases s <;> rfl
    · simp only [onSlot, SlotCall.on, Call.prog, vrun, decide_true, Bool.not_true, Bool.false_and]; cases s <;> rfl
    · simp only [onSlot, SlotCall.on, Call.prog, vrun, h3]; cases s <;> rfl
  | isOccupied => exact ⟨by simp only [onSlot, SlotCall.on, Call.prog, vrun, h.1]; rfl, h⟩
  | isReadable => exact ⟨by simp only [onSlot, SlotCall.on, Call.prog, vrun, h.2.1]; rfl, h⟩
  | keyAt => exact ⟨by simp only [onSlot, SlotCall.on, Call.prog, vrun, h.2.2]; rfl, h⟩
  | valueAt => exact ⟨by simp only [onSlot, SlotCall.on, Call.prog, vrun, h.2.2]; rfl, h⟩

/-- Every thread: what it has called, is in and has yet to call are its calls; the call it is in touches its own slot and, if it only reads, changes nothing. -/
def TInv (n : Nat) (cs : List (Nat × SlotCall K V)) (th : Thread K V) : Prop :=
  ∃ done rest, th.past.map (·.1) = done.map onSlot ∧ th.todo = rest.map onSlot ∧
    ((th.now = none ∧ cs = done ++ rest) ∨
      ∃ c p, th.now = some (onSlot c, p) ∧ cs = done ++ c :: rest ∧ Within n p ∧ Only c.1 p ∧ (c.2.changes = false → ∀ i, Quiet i p))

/-- The calls on slot `i`. -/
def mine (i : Nat) (cs : List (Nat × SlotCall K V)) : List (SlotCall K V) := (cs.filter fun c => decide (c.1 = i)).map (·.2)

/-- What the calls on slot `i` have returned. -/
def heard (i : Nat) (past : List (Call K V × Res K V)) : List (Res K V) := (past.filter fun x => decide (x.1.slot? = some i)).map (·.2)

/-- The owner of slot `i`: it has heard what the slot says, and the slot is as its calls have left it. -/
def OInv (d : K × V) (n i : Nat) (cs : List (Nat × SlotCall K V)) (g : View K V) (th : Thread K V) : Prop :=
  ∃ done rest, th.past.map (·.1) = done.map onSlot ∧ th.todo = rest.map onSlot ∧
    heard i th.past = (SlotCall.acts d (mine i done) .free).2 ∧
    ((th.now = none ∧ cs = done ++ rest ∧ Match d g i (SlotCall.acts d (mine i done) .free).1) ∨
      ∃ c p, th.now = some (onSlot c, p) ∧ cs = done ++ c :: rest ∧ Within n p ∧ Only c.1 p ∧
        (c.1 ≠ i → Match d g i (SlotCall.acts d (mine i done) .free).1) ∧
        (c.1 = i → (vrun g p).2 = some (c.2.act d (SlotCall.acts d (mine i done) .free).1).2 ∧
          Match d (vrun g p).1 i (c.2.act d (SlotCall.acts d (mine i done) .free).1).1))

theorem acts_append (d : K × V) (cs : List (SlotCall K V)) (c : SlotCall K V) : ∀ s : Slot K V,
    SlotCall.acts d (cs ++ [c]) s = ((c.act d (SlotCall.acts d cs s).1).1, (SlotCall.acts d cs s).2 ++ [(c.act d (SlotCall.acts d cs s).1).2]) := by
  induction cs with
  | nil => intro s; rfl
  | cons x xs ih => intro s; simp only [List.cons_append, SlotCall.acts, ih]

theorem onSlot_slot (c : Nat × SlotCall K V) : (onSlot c).slot? = some c.1 := by
  obtain ⟨i, c⟩ := c
  cases c <;> rfl

theorem onSlot_inRange {n : Nat} {c : Nat × SlotCall K V} (h : c.1 < n) : (onSlot c).InRange n := by
  intro i hi
  rw [onSlot_slot] at hi
  cases hi
  exact h

/-- What a step of thread `t` does to the thread: the cases of `Sys.step`. -/
theorem sysStep_cases (cmp : K → K → Bool) (veq : V → V → Bool) (n : Nat) (s : Sys K V) (t : Nat) :
    (s.step cmp veq n t = s ∧ (s.threads t).now = none ∧ (s.threads t).todo = []) ∨
    (∃ c cs, (s.threads t).now = none ∧ (s.threads t).todo = c :: cs ∧
      s.step cmp veq n t = s.put t s.page { s.threads t with now := some (c, c.prog cmp veq n), todo := cs }) ∨
    (∃ c r, (s.threads t).now = some (c, .ret r) ∧
      s.step cmp veq n t = s.put t s.page { s.threads t with past := (s.threads t).past ++ [(c, r)], now := none }) ∨
    (∃ c p, (s.threads t).now = some (c, p) ∧ (∀ r, p ≠ .ret r) ∧
      s.step cmp veq n t = s.put t (step s.page p).1 { s.threads t with now := some (c, (step s.page p).2) }) := by
  unfold Sys.step
  dsimp only
  split
  · rename_i hn
    split
    · rename_i ht; exact .inl ⟨rfl, hn, ht⟩
    · rename_i c cs ht; exact .inr (.inl ⟨c, cs, hn, ht, rfl⟩)
  · rename_i c r hn; exact .inr (.inr (.inl ⟨c, r, hn, rfl⟩))
  · rename_i c p hno hn
    exact .inr (.inr (.inr ⟨c, p, hn, fun r hr => hno r hr, rfl⟩))

theorem put_same (s : Sys K V) (t : Nat) (g : Page K V) (th : Thread K V) : (s.put t g th).threads t = th := by simp [Sys.put]

theorem put_other (s : Sys K V) {t u : Nat} (h : u ≠ t) (g : Page K V) (th : Thread K V) : (s.put t g th).threads u = s.threads u := by
  simp [Sys.put, h]

/-- The whole system. -/
structure SInv (d : K × V) (n i t : Nat) (calls : Nat → List (Nat × SlotCall K V)) (s : Sys K V) : Prop where
  wf : WF n s.page
  all : ∀ u, TInv n (calls u) (s.threads u)
  owner : OInv d n i (calls t) (view d s.page) (s.threads t)

theorem OInv.agree {d : K × V} {n i : Nat} {cs : List (Nat × SlotCall K V)} {g h : View K V} {th : Thread K V} (ha : Agree i g h)
    (ho : OInv d n i cs h th) : OInv d n i cs g th := by
  obtain ⟨done, rest, h1, h2, h3, h4⟩ := ho
  refine ⟨done, rest, h1, h2, h3, ?_⟩
  rcases h4 with ⟨a, b, c⟩ | ⟨c, p, a, b, e, f, h5, h6⟩
  · exact .inl ⟨a, b, ha.match c⟩
  · refine .inr ⟨c, p, a, b, e, f, fun hc => ha.match (h5 hc), fun hc => ?_⟩
    obtain ⟨q1, q2⟩ := only_run p (hc ▸ f) ha
    obtain ⟨h7, h8⟩ := h6 hc
    exact ⟨q2.trans h7, q1.match h8⟩

theorem sinv_step {d : K × V} {n i t : Nat} {calls : Nat → List (Nat × SlotCall K V)} (cmp : K → K → Bool) (veq : V → V → Bool)
    (hr : ∀ u, ∀ c ∈ calls u, c.1 < n) (own : ∀ u, u ≠ t → ∀ c ∈ calls u, c.1 = i → c.2.changes = false)
    {s : Sys K V} (h : SInv d n i t calls s) (u : Nat) : SInv d n i t calls (s.step cmp veq n u) := by
  rcases sysStep_cases cmp veq n s u with ⟨e, _⟩ | ⟨c', cs, hn, ht, e⟩ | ⟨c', r, hn, e⟩ | ⟨c', p', hn, hnr, e⟩
  · rw [e]; exact h
  · rw [e]
    refine ⟨h.wf, fun w => ?_, ?_⟩
    · by_cases hw : w = u
      · subst hw
        rw [put_same]
        obtain ⟨done, rest, h1, h2, h3⟩ := h.all w
        rcases h3 with ⟨_, hcs⟩ | ⟨c, p, hnow, _⟩
        · rw [ht] at h2
          cases rest with
          | nil => cases h2
          | cons c rest =>
            simp only [List.map_cons, List.cons.injEq] at h2
            obtain ⟨rfl, rfl⟩ := h2
            refine ⟨done, rest, h1, rfl, .inr ⟨c, _, rfl, hcs, ?_, only_call .., fun hc j => quiet_call cmp veq n j c hc⟩⟩
            exact within_call cmp veq _ (onSlot_inRange (hr w c (by rw [hcs]; simp)))
        · rw [hn] at hnow; cases hnow
      · rw [put_other _ hw]; exact h.all w
    · by_cases hw : t = u
      · subst hw
        rw [put_same]
        obtain ⟨done, rest, h1, h2, h0, h3⟩ := h.owner
        rcases h3 with ⟨_, hcs, hm⟩ | ⟨c, p, hnow, _⟩
        · rw [ht] at h2
          cases rest with
          | nil => cases h2
          | cons c rest =>
            simp only [List.map_cons, List.cons.injEq] at h2
            obtain ⟨rfl, rfl⟩ := h2
            refine ⟨done, rest, h1, rfl, h0, .inr ⟨c, _, rfl, hcs, ?_, only_call .., fun _ => hm, fun hc => ?_⟩⟩
            · exact within_call cmp veq _ (onSlot_inRange (hr t c (by rw [hcs]; simp)))
            · obtain ⟨j, c⟩ := c
              cases hc
              exact slotCall_run cmp veq n _ c hm
        · rw [hn] at hnow; cases hnow
      · rw [put_other _ hw]; exact h.owner
  · rw [e]
    refine ⟨h.wf, fun w => ?_, ?_⟩
    · by_cases hw : w = u
      · subst hw
        rw [put_same]
        obtain ⟨done, rest, h1, h2, h3⟩ := h.all w
        rcases h3 with ⟨hnow, _⟩ | ⟨c, p, hnow, hcs, _⟩
        · rw [hn] at hnow; cases hnow
        · rw [hn] at hnow
          cases hnow
          exact ⟨done ++ [c], rest, by simp [h1], h2, .inl ⟨rfl, by simp [hcs]⟩⟩
      · rw [put_other _ hw]; exact h.all w
    · by_cases hw : t = u
      · subst hw
        rw [put_same]
        obtain ⟨done, rest, h1, h2, h0, h3⟩ := h.owner
        rcases h3 with ⟨hnow, _⟩ | ⟨c, p, hnow, hcs, _, _, h5, h6⟩
        · rw [hn] at hnow; cases hnow
        · rw [hn] at hnow
          cases hnow
          refine ⟨done ++ [c], rest, by simp [h1], h2, ?_⟩
          by_cases hc : c.1 = i
          · obtain ⟨q1, q2⟩ := h6 hc
            simp only [vrun, Option.some.injEq] at q1 q2
            have hmine : mine i (done ++ [c]) = mine i done ++ [c.2] := by simp [mine, hc]
            rw [hmine, acts_append]
            refine ⟨?_, .inl ⟨rfl, by simp [hcs], q2⟩⟩
            dsimp only
            rw [← h0, ← q1]
            simp [heard, onSlot_slot, hc]
          · have hmine : mine i (done ++ [c]) = mine i done := by simp [mine, hc]
            rw [hmine]
            refine ⟨?_, .inl ⟨rfl, by simp [hcs], h5 hc⟩⟩
            rw [← h0]
            simp [heard, onSlot_slot, hc]
      · rw [put_other _ hw]; exact h.owner
  · rw [e]
    obtain ⟨done, rest, h1, h2, h3⟩ := h.all u
    rcases h3 with ⟨hnow, _⟩ | ⟨c, p, hnow, hcs, hin, hon, hq⟩
    · rw [hn] at hnow; cases hnow
    · rw [hn] at hnow
      cases hnow
      obtain ⟨w1, w2, w3, w4⟩ := step_view d h.wf hin
      have hquiet : ∀ j, c.2.changes = false → Quiet j (step s.page p').2 := by
        intro j hc
        rw [w3]
        exact (quiet_step (hq hc j)).2
      refine ⟨w1, fun w => ?_, ?_⟩
      · by_cases hw : w = u
        · subst hw
          rw [put_same]
          exact ⟨done, rest, h1, h2, .inr ⟨c, _, rfl, hcs, w4, by rw [w3]; exact only_step hon, fun hc j => hquiet j hc⟩⟩
        · rw [put_other _ hw]; exact h.all w
      · by_cases hw : t = u
        · subst hw
          rw [put_same]
          obtain ⟨done, rest, h1, h2, h0, h3⟩ := h.owner
          rcases h3 with ⟨hnow, _⟩ | ⟨c', p, hnow, hcs', hin', hon', h5, h6⟩
          · rw [hn] at hnow; cases hnow
          · rw [hn] at hnow
            simp only [Option.some.injEq, Prod.mk.injEq] at hnow
            obtain ⟨hc, rfl⟩ := hnow
            refine ⟨done, rest, h1, h2, h0, .inr ⟨c', _, by rw [hc], hcs', w4, by rw [w3]; exact only_step hon', fun hne => ?_, fun heq => ?_⟩⟩
            · show Match d (view d (step s.page p').1) i _
              rw [w2]
              exact (quiet_step (quiet_of_only hne p' hon')).1.match (h5 hne)
            · show (vrun (view d (step s.page p').1) (step s.page p').2).2 = _ ∧ Match d (vrun (view d (step s.page p').1) (step s.page p').2).1 i _
              rw [w2, w3, vrun_step]
              exact h6 heq
        · rw [put_other _ hw]
          refine OInv.agree ?_ h.owner
          show Agree i (view d (step s.page p').1) _
          rw [w2]
          have hqi : Quiet i p' := by
            by_cases hc : c.1 = i
            · exact hq (own u (Ne.symm hw) c (by rw [hcs]; simp) hc) i
            · exact quiet_of_only hc p' hon
          exact (quiet_step hqi).1

theorem sinv_runs {d : K × V} {n i t : Nat} {calls : Nat → List (Nat × SlotCall K V)} (cmp : K → K → Bool) (veq : V → V → Bool)
    (hr : ∀ u, ∀ c ∈ calls u, c.1 < n) (own : ∀ u, u ≠ t → ∀ c ∈ calls u, c.1 = i → c.2.changes = false) (sched : List Nat) :
    ∀ {s : Sys K V}, SInv d n i t calls s → SInv d n i t calls (s.runs cmp veq n sched) := by
  induction sched with
  | nil => intro s h; exact h
  | cons u us ih => intro s h; exact ih (sinv_step cmp veq hr own h u)

end Verif.HashPage
