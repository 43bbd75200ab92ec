import Verif.HashPage.Lemmas
/-!
# Calls that run one after another
-/

namespace Verif.HashPage

variable {K V α β : Type}

/-- Slot `i` of a view is in the state `s`. -/
def Match (d : K × V) (g : View K V) (i : Nat) (s : Slot K V) : Prop :=
  g.occ i = s.used ∧ g.rd i = s.pair?.isSome ∧ g.pair i = s.stored d

/-- The slots from `i` on are in the states `ss`. -/
def Row (d : K × V) (g : View K V) (i : Nat) (ss : List (Slot K V)) : Prop := ∀ j s, ss[j]? = some s → Match d g (i + j) s

theorem Row.head {d : K × V} {g : View K V} {i : Nat} {s : Slot K V} {ss : List (Slot K V)} (h : Row d g i (s :: ss)) : Match d g i s := by
  have := h 0 s rfl
  simpa using this

theorem Row.tail {d : K × V} {g : View K V} {i : Nat} {s : Slot K V} {ss : List (Slot K V)} (h : Row d g i (s :: ss)) : Row d g (i + 1) ss := by
  intro j t hj
  have := h (j + 1) t (by simpa using hj)
  rwa [show i + 1 + j = i + (j + 1) by omega]

/-- The pairs of a row. -/
def pairs (ss : List (Slot K V)) : List (K × V) := ss.filterMap Slot.pair?

theorem pairs_cons (s : Slot K V) (ss : List (Slot K V)) : pairs (s :: ss) = s.pair?.toList ++ pairs ss := by
  cases s <;> rfl

theorem vrun_numReadable {d : K × V} {g : View K V} (ss : List (Slot K V)) : ∀ i c, Row d g i ss →
    vrun g (numReadableFrom ss.length i c) = (g, some (c + (pairs ss).length)) := by
  induction ss with
  | nil => intro i c _; rfl
  | cons s ss ih =>
    intro i c h
    simp only [List.length_cons, numReadableFrom, vrun]
    rw [ih _ _ h.tail, h.head.2.1, pairs_cons]
    cases s <;> simp [Slot.pair?] <;> omega

theorem Match.full {d : K × V} {g : View K V} {i : Nat} {s : Slot K V} (h : Match d g i s) (hr : g.rd i = true) :
    s.pair? = some (g.pair i) := by
  rw [h.2.1] at hr
  cases s with
  | full k v => rw [h.2.2]; rfl
  | free => cases hr
  | grave k v => cases hr

theorem Match.notFull {d : K × V} {g : View K V} {i : Nat} {s : Slot K V} (h : Match d g i s) (hr : g.rd i = false) :
    s.pair? = none := by
  rw [h.2.1] at hr
  cases s with
  | full k v => cases hr
  | free => rfl
  | grave k v => rfl

theorem vrun_getValue {d : K × V} {g : View K V} (cmp : K → K → Bool) (key : K) (ss : List (Slot K V)) : ∀ i acc, Row d g i ss →
    vrun g (getValueFrom cmp key ss.length i acc) = (g, some (acc ++ ((pairs ss).filter fun p => cmp p.1 key).map (·.2))) := by
  induction ss with
  | nil => intro i acc _; simp [getValueFrom, vrun, pairs]
  | cons s ss ih =>
    intro i acc h
    simp only [List.length_cons, getValueFrom, vrun, pairs_cons]
    cases hr : g.rd i
    · rw [h.head.notFull hr]
      simp only [Bool.false_eq_true, if_false, Option.toList_none, List.nil_append]
      exact ih _ _ h.tail
    · rw [h.head.full hr]
      simp only [if_true, vrun, Option.toList_some, List.cons_append, List.nil_append, List.filter_cons]
      split
      · simp only [vrun]
        rw [ih _ _ h.tail]
        simp
      · exact ih _ _ h.tail

theorem vrun_hasKey {d : K × V} {g : View K V} (cmp : K → K → Bool) (key : K) (ss : List (Slot K V)) : ∀ i, Row d g i ss →
    vrun g (hasKeyFrom cmp key ss.length i) = (g, some ((pairs ss).any fun p => cmp p.1 key)) := by
  induction ss with
  | nil => intro i _; rfl
  | cons s ss ih =>
    intro i h
    simp only [List.length_cons, hasKeyFrom, vrun, pairs_cons]
    cases hr : g.rd i
    · rw [h.head.notFull hr]
      simp only [Bool.false_eq_true, if_false, Option.toList_none, List.nil_append]
      exact ih _ h.tail
    · rw [h.head.full hr]
      simp only [if_true, vrun, Option.toList_some, List.cons_append, List.nil_append, List.any_cons]
      split
      · rename_i hc; simp [vrun, hc]
      · rename_i hc
        rw [ih _ h.tail]
        simp [hc]

/-- A view after a pair was put into slot `i`. -/
def View.fill (g : View K V) (i : Nat) (p : K × V) : View K V :=
  ⟨fun j => decide (j = i) || g.occ j, fun j => decide (j = i) || g.rd j, fun j => if j = i then p else g.pair j⟩

/-- A view after the pair of slot `i` was removed. -/
def View.bury (g : View K V) (i : Nat) : View K V := { g with rd := fun j => !decide (j = i) && g.rd j }

theorem vrun_insertAt {g : View K V} (i : Nat) (k : K) (v : V) :
    vrun g (insertAt i k v) = if g.occ i then (g, some false) else (g.fill i (k, v), some true) := by
  simp only [insertAt, vrun]
  split <;> rfl

/-- Used slots and then free ones: the first free slot is taken. -/
theorem vrun_insertFrom {d : K × V} {g : View K V} (k : K) (v : V) (m : Nat) (us : List (Slot K V)) (hu : ∀ s ∈ us, s.used = true) :
    ∀ i, Row d g i (us ++ List.replicate m .free) → vrun g (insertFrom k v (us.length + m) i) =
      if m = 0 then (g, some false) else (g.fill (i + us.length) (k, v), some true) := by
  induction us with
  | nil =>
    intro i h
    cases m with
    | zero => rfl
    | succ m =>
      rw [show ([] : List (Slot K V)).length + (m + 1) = m + 1 by simp]
      have h0 : g.occ i = false := by
        rw [List.replicate_succ] at h
        exact (Row.head h).1
      simp only [insertFrom, vrun, h0, Bool.false_eq_true, if_false]
      rw [vrun_insertAt, h0]
      simp
  | cons s us ih =>
    intro i h
    rw [show (s :: us).length + m = (us.length + m) + 1 by simp only [List.length_cons]; omega]
    have h0 : g.occ i = true := by rw [(Row.head h).1]; exact hu s (by simp)
    simp only [insertFrom, vrun, h0, if_true]
    rw [ih (fun t ht => hu t (List.mem_cons_of_mem _ ht)) (i + 1) (Row.tail h), show i + 1 + us.length = i + (s :: us).length by simp; omega]

theorem vrun_removeFrom {d : K × V} {g : View K V} (cmp : K → K → Bool) (veq : V → V → Bool) (k : K) (v : V) (ss : List (Slot K V)) :
    ∀ i, Row d g i ss → match without (fun p => cmp p.1 k && veq p.2 v) (pairs ss) with
      | none => vrun g (removeFrom cmp veq k v ss.length i) = (g, some false)
      | some ps => ∃ j s, ss[j]? = some s ∧ pairs (ss.set j s.bury) = ps ∧ s.used = true ∧
          vrun g (removeFrom cmp veq k v ss.length i) = (g.bury (i + j), some true) := by
  induction ss with
  | nil => intro i _; rfl
  | cons s ss ih =>
    intro i h
    simp only [List.length_cons, removeFrom, vrun, pairs_cons]
    have hrest : ∀ (e : Option (K × V)), s.pair? = e → (∀ p, e = some p → (cmp p.1 k && veq p.2 v) = false) →
        match without (fun p => cmp p.1 k && veq p.2 v) (e.toList ++ pairs ss) with
        | none => vrun g (removeFrom cmp veq k v ss.length (i + 1)) = (g, some false)
        | some ps => ∃ j t, (s :: ss)[j]? = some t ∧ pairs ((s :: ss).set j t.bury) = ps ∧ t.used = true ∧
          vrun g (removeFrom cmp veq k v ss.length (i + 1)) = (g.bury (i + j), some true) := by
      intro e he hno
      have hw : without (fun p => cmp p.1 k && veq p.2 v) (e.toList ++ pairs ss) =
          (without (fun p => cmp p.1 k && veq p.2 v) (pairs ss)).map (e.toList ++ ·) := by
        cases e with
        | none => simp
        | some p => simp [without, hno p rfl]
      rw [hw]
      have := ih (i + 1) h.tail
      cases hc : without (fun p => cmp p.1 k && veq p.2 v) (pairs ss) with
      | none => rw [hc] at this; exact this
      | some ps =>
        rw [hc] at this
        obtain ⟨j, t, h1, h2, h3, h4⟩ := this
        refine ⟨j + 1, t, by simpa using h1, ?_, h3, by rw [h4, show i + 1 + j = i + (j + 1) by omega]⟩
        rw [List.set_cons_succ, pairs_cons, h2, he]
    cases hr : g.rd i
    · simp only [Bool.false_eq_true, if_false]
      rw [h.head.notFull hr]
      exact hrest none (h.head.notFull hr) (by simp)
    · simp only [if_true, vrun]
      rw [h.head.full hr]
      cases hk : cmp (g.pair i).1 k
      · simp only [Bool.false_eq_true, if_false]
        refine hrest _ (h.head.full hr) fun p hp => ?_
        cases hp; simp [hk]
      · simp only [if_true, vrun]
        cases hv : veq (g.pair i).2 v
        · simp only [Bool.false_eq_true, if_false]
          refine hrest _ (h.head.full hr) fun p hp => ?_
          cases hp; simp [hv]
        · simp only [if_true, vrun]
          have : without (fun p => cmp p.1 k && veq p.2 v) ((some (g.pair i)).toList ++ pairs ss) = some (pairs ss) := by
            simp [without, hk, hv]
          rw [this]
          refine ⟨0, s, rfl, ?_, ?_, rfl⟩
          · have hf := h.head.full hr
            cases s with
            | full a b => rfl
            | free => cases hf
            | grave a b => cases hf
          · have hf := h.head.full hr
            cases s with
            | full a b => rfl
            | free => cases hf
            | grave a b => cases hf

theorem row_fill {d : K × V} {g : View K V} {ss : List (Slot K V)} {i : Nat} (h : Row d g 0 ss) (hi : i < ss.length) (k : K) (v : V) :
    Row d (g.fill i (k, v)) 0 (ss.set i (.full k v)) := by
  intro j s hj
  rw [List.getElem?_set] at hj
  simp only [Nat.zero_add]
  by_cases hji : i = j
  · subst hji
    rw [if_pos rfl, if_pos hi] at hj
    cases hj
    simp [Match, View.fill, Slot.used, Slot.pair?, Slot.stored]
  · rw [if_neg hji] at hj
    have := h j s hj
    simp only [Nat.zero_add] at this
    have hne : j ≠ i := Ne.symm hji
    simpa [Match, View.fill, hne] using this

theorem row_bury {d : K × V} {g : View K V} {ss : List (Slot K V)} {i : Nat} {t : Slot K V} (h : Row d g 0 ss) (hi : ss[i]? = some t) :
    Row d (g.bury i) 0 (ss.set i t.bury) := by
  intro j s hj
  rw [List.getElem?_set] at hj
  simp only [Nat.zero_add]
  by_cases hji : i = j
  · subst hji
    have hlt : i < ss.length := (List.getElem?_eq_some_iff.1 hi).1
    rw [if_pos rfl, if_pos hlt] at hj
    cases hj
    have := h i t hi
    simp only [Nat.zero_add] at this
    obtain ⟨h1, h2, h3⟩ := this
    refine ⟨?_, ?_, ?_⟩
    · simp only [View.bury, h1]; cases t <;> rfl
    · simp only [View.bury, decide_true, Bool.not_true, Bool.false_and]; cases t <;> rfl
    · simp only [View.bury, h3]; cases t <;> rfl
  · rw [if_neg hji] at hj
    have := h j s hj
    simp only [Nat.zero_add] at this
    have hne : j ≠ i := Ne.symm hji
    simpa [Match, View.bury, hne] using this

/-- The slots of a page that stand for what the calls without slot numbers have left: used slots, and then free ones. -/
structure Holds (d : K × V) (n : Nat) (g : Page K V) (b : Bag K V) (us : List (Slot K V)) : Prop where
  wf : WF n g
  le : us.length ≤ n
  used : ∀ s ∈ us, s.used = true
  row : Row d (view d g) 0 (us ++ List.replicate (n - us.length) .free)
  held : b.held = pairs us
  given : b.given = us.length

theorem pairs_append (a b : List (Slot K V)) : pairs (a ++ b) = pairs a ++ pairs b := List.filterMap_append ..

theorem pairs_free (m : Nat) : pairs (List.replicate m (.free : Slot K V)) = [] := by
  induction m with
  | zero => rfl
  | succ m ih => rw [List.replicate_succ, pairs_cons, ih]; rfl

theorem pairs_length_le (ss : List (Slot K V)) : (pairs ss).length ≤ ss.length := List.length_filterMap_le ..

theorem run_of_vrun {d : K × V} {n : Nat} {g : Page K V} {p : Prog K V α} {w : View K V} {o : Option α} (hg : WF n g) (hp : Within n p)
    (h : vrun (view d g) p = (w, o)) : WF n (run g p).1 ∧ view d (run g p).1 = w ∧ (run g p).2 = o := by
  have := run_view d p hg hp
  rw [h] at this
  exact this

theorem call_seq {d : K × V} {n : Nat} {g : Page K V} {b : Bag K V} {us : List (Slot K V)} (cmp : K → K → Bool) (veq : V → V → Bool)
    (h : Holds d n g b us) (c : MapCall K V) :
    (run g (c.call.prog cmp veq n)).2 = some (c.act cmp veq n b).2 ∧
    ∃ us', Holds d n (run g (c.call.prog cmp veq n)).1 (c.act cmp veq n b).1 us' := by
  have hin : Within n (c.call.prog cmp veq n) := within_call cmp veq _ (by intro i hi; cases c <;> cases hi)
  have hlen : (us ++ List.replicate (n - us.length) (.free : Slot K V)).length = n := by
    have := h.le
    simp; omega
  have hpairs : pairs (us ++ List.replicate (n - us.length) (.free : Slot K V)) = b.held := by
    rw [pairs_append, pairs_free, List.append_nil, h.held]
  have hnum : vrun (view d g) (numReadable n) = (view d g, some b.held.length) := by
    have := vrun_numReadable _ 0 0 h.row
    rw [hlen, hpairs, Nat.zero_add] at this
    exact this
  have keep : ∀ r, vrun (view d g) (c.call.prog cmp veq n) = (view d g, some r) → c.act cmp veq n b = (b, r) →
      (run g (c.call.prog cmp veq n)).2 = some (c.act cmp veq n b).2 ∧
      ∃ us', Holds d n (run g (c.call.prog cmp veq n)).1 (c.act cmp veq n b).1 us' := by
    intro r hr hb
    obtain ⟨h1, h2, h3⟩ := run_of_vrun h.wf hin hr
    rw [hb]
    exact ⟨h3, us, ⟨h1, h.le, h.used, by rw [h2]; exact h.row, h.held, h.given⟩⟩
  cases c with
  | numReadable => exact keep _ (by simp only [MapCall.call, Call.prog, vrun_bind, hnum]; rfl) rfl
  | isFull => exact keep _ (by simp only [MapCall.call, Call.prog, vrun_bind, hnum]; rfl) rfl
  | isEmpty =>
    refine keep _ (by simp only [MapCall.call, Call.prog, vrun_bind, hnum]; rfl) ?_
    simp only [MapCall.act]
    cases b.held <;> rfl
  | getValue k =>
    refine keep (.values ((b.held.filter fun p => cmp p.1 k).map (·.2))) ?_ rfl
    have := vrun_getValue cmp k _ 0 [] h.row
    rw [hlen, hpairs, List.nil_append] at this
    simp only [MapCall.call, Call.prog, vrun_bind, getValue, this]
    rfl
  | insert k v =>
    have hhas : vrun (view d g) (hasKeyFrom cmp k n 0) = (view d g, some (b.held.any fun p => cmp p.1 k)) := by
      have := vrun_hasKey cmp k _ 0 h.row
      rw [hlen, hpairs] at this
      exact this
    have hins := vrun_insertFrom k v (n - us.length) us h.used 0 h.row
    rw [show us.length + (n - us.length) = n by have := h.le; omega, Nat.zero_add] at hins
    have hheld := pairs_length_le us
    rw [← h.held] at hheld
    by_cases hok : b.held.any (fun p => cmp p.1 k) = false ∧ b.given < n
    · have hlt : us.length < n := h.given ▸ hok.2
      have hr : vrun (view d g) (Call.prog cmp veq n (MapCall.insert k v).call) = ((view d g).fill us.length (k, v), some (.bool true)) := by
        simp only [MapCall.call, Call.prog, vrun_bind, insert, hnum]
        rw [if_neg (show ¬ b.held.length = n by omega)]
        simp only [vrun_bind, hhas, hok.1, Bool.false_eq_true, if_false, hins]
        rw [if_neg (show ¬ n - us.length = 0 by omega)]
        rfl
      obtain ⟨h1, h2, h3⟩ := run_of_vrun h.wf hin hr
      simp only [MapCall.act, if_pos hok]
      refine ⟨h3, us ++ [.full k v], ⟨h1, by simp; omega, ?_, ?_, ?_, ?_⟩⟩
      · intro s hs
        rw [List.mem_append, List.mem_singleton] at hs
        rcases hs with hs | hs
        · exact h.used s hs
        · subst hs; rfl
      · rw [h2]
        have := row_fill h.row (i := us.length) (by rw [hlen]; exact hlt) k v
        have heq : (us ++ List.replicate (n - us.length) Slot.free).set us.length (.full k v) =
            us ++ [.full k v] ++ List.replicate (n - (us ++ [Slot.full k v]).length) .free := by
          obtain ⟨m, hm⟩ : ∃ m, n - us.length = m + 1 := ⟨n - us.length - 1, by omega⟩
          rw [hm, List.set_append_right _ _ (Nat.le_refl _), Nat.sub_self, List.replicate_succ, List.set_cons_zero]
          have : n - (us ++ [Slot.full k v]).length = m := by simp; omega
          rw [this, List.append_assoc]; rfl
        rw [heq] at this
        exact this
      · rw [pairs_append, ← h.held]; rfl
      · simp [h.given]
    · refine keep (.bool false) ?_ (by simp only [MapCall.act, if_neg hok])
      simp only [MapCall.call, Call.prog, vrun_bind, insert, hnum]
      by_cases hf : b.held.length = n
      · rw [if_pos hf]; rfl
      · rw [if_neg hf]
        simp only [vrun_bind, hhas]
        cases hany : b.held.any fun p => cmp p.1 k
        · have : n - us.length = 0 := by
            have : ¬ b.given < n := fun h' => hok ⟨hany, h'⟩
            rw [h.given] at this
            omega
          simp only [Bool.false_eq_true, if_false, hins, if_pos this]
          rfl
        · rfl
  | remove k v =>
    have := vrun_removeFrom cmp veq k v _ 0 h.row
    rw [hpairs, hlen] at this
    cases hw : without (fun p => cmp p.1 k && veq p.2 v) b.held with
    | none =>
      rw [hw] at this
      refine keep (.bool false) ?_ (by simp only [MapCall.act, hw])
      simp only [MapCall.call, Call.prog, vrun_bind, remove, this]
      rfl
    | some ps =>
      rw [hw] at this
      obtain ⟨j, s, h1, h2, h3, h4⟩ := this
      rw [Nat.zero_add] at h4
      have hr : vrun (view d g) (Call.prog cmp veq n (MapCall.remove k v).call) = ((view d g).bury j, some (.bool true)) := by
        simp only [MapCall.call, Call.prog, vrun_bind, remove, h4]
        rfl
      obtain ⟨g1, g2, g3⟩ := run_of_vrun h.wf hin hr
      simp only [MapCall.act, hw]
      have hj : j < us.length := by
        rcases Nat.lt_or_ge j us.length with hj | hj
        · exact hj
        · rw [List.getElem?_append_right hj, List.getElem?_replicate] at h1
          split at h1
          · cases h1; cases h3
          · cases h1
      have hset : (us ++ List.replicate (n - us.length) Slot.free).set j s.bury = us.set j s.bury ++ List.replicate (n - us.length) .free :=
        List.set_append_left _ _ hj
      refine ⟨g3, us.set j s.bury, ⟨g1, by simpa using h.le, ?_, ?_, ?_, by simpa using h.given⟩⟩
      · intro t ht
        rcases List.mem_or_eq_of_mem_set ht with ht | ht
        · exact h.used t ht
        · subst ht; cases s <;> first | rfl | cases h3
      · rw [g2, List.length_set, ← hset]
        exact row_bury h.row h1
      · rw [← h2, hset, pairs_append, pairs_free, List.append_nil]

theorem calls_seq {d : K × V} {n : Nat} (cmp : K → K → Bool) (veq : V → V → Bool) (cs : List (MapCall K V)) :
    ∀ {g : Page K V} {b : Bag K V} {us : List (Slot K V)}, Holds d n g b us →
    (runCalls cmp veq n g (cs.map MapCall.call)).2 = (MapCall.acts cmp veq n cs b).map some := by
  induction cs with
  | nil => intro g b us _; rfl
  | cons c cs ih =>
    intro g b us h
    obtain ⟨h1, us', h2⟩ := call_seq cmp veq h c
    simp only [List.map_cons, runCalls, MapCall.acts, h1, ih h2]

end Verif.HashPage
