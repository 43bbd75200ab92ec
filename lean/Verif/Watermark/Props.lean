import Verif.Watermark.Model

/-!
# Properties C08, C09: the watermark and timestamps
-/

namespace Verif.Watermark

/-! ## Specification, in terms of the history of calls and their results only -/

/-- The registered transactions after a history (newest call last): a timestamp is registered by
`add_txn ts` or by a `register` call that returned it, and stays registered until
`remove_txn ts`/`unregister ts`. -/
def Registered : List (Op × Option Nat) → Nat → Prop
  | h, t => ∃ before ev after, h = before ++ ev :: after ∧
      (ev.1 = .addTxn t ∨ (ev.1 = .register ∧ ev.2 = some t)) ∧
      ∀ e ∈ after, e.1 ≠ .removeTxn t ∧ e.1 ≠ .unregister t

/-- The timestamps handed out by a history, oldest first. -/
def issued : List (Op × Option Nat) → List Nat
  | [] => []
  | (.getNextTs, some t) :: h => t :: issued h
  | (.register, some t) :: h => t :: issued h
  | _ :: h => issued h

/-! ## Helper lemmas -/

theorem minOf_le_start (a : Nat) (l : List Nat) : minOf a l ≤ a := by
  induction l generalizing a with
  | nil => simp [minOf]
  | cons b l ih => simp only [minOf]; have := ih (min a b); omega

theorem minOf_le_mem (a : Nat) (l : List Nat) : ∀ t ∈ l, minOf a l ≤ t := by
  induction l generalizing a with
  | nil => simp
  | cons b l ih =>
    intro t ht
    simp only [minOf]
    rcases List.mem_cons.1 ht with h | h
    · subst h; have := minOf_le_start (min a t) l; omega
    · exact ih _ _ h

theorem minOf_mem (a : Nat) (l : List Nat) : minOf a l = a ∨ minOf a l ∈ l := by
  induction l generalizing a with
  | nil => simp [minOf]
  | cons b l ih =>
    simp only [minOf]
    rcases ih (min a b) with h | h
    · rw [h]
      by_cases hab : a ≤ b
      · left; omega
      · right; rw [show min a b = b by omega]; simp
    · right; exact List.mem_cons_of_mem _ h

/-- What the watermark means for the stored state. -/
structure Inv (w : WM) : Prop where
  le_active : ∀ t ∈ w.active, w.watermark ≤ t
  attained : w.active ≠ [] → w.watermark ∈ w.active
  empty : w.active = [] → w.watermark ≤ w.nextTs

theorem inv_update (w : WM) : Inv (updateWatermark w) := by
  unfold updateWatermark
  split
  · next h => constructor <;> simp [h]
  · next a l h =>
    constructor
    · intro t ht
      simp only [h] at ht
      rcases List.mem_cons.1 ht with e | e
      · subst e; exact minOf_le_start _ _
      · exact minOf_le_mem _ _ _ e
    · intro _
      simp only [h]
      rcases minOf_mem a l with e | e
      · rw [e]; simp
      · exact List.mem_cons_of_mem _ e
    · simp [h]

@[simp] theorem update_active (w : WM) : (updateWatermark w).active = w.active := by
  unfold updateWatermark; split <;> simp_all

@[simp] theorem update_nextTs (w : WM) : (updateWatermark w).nextTs = w.nextTs := by
  unfold updateWatermark; split <;> rfl

theorem inv_step (w : WM) (h : Inv w) (o : Op) : Inv (step w o).1 := by
  cases o with
  | getNextTs =>
    refine ⟨h.le_active, h.attained, ?_⟩
    intro e; have := h.empty e; simp only [step, getNextTs]; omega
  | addTxn ts => exact inv_update _
  | removeTxn ts => exact inv_update _
  | updateCommitTs ts => exact inv_update _
  | register => exact inv_update _
  | unregister ts => exact inv_update _
  | updateCommitTsAndGet ts => exact inv_update _

theorem inv_run (w : WM) (h : Inv w) (os : List Op) : Inv (run w os).1 := by
  induction os generalizing w with
  | nil => exact h
  | cons o os ih => exact ih _ (inv_step w h o)

theorem inv_new : Inv new := by constructor <;> simp [new]

theorem mem_setInsert (l : List Nat) (a t : Nat) : t ∈ setInsert l a ↔ t = a ∨ t ∈ l := by
  unfold setInsert; split
  · next h =>
    constructor
    · exact Or.inr
    · rintro (e | e)
      · exact e ▸ h
      · exact e
  · simp

/-- One call's effect on the set of registered timestamps. -/
theorem active_step (w : WM) (o : Op) (t : Nat) :
    t ∈ (step w o).1.active ↔
      (o = .addTxn t ∨ (o = .register ∧ (step w o).2 = some t)) ∨
      (t ∈ w.active ∧ o ≠ .removeTxn t ∧ o ≠ .unregister t) := by
  cases o with
  | getNextTs => simp [step, getNextTs]
  | addTxn ts =>
    simp only [step, addTxn, update_active, mem_setInsert]
    constructor
    · rintro (h | h)
      · subst h; simp
      · right; simp [h]
    · rintro (h | h)
      · simp at h; left; exact h.symm
      · right; exact h.1
  | removeTxn ts =>
    simp only [step, removeTxn, update_active, List.mem_filter]
    simp
    intro _; exact ⟨Ne.symm, Ne.symm⟩
  | updateCommitTs ts => simp [step, updateCommitTs]
  | register =>
    simp only [step, getNextTsAndRegister, getNextTs, addTxn, update_active, mem_setInsert]
    simp
    constructor
    · rintro (h | h)
      · exact Or.inl h.symm
      · exact Or.inr h
    · rintro (h | h)
      · exact Or.inl h.symm
      · exact Or.inr h
  | unregister ts =>
    simp only [step, unregisterTxn, removeTxn, update_active, List.mem_filter]
    simp
    intro _; exact ⟨Ne.symm, Ne.symm⟩
  | updateCommitTsAndGet ts => simp [step, updateCommitTsAndGetWatermark, updateCommitTs]

/-- The stored set is the set of registered transactions of the history (plus what was there initially). -/
theorem active_run (w : WM) (os : List Op) (t : Nat) :
    t ∈ (run w os).1.active ↔
      Registered (run w os).2 t ∨
      (t ∈ w.active ∧ ∀ e ∈ (run w os).2, e.1 ≠ .removeTxn t ∧ e.1 ≠ .unregister t) := by
  induction os generalizing w with
  | nil => simp [run, Registered]
  | cons o os ih =>
    simp only [run]
    rw [ih, active_step]
    constructor
    · rintro (⟨b, ev, a, e1, e2, e3⟩ | ⟨(h | h), h2⟩)
      · left; exact ⟨(o, (step w o).2) :: b, ev, a, by simp [e1], e2, e3⟩
      · left; exact ⟨[], (o, (step w o).2), _, rfl, h, h2⟩
      · right
        refine ⟨h.1, ?_⟩
        intro e he
        rcases List.mem_cons.1 he with h3 | h3
        · subst h3; exact h.2
        · exact h2 _ h3
    · rintro (⟨b, ev, a, e1, e2, e3⟩ | ⟨h, h2⟩)
      · cases b with
        | nil =>
          simp only [List.nil_append, List.cons.injEq] at e1
          right
          refine ⟨Or.inl ?_, ?_⟩
          · rw [← e1.1] at e2; exact e2
          · rw [e1.2]; exact e3
        | cons x b =>
          simp only [List.cons_append, List.cons.injEq] at e1
          left; exact ⟨b, ev, a, e1.2, e2, e3⟩
      · right
        refine ⟨Or.inr ⟨h, h2 (o, (step w o).2) (by simp)⟩, ?_⟩
        intro e he; exact h2 e (List.mem_cons_of_mem _ he)

theorem nextTs_step_le (w : WM) (o : Op) : w.nextTs ≤ (step w o).1.nextTs := by
  cases o <;> simp [step, getNextTs, addTxn, removeTxn, updateCommitTs, getNextTsAndRegister,
    unregisterTxn, updateCommitTsAndGetWatermark] <;> split <;> omega

theorem issued_lt (w : WM) (os : List Op) : ∀ t ∈ issued (run w os).2, w.nextTs ≤ t := by
  induction os generalizing w with
  | nil => simp [run, issued]
  | cons o os ih =>
    intro t ht
    have hle := nextTs_step_le w o
    have ih' := ih (step w o).1
    cases o with
    | getNextTs =>
      simp only [run, step, getNextTs, issued, List.mem_cons] at ht
      rcases ht with h | h
      · omega
      · have := ih' t h; simp only [step, getNextTs] at this; omega
    | register =>
      simp only [run, step, getNextTsAndRegister, getNextTs, issued, List.mem_cons] at ht
      rcases ht with h | h
      · omega
      · have := ih' t h; omega
    | _ => simp only [run, issued] at ht; have := ih' t ht; omega

/-! ## C08 -/

/-- **C08.** After every history of calls: the watermark is at most every registered timestamp; when
some timestamp is registered, it is itself the smallest registered one; and when none is, no
timestamp below it will ever be handed out by any continuation of the history. -/
theorem C08_watermark_bounds_active (os : List Op) :
    let r := run new os
    (∀ t, Registered r.2 t → getWatermark r.1 ≤ t) ∧
    ((∃ t, Registered r.2 t) → Registered r.2 (getWatermark r.1)) ∧
    ((∀ t, ¬ Registered r.2 t) → ∀ os' : List Op, ∀ t ∈ issued (run r.1 os').2, getWatermark r.1 ≤ t) := by
  intro r
  have hinv : Inv r.1 := inv_run new inv_new os
  have hact : ∀ t, t ∈ r.1.active ↔ Registered r.2 t := by
    intro t; rw [active_run]; simp [new, r]
  refine ⟨fun t ht => hinv.le_active t ((hact t).2 ht), ?_, ?_⟩
  · rintro ⟨t, ht⟩
    refine (hact _).1 (hinv.attained ?_)
    intro e
    have := (hact t).2 ht; rw [e] at this; simp at this
  · intro h os' t ht
    have he : r.1.active = [] := by
      cases hh : r.1.active with
      | nil => rfl
      | cons a l => exact absurd ((hact a).1 (by rw [hh]; simp)) (h a)
    have h1 := hinv.empty he
    have h2 := issued_lt r.1 os' t ht
    unfold getWatermark; omega

/-- Non-vacuity: two readers registered, one gone, the other bounds the watermark. -/
example : (run new [.register, .register, .getNextTs, .unregister 1]).1 =
    { active := [2], watermark := 2, nextTs := 4 } := by decide
example : Registered (run new [.register, .register, .getNextTs, .unregister 1]).2 2 :=
  ⟨[(.register, some 1)], (.register, some 2), [(.getNextTs, some 3), (.unregister 1, some 2)],
    by decide, by decide, by decide⟩

/-! ## C09 -/

/-- **C09 (timestamps).** In every history the timestamps handed out are strictly increasing
(hence unique), and each exceeds every timestamp announced by an earlier `update_commit_ts`
(below the 64-bit limit). -/
theorem C09_timestamps_strictly_increase (os : List Op) :
    (issued (run new os).2).Pairwise (· < ·) := by
  suffices h : ∀ (w : WM), (issued (run w os).2).Pairwise (· < ·) from h new
  induction os with
  | nil => intro w; simp [run, issued]
  | cons o os ih =>
    intro w
    have ih' := ih (step w o).1
    have hl := issued_lt (step w o).1 os
    cases o with
    | getNextTs =>
      simp only [run, step, getNextTs, issued, List.pairwise_cons]
      refine ⟨?_, ih'⟩
      intro t ht; have := hl t ht; simp only [step, getNextTs] at this; omega
    | register =>
      simp only [run, step, getNextTsAndRegister, getNextTs, issued, List.pairwise_cons]
      refine ⟨?_, ih'⟩
      intro t ht; have := hl t ht
      simp only [step, getNextTsAndRegister, getNextTs, addTxn, update_nextTs] at this; omega
    | _ => simp only [run, issued]; exact ih'

/-- **C09 (commit timestamps).** After `update_commit_ts ts` every timestamp handed out later is
larger than `ts` (for `ts` below the 64-bit limit, where `saturating_add` does not saturate). -/
theorem C09_commit_ts_respected (w : WM) (ts : Nat) (hts : ts < u64Max) (os : List Op) :
    ∀ t ∈ issued (run (updateCommitTs w ts) os).2, ts < t := by
  intro t ht
  have h := issued_lt _ os t ht
  simp only [updateCommitTs, update_nextTs] at h
  split at h <;> omega

/-- Calls that register readers only with freshly issued timestamps, as `begin` does
(transaction_manager.rs:444-469 uses `get_next_ts_and_register`). -/
def Op.fresh : Op → Prop
  | .addTxn _ => False
  | _ => True

/-- In such histories everything active is below the counter, and so is the watermark. -/
structure InvFresh (w : WM) : Prop where
  inv : Inv w
  lt : ∀ t ∈ w.active, t < w.nextTs
  le : w.watermark ≤ w.nextTs

theorem watermark_mono_update (w : WM) (a : List Nat) (n : Nat) (h : InvFresh w)
    (hsub : ∀ t ∈ a, t ∈ w.active ∨ w.nextTs ≤ t) (hn : w.nextTs ≤ n) :
    w.watermark ≤ (updateWatermark { w with active := a, nextTs := n }).watermark := by
  unfold updateWatermark
  split
  · next e => have := h.le; simp only; omega
  · next b l e =>
    simp only at e ⊢
    rcases minOf_mem b l with h1 | h1
    · rw [h1]
      rcases hsub b (by rw [e]; simp) with h2 | h2
      · exact h.inv.le_active _ h2
      · have := h.le; omega
    · rcases hsub (minOf b l) (by rw [e]; exact List.mem_cons_of_mem _ h1) with h2 | h2
      · exact h.inv.le_active _ h2
      · have := h.le; omega

theorem le_of_inv_update (w : WM) (hlt : ∀ t ∈ w.active, t < w.nextTs) :
    (updateWatermark w).watermark ≤ w.nextTs := by
  have hi := inv_update w
  by_cases he : w.active = []
  · have := hi.empty (by simpa using he); simpa using this
  · have := hi.attained (by simpa using he)
    rw [update_active] at this
    exact Nat.le_of_lt (hlt _ this)

theorem fresh_step (w : WM) (h : InvFresh w) (o : Op) (ho : o.fresh) :
    InvFresh (step w o).1 ∧ w.watermark ≤ (step w o).1.watermark := by
  have hi := inv_step w h.inv o
  cases o with
  | addTxn ts => exact absurd ho id
  | getNextTs =>
    refine ⟨⟨hi, ?_, ?_⟩, Nat.le_refl _⟩
    · intro t ht; have := h.lt t ht; simp only [step, getNextTs]; omega
    · have := h.le; simp only [step, getNextTs]; omega
  | removeTxn ts =>
    have hl : ∀ t ∈ w.active.filter (· ≠ ts), t < w.nextTs := by
      intro t ht; exact h.lt t (List.mem_filter.1 ht).1
    refine ⟨⟨hi, ?_, ?_⟩, ?_⟩
    · intro t ht; simp only [step, removeTxn, update_active, update_nextTs] at ht ⊢; exact hl t ht
    · simp only [step, removeTxn, update_nextTs]
      exact le_of_inv_update { w with active := w.active.filter (· ≠ ts) } hl
    · exact watermark_mono_update w _ w.nextTs h
        (fun t ht => Or.inl (List.mem_filter.1 ht).1) (Nat.le_refl _)
  | unregister ts =>
    have hl : ∀ t ∈ w.active.filter (· ≠ ts), t < w.nextTs := by
      intro t ht; exact h.lt t (List.mem_filter.1 ht).1
    refine ⟨⟨hi, ?_, ?_⟩, ?_⟩
    · intro t ht
      simp only [step, unregisterTxn, removeTxn, update_active, update_nextTs] at ht ⊢; exact hl t ht
    · simp only [step, unregisterTxn, removeTxn, update_nextTs]
      exact le_of_inv_update { w with active := w.active.filter (· ≠ ts) } hl
    · exact watermark_mono_update w _ w.nextTs h
        (fun t ht => Or.inl (List.mem_filter.1 ht).1) (Nat.le_refl _)
  | register =>
    have hl : ∀ t ∈ setInsert w.active w.nextTs, t < w.nextTs + 1 := by
      intro t ht
      rcases (mem_setInsert _ _ _).1 ht with e | e
      · omega
      · have := h.lt t e; omega
    refine ⟨⟨hi, ?_, ?_⟩, ?_⟩
    · intro t ht
      simp only [step, getNextTsAndRegister, getNextTs, addTxn, update_active, update_nextTs] at ht ⊢
      exact hl t ht
    · simp only [step, getNextTsAndRegister, getNextTs, addTxn, update_nextTs]
      exact le_of_inv_update
        { w with active := setInsert w.active w.nextTs, nextTs := w.nextTs + 1 } hl
    · refine watermark_mono_update w (setInsert w.active w.nextTs) (w.nextTs + 1) h ?_ (by omega)
      intro t ht
      rcases (mem_setInsert _ _ _).1 ht with e | e
      · right; omega
      · left; exact e
  | updateCommitTs ts =>
    have hn : w.nextTs ≤ (if w.nextTs < min (ts + 1) u64Max then min (ts + 1) u64Max else w.nextTs) := by
      split <;> omega
    have hl : ∀ t ∈ w.active, t <
        (if w.nextTs < min (ts + 1) u64Max then min (ts + 1) u64Max else w.nextTs) := by
      intro t ht; have := h.lt t ht; omega
    refine ⟨⟨hi, ?_, ?_⟩, ?_⟩
    · intro t ht; simp only [step, updateCommitTs, update_active, update_nextTs] at ht ⊢; exact hl t ht
    · simp only [step, updateCommitTs, update_nextTs]
      exact le_of_inv_update { w with nextTs := _ } hl
    · exact watermark_mono_update w w.active _ h (fun t ht => Or.inl ht) hn
  | updateCommitTsAndGet ts =>
    have hn : w.nextTs ≤ (if w.nextTs < min (ts + 1) u64Max then min (ts + 1) u64Max else w.nextTs) := by
      split <;> omega
    have hl : ∀ t ∈ w.active, t <
        (if w.nextTs < min (ts + 1) u64Max then min (ts + 1) u64Max else w.nextTs) := by
      intro t ht; have := h.lt t ht; omega
    refine ⟨⟨hi, ?_, ?_⟩, ?_⟩
    · intro t ht
      simp only [step, updateCommitTsAndGetWatermark, updateCommitTs, update_active, update_nextTs] at ht ⊢
      exact hl t ht
    · simp only [step, updateCommitTsAndGetWatermark, updateCommitTs, update_nextTs]
      exact le_of_inv_update { w with nextTs := _ } hl
    · exact watermark_mono_update w w.active _ h (fun t ht => Or.inl ht) hn

theorem fresh_run (w : WM) (h : InvFresh w) (os : List Op) (hf : ∀ o ∈ os, o.fresh) :
    InvFresh (run w os).1 ∧ w.watermark ≤ (run w os).1.watermark := by
  induction os generalizing w with
  | nil => exact ⟨h, Nat.le_refl _⟩
  | cons o os ih =>
    have h1 := fresh_step w h o (hf o (by simp))
    have h2 := ih (step w o).1 h1.1 (fun o ho => hf o (List.mem_cons_of_mem _ ho))
    exact ⟨h2.1, Nat.le_trans h1.2 h2.2⟩

/-- **C09 (monotonicity).** When readers are registered only with the timestamp issued to them, the
watermark never decreases: it is at most its value after any continuation. -/
theorem C09_watermark_monotone (os os' : List Op) (h : ∀ o ∈ os ++ os', o.fresh) :
    getWatermark (run new os).1 ≤ getWatermark (run (run new os).1 os').1 := by
  have h0 : InvFresh new := ⟨inv_new, by simp [new], by simp [new]⟩
  have h1 := fresh_run new h0 os (fun o ho => h o (List.mem_append_left _ ho))
  exact (fresh_run _ h1.1 os' (fun o ho => h o (List.mem_append_right _ ho))).2

/-- Non-vacuity: a fresh history in which the watermark really moves (1 → 2 → 4). -/
example : (∀ o ∈ [Op.register, .register, .unregister 1, .getNextTs, .unregister 2], o.fresh) ∧
    getWatermark (run new [.register, .register]).1 = 1 ∧
    getWatermark (run new [.register, .register, .unregister 1]).1 = 2 ∧
    getWatermark (run new [.register, .register, .unregister 1, .getNextTs, .unregister 2]).1 = 4 := by
  refine ⟨?_, by decide, by decide, by decide⟩
  intro o ho; simp at ho; rcases ho with rfl|rfl|rfl|rfl <;> trivial

/-- The freshness hypothesis is needed: registering an old timestamp through `add_txn` moves the
watermark back. -/
theorem C09_watermark_monotone_stale_add_fails :
    ∃ os o, getWatermark (run new os).1 > getWatermark (run new (os ++ [o])).1 :=
  ⟨[.getNextTs, .getNextTs, .removeTxn 0], .addTxn 1, by decide⟩

end Verif.Watermark
