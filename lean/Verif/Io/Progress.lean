import Verif.Io.Order

/-! Every call is answered. -/

namespace Verif.Io

open Spec

/-- What holds as long as the queue is not cleared and no worker is stopped. -/
structure Live (s : St) (h : List Lab) : Prop where
  held : ∀ i, s.pending i = true → 0 < s.cnt i
  stop : s.stop = false
  gone : .gone ∉ s.workers
  permits : s.permits + s.workers.countP Worker.holds = 64
  directs : ∀ n k, Lab.call (.direct n) k ∈ h → (∃ c ∈ s.directs, c.1 = n) ∨ ∃ r, Lab.ret (.direct n) r ∈ h

theorem live_new (db log : Data) : Live (St.new db log) [] where
  held i hp := by simp [St.pending, St.new] at hp
  stop := rfl
  gone := by simp [St.new]
  permits := rfl
  directs n k hm := by simp at hm

theorem cancel_frame (s : St) (j : Nat) : (s.cancel j).1.workers = s.workers ∧ (s.cancel j).1.queue = s.queue ∧ (s.cancel j).1.calls = s.calls ∧ (s.cancel j).1.stop = s.stop ∧
    (s.cancel j).1.permits = s.permits ∧ (s.cancel j).1.directs = s.directs ∧ (s.cancel j).1.now = s.now := by
  unfold St.cancel
  split <;> exact ⟨rfl, rfl, rfl, rfl, rfl, rfl, rfl⟩

theorem complete_frame (s : St) (j : Nat) (r : Res) : (s.complete j r).1.workers = s.workers ∧ (s.complete j r).1.queue = s.queue ∧ (s.complete j r).1.calls = s.calls ∧
    (s.complete j r).1.stop = s.stop ∧ (s.complete j r).1.permits = s.permits ∧ (s.complete j r).1.directs = s.directs ∧ (s.complete j r).1.now = s.now := by
  unfold St.complete
  split <;> exact ⟨rfl, rfl, rfl, rfl, rfl, rfl, rfl⟩

theorem pending_cancel {s : St} {i j : Nat} (h : (s.cancel j).1.pending i = true) : s.pending i = true ∧ i ≠ j := by
  rw [pending_iff] at h
  obtain ⟨t, ht⟩ := h
  unfold St.cancel at ht
  split at ht
  · by_cases hij : i = j
    · subst hij; rw [AMap.get_set_self] at ht; cases ht
    · rw [AMap.get_set_ne _ _ (Ne.symm hij)] at ht
      exact ⟨pending_iff.2 ⟨t, ht⟩, hij⟩
  · rename_i hn
    exact ⟨pending_iff.2 ⟨t, ht⟩, by rintro rfl; exact hn t ht⟩

theorem pending_complete {s : St} {i j : Nat} {r : Res} (h : (s.complete j r).1.pending i = true) : s.pending i = true ∧ i ≠ j := by
  rw [pending_iff] at h
  obtain ⟨t, ht⟩ := h
  unfold St.complete at ht
  split at ht
  · by_cases hij : i = j
    · subst hij; rw [AMap.get_set_self] at ht; cases ht
    · rw [AMap.get_set_ne _ _ (Ne.symm hij)] at ht
      exact ⟨pending_iff.2 ⟨t, ht⟩, hij⟩
  · rename_i hn
    exact ⟨pending_iff.2 ⟨t, ht⟩, by rintro rfl; exact hn t ht⟩

theorem Live.frame {s s' : St} {h l : List Lab} (hl : Live s h) (hp : ∀ i, s'.pending i = true → s.pending i = true) (hw : s'.workers = s.workers) (hq : s'.queue = s.queue)
    (hc : s'.calls = s.calls) (hs : s'.stop = s.stop) (hpm : s'.permits = s.permits) (hd : s'.directs = s.directs) (hno : ∀ n k, Lab.call (.direct n) k ∉ l) : Live s' (h ++ l) where
  held i hi := by
    have := hl.held i (hp i hi)
    simpa only [St.cnt, hw, hq, hc] using this
  stop := by rw [hs]; exact hl.stop
  gone := by rw [hw]; exact hl.gone
  permits := by rw [hpm, hw]; exact hl.permits
  directs n k hm := by
    rw [List.mem_append] at hm
    rcases hm with hm | hm
    · rcases hl.directs n k hm with hm | ⟨r, hr⟩
      · rw [hd]; exact .inl hm
      · exact .inr ⟨r, List.mem_append_left _ hr⟩
    · exact absurd hm (hno n k)

/-- A worker moves on. -/
theorem Live.move {s s' : St} {h l : List Lab} {w : Nat} {k k' : Worker} (hl : Live s h) (hk : s.workers[w]? = some k) (hp : ∀ i, s'.pending i = true → s.pending i = true)
    (hid : ∀ i, s'.pending i = true → Worker.hasId i k = true → Worker.hasId i k' = true) (hg : k' ≠ .gone)
    (hw : s'.workers = s.workers.set w k') (hq : s'.queue = s.queue)
    (hc : s'.calls = s.calls) (hs : s'.stop = s.stop) (hpm : s'.permits + (if k'.holds then 1 else 0) = s.permits + if k.holds then 1 else 0)
    (hd : s'.directs = s.directs) (hno : ∀ n k, Lab.call (.direct n) k ∉ l) : Live s' (h ++ l) where
  held i hi := by
    have h1 := hl.held i (hp i hi)
    have h2 := countP_set (Worker.hasId i) k' hk
    have h3 : (if Worker.hasId i k then 1 else 0) ≤ if Worker.hasId i k' then 1 else 0 := by
      cases e : Worker.hasId i k with
      | false => simp
      | true => rw [hid i hi e]; simp
    simp only [St.cnt, hw, hq, hc] at h1 ⊢
    omega
  stop := by rw [hs]; exact hl.stop
  gone := by
    rw [hw]
    intro hm
    rcases mem_set_cases hm with hm | hm
    · exact hg hm.symm
    · exact hl.gone hm
  permits := by
    have h1 := hl.permits
    have h2 := countP_set Worker.holds k' hk
    rw [hw]
    omega
  directs n k hm := by
    rw [List.mem_append] at hm
    rcases hm with hm | hm
    · rcases hl.directs n k hm with hm | ⟨r, hr⟩
      · rw [hd]; exact .inl hm
      · exact .inr ⟨r, List.mem_append_left _ hr⟩
    · exact absurd hm (hno n k)

theorem Live.step {s s' : St} {h l : List Lab} {ev : Ev} (hl : Live s h) (hi : Inv s h) (he : s.step ev = some (s', l)) (hn : Normal ev) : Live s' (h ++ l) := by
  cases ev with
  | tick n => cases he; exact hl.frame (fun _ h => h) rfl rfl rfl rfl rfl rfl (by simp)
  | spawn n =>
    cases he
    refine ⟨fun i hp => ?_, hl.stop, ?_, ?_, by simpa using hl.directs⟩
    · have := hl.held i hp
      simp only [St.cnt, List.countP_append] at this ⊢
      omega
    · intro hm
      rcases List.mem_append.1 hm with hm | hm
      · exact hl.gone hm
      · cases List.eq_of_mem_replicate hm
    · have : (List.replicate n Worker.idle).countP Worker.holds = 0 := by
        rw [List.countP_eq_zero]; intro w hw; rw [List.eq_of_mem_replicate hw]; simp [Worker.holds]
      show s.permits + (s.workers ++ List.replicate n Worker.idle).countP Worker.holds = 64
      rw [List.countP_append, this]
      exact hl.permits
  | start k p =>
    cases he
    refine ⟨fun i hp => ?_, hl.stop, hl.gone, hl.permits, ?_⟩
    · rw [pending_iff] at hp
      obtain ⟨t, ht⟩ := hp
      simp only [St.start] at ht
      by_cases hin : i = s.next
      · subst hin
        simp only [St.cnt, St.start, List.countP_append, List.countP_cons, beq_self_eq_true, if_true]
        omega
      · rw [AMap.get_set_ne _ _ (Ne.symm hin)] at ht
        have h2 : s.pending i = true := by
          rw [pending_iff]
          split at ht
          · exact ⟨t, get_filter_sub hi.wf _ ht⟩
          · exact ⟨t, ht⟩
        have := hl.held i h2
        simp only [St.cnt, St.start, List.countP_append] at this ⊢
        omega
    · intro n k' hm
      simp only [St.start, List.mem_append, List.mem_singleton] at hm
      rcases hm with hm | hm
      · rcases hl.directs n k' hm with hm | ⟨r, hr⟩
        · exact .inl hm
        · exact .inr ⟨r, List.mem_append_left _ hr⟩
      · cases hm
  | enqueue n =>
    simp only [St.step, Option.map_eq_some_iff] at he
    obtain ⟨s1, h1, h2⟩ := he
    cases h2
    unfold St.enqueue at h1
    rw [Option.map_eq_some_iff] at h1
    obtain ⟨o, ho, rfl⟩ := h1
    refine ⟨fun i hp => ?_, hl.stop, hl.gone, hl.permits, by simpa using hl.directs⟩
    have h1 := countP_eraseIdx (·.id == i) ho
    have h2 := hl.held i hp
    simp only [St.cnt, List.countP_append, List.countP_cons, List.countP_nil] at h1 h2 ⊢
    omega
  | take w n =>
    simp only [St.step, Option.map_eq_some_iff] at he
    obtain ⟨s1, h1, h2⟩ := he
    cases h2
    obtain ⟨o, hw, hq, -, rfl⟩ := take_some h1
    refine ⟨fun i hp => ?_, hl.stop, ?_, ?_, by simpa using hl.directs⟩
    · have h1 := countP_eraseIdx (·.id == i) hq
      have h2 := countP_set (Worker.hasId i) (.took o) hw
      have e1 : Worker.hasId i (.took o) = (o.id == i) := rfl
      have e2 : Worker.hasId i .idle = false := rfl
      rw [e1, e2] at h2
      have h3 := hl.held i hp
      simp only [St.cnt, Bool.false_eq_true, ↓reduceIte] at h1 h2 h3 ⊢
      omega
    · intro hm
      rcases mem_set_cases hm with hm | hm
      · cases hm
      · exact hl.gone hm
    · have h2 := countP_set Worker.holds (.took o) hw
      have h1 := hl.permits
      have e1 : Worker.holds (.took o) = false := rfl
      have e2 : Worker.holds .idle = false := rfl
      rw [e1, e2] at h2
      simp only [Bool.false_eq_true, ↓reduceIte] at h2 ⊢
      omega
  | check w =>
    simp only [St.step, Option.map_eq_some_iff] at he
    obtain ⟨s1, h1, h2⟩ := he
    cases h2
    obtain ⟨o, hw, rfl⟩ := check_some h1
    refine hl.move hw (fun _ h => h) ?_ ?_ rfl rfl rfl rfl ?_ rfl (by simp)
    · intro i hp hid
      have : o.id = i := by simpa [Worker.hasId, Worker.op] using hid
      subst this
      have hp' : s.pending o.id = true := hp
      rw [hp']
      exact hid
    · cases s.pending o.id <;> simp
    · cases s.pending o.id <;> rfl
  | permit w =>
    simp only [St.step, Option.map_eq_some_iff] at he
    obtain ⟨s1, h1, h2⟩ := he
    cases h2
    obtain ⟨o, hw, hp, rfl⟩ := permit_some h1
    refine hl.move (k' := .running o) hw (fun _ h => h) (fun i _ hid => hid) (by simp) rfl rfl rfl rfl ?_ rfl (by simp)
    simp [Worker.holds]
    omega
  | exec w cut =>
    obtain ⟨o, hw, rfl, rfl⟩ := exec_some he
    exact hl.move (k' := .ran o (s.files.exec o.kind cut).2) hw (fun _ h => h) (fun i _ hid => hid) (by simp) rfl rfl rfl rfl rfl rfl (by simp)
  | finish w =>
    obtain ⟨o, r, hw, e⟩ := finish_some he
    generalize hs0 : ({ s with permits := s.permits + 1, workers := s.workers.set w .idle } : St) = s0 at e
    have e1 : s' = (s0.complete o.id r).1 := by rw [← e]
    have e2 : l = (s0.complete o.id r).2 := by rw [← e]
    have hf := complete_frame s0 o.id r
    rw [← e1] at hf
    have hpd : ∀ i, s'.pending i = true → s.pending i = true ∧ i ≠ o.id := by
      intro i hp
      rw [e1] at hp
      have := pending_complete hp
      rw [← hs0] at this
      exact this
    refine hl.move hw (fun i hp => (hpd i hp).1) ?_ (by simp) (k' := .idle) (by rw [hf.1, ← hs0]) (by rw [hf.2.1, ← hs0]) (by rw [hf.2.2.1, ← hs0]) (by rw [hf.2.2.2.1, ← hs0]) ?_
      (by rw [hf.2.2.2.2.2.1, ← hs0]) ?_
    · intro i hp hid
      have : o.id = i := by simpa [Worker.hasId, Worker.op] using hid
      exact absurd this.symm (hpd i hp).2
    · rw [hf.2.2.2.2.1, ← hs0]; simp [Worker.holds]
    · intro n k
      rcases (complete_files s0 o.id r).2 with hh | hh <;> (rw [e2, hh]; simp)
  | cancel j =>
    have e := Option.some.inj he
    have e1 : s' = (s.cancel j).1 := by rw [e]
    have e2 : l = (s.cancel j).2 := by rw [e]
    obtain ⟨f1, f2, f3, f4, f5, f6, -⟩ := cancel_frame s j
    rw [← e1] at f1 f2 f3 f4 f5 f6
    refine hl.frame (fun i hp => by rw [e1] at hp; exact (pending_cancel hp).1) f1 f2 f3 f4 f5 f6 ?_
    intro n k
    rcases (cancel_files s j).2 with hh | hh <;> (rw [e2, hh]; simp)
  | drain => exact hn.elim
  | expire j =>
    simp only [St.step] at he
    split at he
    · have e := Option.some.inj he
      have e1 : s' = (s.complete j .err).1 := by rw [e]
      have e2 : l = (s.complete j .err).2 := by rw [e]
      obtain ⟨f1, f2, f3, f4, f5, f6, -⟩ := complete_frame s j .err
      rw [← e1] at f1 f2 f3 f4 f5 f6
      refine hl.frame (fun i hp => by rw [e1] at hp; exact (pending_complete hp).1) f1 f2 f3 f4 f5 f6 ?_
      intro n k
      rcases (complete_files s j .err).2 with hh | hh <;> (rw [e2, hh]; simp)
    · cases he
  | cleanup =>
    cases he
    refine hl.frame (fun i hp => ?_) rfl rfl rfl rfl rfl rfl (by simp)
    rw [pending_iff] at hp ⊢
    obtain ⟨t, ht⟩ := hp
    exact ⟨t, get_filter_sub hi.wf _ ht⟩
  | signal => exact hn.elim
  | exit w =>
    simp only [St.step, Option.map_eq_some_iff] at he
    obtain ⟨s1, h1, h2⟩ := he
    cases h2
    obtain ⟨hw, hs, rfl⟩ := exit_some h1
    rw [hl.stop] at hs
    cases hs
  | abort w => exact hn.elim
  | direct k =>
    cases he
    refine ⟨hl.held, hl.stop, hl.gone, hl.permits, ?_⟩
    intro n k' hm
    simp only [List.mem_append, List.mem_singleton] at hm
    rcases hm with hm | hm
    · rcases hl.directs n k' hm with ⟨c, hc, hcn⟩ | ⟨r, hr⟩
      · exact .inl ⟨c, List.mem_append_left _ hc, hcn⟩
      · exact .inr ⟨r, List.mem_append_left _ hr⟩
    · injection hm with h1 h2
      injection h1 with h1
      exact .inl ⟨(s.nextDirect, k), by simp, h1.symm⟩
  | directExec n cut =>
    obtain ⟨c, hc, rfl, rfl⟩ := directExec_some he
    refine ⟨hl.held, hl.stop, hl.gone, hl.permits, ?_⟩
    intro m k' hm
    simp only [List.mem_append, List.mem_cons, List.not_mem_nil, or_false] at hm
    rcases hm with hm | hm | hm
    · rcases hl.directs m k' hm with ⟨c', hc', hcn⟩ | ⟨r, hr⟩
      · by_cases hcc : c' = c
        · subst hcc
          exact .inr ⟨(s.files.exec c'.2 cut).2, by rw [← hcn]; simp⟩
        · exact .inl ⟨c', mem_eraseIdx hc' hc hcc, hcn⟩
      · exact .inr ⟨r, List.mem_append_left _ hr⟩
    · cases hm
    · cases hm

theorem Live.run {s s' : St} {h l : List Lab} {es : List Ev} (hl : Live s h) (hi : Inv s h) (he : s.run es = some (s', l)) (hn : ∀ e ∈ es, Normal e) : Live s' (h ++ l) := by
  induction es generalizing s h l with
  | nil => cases he; simpa using hl
  | cons e es ih =>
    obtain ⟨s1, l1, l2, h1, h2, rfl⟩ := run_cons he
    rw [← List.append_assoc]
    exact ih (hl.step hi h1 (hn e List.mem_cons_self)) (hi.step h1) h2 fun e he => hn e (List.mem_cons_of_mem _ he)

theorem step_workers {s s' : St} {l : List Lab} {ev : Ev} (he : s.step ev = some (s', l)) : s.workers.length ≤ s'.workers.length := by
  cases ev with
  | tick n => cases he; exact Nat.le_refl _
  | spawn n => cases he; simp
  | start k p => cases he; exact Nat.le_refl _
  | enqueue n =>
    simp only [St.step, Option.map_eq_some_iff] at he
    obtain ⟨s1, h1, h2⟩ := he
    cases h2
    unfold St.enqueue at h1
    rw [Option.map_eq_some_iff] at h1
    obtain ⟨o, ho, rfl⟩ := h1
    exact Nat.le_refl _
  | take w n =>
    simp only [St.step, Option.map_eq_some_iff] at he
    obtain ⟨s1, h1, h2⟩ := he
    cases h2
    obtain ⟨o, hw, hq, -, rfl⟩ := take_some h1
    simp
  | check w =>
    simp only [St.step, Option.map_eq_some_iff] at he
    obtain ⟨s1, h1, h2⟩ := he
    cases h2
    obtain ⟨o, hw, rfl⟩ := check_some h1
    simp
  | permit w =>
    simp only [St.step, Option.map_eq_some_iff] at he
    obtain ⟨s1, h1, h2⟩ := he
    cases h2
    obtain ⟨o, hw, -, rfl⟩ := permit_some h1
    simp
  | exec w cut =>
    obtain ⟨o, hw, rfl, rfl⟩ := exec_some he
    simp
  | finish w =>
    obtain ⟨o, r, hw, e⟩ := finish_some he
    have := (complete_frame ({ s with permits := s.permits + 1, workers := s.workers.set w .idle } : St) o.id r).1
    rw [← e] at this
    simp only at this
    rw [this]; simp
  | cancel j =>
    have e := Option.some.inj he
    have := (cancel_frame s j).1
    rw [e] at this
    simp only at this
    rw [this]; exact Nat.le_refl _
  | drain => cases he; exact Nat.le_refl _
  | expire j =>
    simp only [St.step] at he
    split at he
    · have e := Option.some.inj he
      have := (complete_frame s j .err).1
      rw [e] at this
      simp only at this
      rw [this]; exact Nat.le_refl _
    · cases he
  | cleanup => cases he; exact Nat.le_refl _
  | signal => cases he; exact Nat.le_refl _
  | exit w =>
    simp only [St.step, Option.map_eq_some_iff] at he
    obtain ⟨s1, h1, h2⟩ := he
    cases h2
    obtain ⟨hw, -, rfl⟩ := exit_some h1
    simp
  | abort w =>
    simp only [St.step, Option.map_eq_some_iff] at he
    obtain ⟨s1, h1, h2⟩ := he
    cases h2
    obtain ⟨k, hw, rfl⟩ := abort_some h1
    simp
  | direct k => cases he; exact Nat.le_refl _
  | directExec n cut =>
    obtain ⟨c, -, rfl, rfl⟩ := directExec_some he
    exact Nat.le_refl _

theorem run_workers {s s' : St} {l : List Lab} {es : List Ev} (he : s.run es = some (s', l)) : s.workers.length ≤ s'.workers.length := by
  induction es generalizing s l with
  | nil => cases he; exact Nat.le_refl _
  | cons e es ih =>
    obtain ⟨s1, l1, l2, h1, h2, rfl⟩ := run_cons he
    exact Nat.le_trans (step_workers h1) (ih h2)

theorem run_spawned {s s' : St} {l : List Lab} {es : List Ev} {n : Nat} (he : s.run es = some (s', l)) (hs : Ev.spawn (n + 1) ∈ es) : 0 < s'.workers.length := by
  induction es generalizing s l with
  | nil => simp at hs
  | cons e es ih =>
    obtain ⟨s1, l1, l2, h1, h2, rfl⟩ := run_cons he
    rcases List.mem_cons.1 hs with rfl | hs
    · cases h1
      have := run_workers h2
      simp at this
      omega
    · exact ih h2 hs

/-! ## Work ends -/

/-- How many parts of work a worker has before it. -/
def Worker.left : Worker → Nat
  | .took _ => 4
  | .waiting _ => 3
  | .running _ => 2
  | .ran _ _ => 1
  | _ => 0

/-- How many parts of work there are at most. -/
def St.todo (s : St) : Nat := 6 * s.calls.length + 5 * s.queue.length + (s.workers.map Worker.left).sum + s.directs.length

theorem sum_set {f : Worker → Nat} {l : List Worker} {n : Nat} {x : Worker} (y : Worker) (h : l[n]? = some x) : ((l.set n y).map f).sum + f x = (l.map f).sum + f y := by
  induction l generalizing n with
  | nil => simp at h
  | cons a l ih =>
    cases n with
    | zero => simp at h; subst h; simp; omega
    | succ n =>
      have := ih (n := n) (by simpa using h)
      rw [List.set_cons_succ, List.map_cons, List.map_cons, List.sum_cons, List.sum_cons]
      omega

theorem Work.step {s s' : St} {l : List Lab} {ev : Ev} (he : s.step ev = some (s', l)) (hw : Work ev) : s'.todo < s.todo := by
  cases ev with
  | enqueue n =>
    simp only [St.step, Option.map_eq_some_iff] at he
    obtain ⟨s1, h1, h2⟩ := he
    cases h2
    unfold St.enqueue at h1
    rw [Option.map_eq_some_iff] at h1
    obtain ⟨o, ho, rfl⟩ := h1
    have := (List.getElem?_eq_some_iff.1 ho).1
    simp only [St.todo, List.length_eraseIdx_of_lt this, List.length_append, List.length_cons, List.length_nil]
    omega
  | take w n =>
    simp only [St.step, Option.map_eq_some_iff] at he
    obtain ⟨s1, h1, h2⟩ := he
    cases h2
    obtain ⟨o, hw, hq, -, rfl⟩ := take_some h1
    have := (List.getElem?_eq_some_iff.1 hq).1
    have h2 := sum_set (f := Worker.left) (.took o) hw
    simp only [St.todo, List.length_eraseIdx_of_lt this, Worker.left] at h2 ⊢
    omega
  | check w =>
    simp only [St.step, Option.map_eq_some_iff] at he
    obtain ⟨s1, h1, h2⟩ := he
    cases h2
    obtain ⟨o, hw, rfl⟩ := check_some h1
    have h2 := sum_set (f := Worker.left) (if s.pending o.id then .waiting o else .idle) hw
    have h3 : (if s.pending o.id then Worker.waiting o else .idle).left ≤ 3 := by cases s.pending o.id <;> simp [Worker.left]
    have h4 : (Worker.took o).left = 4 := rfl
    simp only [St.todo]
    omega
  | permit w =>
    simp only [St.step, Option.map_eq_some_iff] at he
    obtain ⟨s1, h1, h2⟩ := he
    cases h2
    obtain ⟨o, hw, -, rfl⟩ := permit_some h1
    have h2 := sum_set (f := Worker.left) (.running o) hw
    simp only [St.todo, Worker.left] at h2 ⊢
    omega
  | exec w cut =>
    obtain ⟨o, hw, rfl, rfl⟩ := exec_some he
    have h2 := sum_set (f := Worker.left) (.ran o (s.files.exec o.kind cut).2) hw
    simp only [St.todo, Worker.left] at h2 ⊢
    omega
  | finish w =>
    obtain ⟨o, r, hw, e⟩ := finish_some he
    obtain ⟨f1, f2, f3, -, -, f6, -⟩ := complete_frame ({ s with permits := s.permits + 1, workers := s.workers.set w .idle } : St) o.id r
    rw [← e] at f1 f2 f3 f6
    have h2 := sum_set (f := Worker.left) .idle hw
    simp only [St.todo, Worker.left] at f1 f2 f3 f6 h2 ⊢
    rw [f1, f2, f3, f6]
    omega
  | directExec n cut =>
    obtain ⟨c, hc, rfl, rfl⟩ := directExec_some he
    have := (List.getElem?_eq_some_iff.1 hc).1
    simp only [St.todo, List.length_eraseIdx_of_lt this]
    omega
  | tick n => exact hw.elim
  | spawn n => exact hw.elim
  | start k p => exact hw.elim
  | cancel j => exact hw.elim
  | drain => exact hw.elim
  | expire j => exact hw.elim
  | cleanup => exact hw.elim
  | signal => exact hw.elim
  | exit w => exact hw.elim
  | abort w => exact hw.elim
  | direct k => exact hw.elim

theorem Work.run {s s' : St} {l : List Lab} {es : List Ev} (he : s.run es = some (s', l)) (hw : ∀ e ∈ es, Work e) : es.length + s'.todo ≤ s.todo := by
  induction es generalizing s l with
  | nil => cases he; simp
  | cons e es ih =>
    obtain ⟨s1, l1, l2, h1, h2, rfl⟩ := run_cons he
    have := Work.step h1 (hw e List.mem_cons_self)
    have := ih h2 fun e he => hw e (List.mem_cons_of_mem _ he)
    simp only [List.length_cons]
    omega

theorem Work.normal {e : Ev} (h : Work e) : Normal e := by cases e <;> first | trivial | exact h.elim

/-- A queue has an operation that may be taken. -/
theorem exists_max {l : List Op} (h : l ≠ []) : ∃ (n : Nat) (o : Op), l[n]? = some o ∧ l.all (fun p => !p.gt o) = true := by
  induction l with
  | nil => exact absurd rfl h
  | cons a l ih =>
    cases l with
    | nil => exact ⟨0, a, rfl, by simp [Op.gt]⟩
    | cons b l =>
      obtain ⟨n, o, h1, h2⟩ := ih (by simp)
      by_cases hg : a.gt o = true
      · refine ⟨0, a, rfl, ?_⟩
        rw [List.all_eq_true] at h2 ⊢
        intro p hp
        rcases List.mem_cons.1 hp with rfl | hp
        · simp [Op.gt]
        · have := h2 p hp
          simp [Op.gt] at this hg ⊢
          omega
      · refine ⟨n + 1, o, by simpa using h1, ?_⟩
        rw [List.all_cons, h2]
        simp at hg
        simp [hg]

/-- When nothing is left to do, nothing is pending. -/
theorem Live.idle {s : St} {h : List Lab} (hl : Live s h) (hw : 0 < s.workers.length) (hstuck : ∀ e, Work e → s.step e = none) : (∀ i, s.pending i = false) ∧ s.directs = [] := by
  have hcalls : s.calls = [] := by
    apply Classical.byContradiction
    intro hne
    have := hstuck (.enqueue 0) trivial
    obtain ⟨a, t, ht⟩ := List.exists_cons_of_ne_nil hne
    simp [St.step, St.enqueue, ht] at this
  have hdir : s.directs = [] := by
    apply Classical.byContradiction
    intro hne
    have := hstuck (.directExec 0 none) trivial
    obtain ⟨a, t, ht⟩ := List.exists_cons_of_ne_nil hne
    simp [St.step, St.directExec, ht] at this
  have hnoHold : ∀ k ∈ s.workers, k.holds = false := by
    intro k hk
    obtain ⟨w, hw⟩ := List.mem_iff_getElem?.1 hk
    cases k with
    | running o =>
      have := hstuck (.exec w none) trivial
      simp [St.step, St.exec, hw] at this
    | ran o r =>
      have := hstuck (.finish w) trivial
      simp [St.step, St.finish, hw] at this
    | _ => rfl
  have hper : s.permits = 64 := by
    have h1 := hl.permits
    have : s.workers.countP Worker.holds = 0 := by
      rw [List.countP_eq_zero]; intro k hk; simp [hnoHold k hk]
    omega
  have hidle : ∀ k ∈ s.workers, k = .idle := by
    intro k hk
    have h1 := hnoHold k hk
    obtain ⟨w, hw⟩ := List.mem_iff_getElem?.1 hk
    cases k with
    | idle => rfl
    | took o =>
      have := hstuck (.check w) trivial
      simp [St.step, St.check, hw] at this
    | waiting o =>
      have := hstuck (.permit w) trivial
      simp [St.step, St.permit, hw, hper] at this
    | running o => cases h1
    | ran o r => cases h1
    | gone => exact absurd hk hl.gone
  have hqueue : s.queue = [] := by
    apply Classical.byContradiction
    intro hne
    obtain ⟨n, o, h1, h2⟩ := exists_max hne
    have h0 : s.workers[0]? = some .idle := by
      rw [List.getElem?_eq_getElem hw, hidle _ (List.getElem_mem hw)]
    have := hstuck (.take 0 n) trivial
    simp only [St.step, St.take, h0, h1, h2, if_true] at this
    cases this
  refine ⟨fun i => ?_, hdir⟩
  cases hp : s.pending i with
  | false => rfl
  | true =>
    have h1 := hl.held i hp
    have h2 : s.workers.countP (Worker.hasId i) = 0 := by
      rw [List.countP_eq_zero]; intro k hk; rw [hidle k hk]; simp [Worker.hasId, Worker.op]
    simp [St.cnt, hcalls, hqueue, h2] at h1

/-! ## Timeouts -/

/-- Operations started in the past. -/
def Past (s : St) : Prop := ∀ i t, s.ops.get i = some (.pending t) → t ≤ s.now

theorem past_set {m : AMap Nat Status} {n j : Nat} {v : Status} (h : ∀ i t, m.get i = some (.pending t) → t ≤ n) (hv : ∀ t, v = .pending t → t ≤ n) :
    ∀ i t, (m.set j v).get i = some (.pending t) → t ≤ n := by
  intro i t ht
  by_cases hij : i = j
  · subst hij; rw [AMap.get_set_self] at ht; exact hv t (Option.some.inj ht)
  · rw [AMap.get_set_ne _ _ (Ne.symm hij)] at ht; exact h i t ht

theorem Past.cancel {s : St} (h : Past s) (j : Nat) : Past (s.cancel j).1 := by
  unfold St.cancel
  split
  · exact past_set h (by intro t ht; cases ht)
  · exact h

theorem Past.complete {s : St} (h : Past s) (j : Nat) (r : Res) : Past (s.complete j r).1 := by
  unfold St.complete
  split
  · exact past_set h (by intro t ht; cases ht)
  · exact h

theorem Past.step {s s' : St} {h l : List Lab} {ev : Ev} (hp : Past s) (hi : Inv s h) (he : s.step ev = some (s', l)) : Past s' := by
  cases ev with
  | tick n => cases he; intro i t ht; have := hp i t ht; show t ≤ s.now + n; omega
  | spawn n => cases he; exact hp
  | start k p =>
    cases he
    refine past_set ?_ (by intro t ht; injection ht with ht; subst ht; exact Nat.le_refl _)
    intro i t ht
    split at ht
    · exact hp i t (get_filter_sub hi.wf _ ht)
    · exact hp i t ht
  | enqueue n =>
    simp only [St.step, Option.map_eq_some_iff] at he
    obtain ⟨s1, h1, h2⟩ := he
    cases h2
    unfold St.enqueue at h1
    rw [Option.map_eq_some_iff] at h1
    obtain ⟨o, ho, rfl⟩ := h1
    exact hp
  | take w n =>
    simp only [St.step, Option.map_eq_some_iff] at he
    obtain ⟨s1, h1, h2⟩ := he
    cases h2
    obtain ⟨o, hw, hq, -, rfl⟩ := take_some h1
    exact hp
  | check w =>
    simp only [St.step, Option.map_eq_some_iff] at he
    obtain ⟨s1, h1, h2⟩ := he
    cases h2
    obtain ⟨o, hw, rfl⟩ := check_some h1
    exact hp
  | permit w =>
    simp only [St.step, Option.map_eq_some_iff] at he
    obtain ⟨s1, h1, h2⟩ := he
    cases h2
    obtain ⟨o, hw, -, rfl⟩ := permit_some h1
    exact hp
  | exec w cut =>
    obtain ⟨o, hw, rfl, rfl⟩ := exec_some he
    exact hp
  | finish w =>
    obtain ⟨o, r, hw, e⟩ := finish_some he
    have e1 : s' = (({ s with permits := s.permits + 1, workers := s.workers.set w .idle } : St).complete o.id r).1 := by rw [← e]
    rw [e1]
    exact Past.complete (s := { s with permits := s.permits + 1, workers := s.workers.set w .idle }) hp _ _
  | cancel j =>
    have e := Option.some.inj he
    have e1 : s' = (s.cancel j).1 := by rw [e]
    rw [e1]; exact hp.cancel j
  | drain => cases he; exact hp
  | expire j =>
    simp only [St.step] at he
    split at he
    · have e := Option.some.inj he
      have e1 : s' = (s.complete j .err).1 := by rw [e]
      rw [e1]; exact hp.complete j _
    · cases he
  | cleanup => cases he; intro i t ht; exact hp i t (get_filter_sub hi.wf _ ht)
  | signal => cases he; exact hp
  | exit w =>
    simp only [St.step, Option.map_eq_some_iff] at he
    obtain ⟨s1, h1, h2⟩ := he
    cases h2
    obtain ⟨hw, -, rfl⟩ := exit_some h1
    exact hp
  | abort w =>
    simp only [St.step, Option.map_eq_some_iff] at he
    obtain ⟨s1, h1, h2⟩ := he
    cases h2
    obtain ⟨k, hw, rfl⟩ := abort_some h1
    exact hp
  | direct k => cases he; exact hp
  | directExec n cut =>
    obtain ⟨c, -, rfl, rfl⟩ := directExec_some he
    exact hp

theorem Past.run {s s' : St} {h l : List Lab} {es : List Ev} (hp : Past s) (hi : Inv s h) (he : s.run es = some (s', l)) : Past s' := by
  induction es generalizing s h l with
  | nil => cases he; exact hp
  | cons e es ih =>
    obtain ⟨s1, l1, l2, h1, h2, rfl⟩ := run_cons he
    exact ih (hp.step hi h1) (hi.step h1) h2

end Verif.Io
