import Verif.Io.Runs

/-! In which order operations are taken, and that all are answered. -/

namespace Verif.Io

open Spec

/-- A worker that has not ended. -/
def Worker.alive (w : Worker) : Bool := w != .gone

theorem mem_eraseIdx {α : Type} {l : List α} {n : Nat} {x y : α} (hx : x ∈ l) (hy : l[n]? = some y) (hne : x ≠ y) : x ∈ l.eraseIdx n := by
  induction l generalizing n with
  | nil => simp at hx
  | cons a l ih =>
    cases n with
    | zero =>
      simp at hy; subst hy
      exact (List.mem_cons.1 hx).resolve_left hne
    | succ n =>
      rw [List.eraseIdx_cons_succ]
      rcases List.mem_cons.1 hx with rfl | hx
      · exact List.mem_cons_self
      · exact List.mem_cons_of_mem _ (ih hx (by simpa using hy))

theorem mem_set_other {α : Type} {l : List α} {n : Nat} {x y z : α} (hx : x ∈ l) (hy : l[n]? = some y) (hne : x ≠ y) : x ∈ l.set n z := by
  induction l generalizing n with
  | nil => simp at hx
  | cons a l ih =>
    cases n with
    | zero =>
      simp at hy; subst hy
      rw [List.set_cons_zero]
      exact List.mem_cons_of_mem _ ((List.mem_cons.1 hx).resolve_left hne)
    | succ n =>
      rw [List.set_cons_succ]
      rcases List.mem_cons.1 hx with rfl | hx
      · exact List.mem_cons_self
      · exact List.mem_cons_of_mem _ (ih hx (by simpa using hy))

theorem mem_set_self {α : Type} {l : List α} {n : Nat} {y z : α} (hy : l[n]? = some y) : z ∈ l.set n z := by
  have := (List.getElem?_eq_some_iff.1 hy).1
  exact List.mem_set this z

theorem alone {p : Worker → Bool} {l : List Worker} {n : Nat} {x y : Worker} (h : l.countP p ≤ 1) (hx : l[n]? = some x) (px : p x = true) (hy : y ∈ l) (py : p y = true) : y = x := by
  apply Classical.byContradiction
  intro hne
  have h1 := countP_eraseIdx p hx
  have h2 := mem_eraseIdx hy hx hne
  have h3 : 0 < (l.eraseIdx n).countP p := List.countP_pos_iff.2 ⟨y, h2, py⟩
  rw [px, if_pos rfl] at h1
  omega

theorem cnt_pos_worker {s : St} {w : Worker} {o : Op} (hw : w ∈ s.workers) (ho : w.op = some o) : 0 < s.workers.countP (Worker.hasId o.id) :=
  List.countP_pos_iff.2 ⟨w, hw, by simp [Worker.hasId, ho]⟩

theorem cnt_pos_queue {s : St} {o : Op} (ho : o ∈ s.queue) : 0 < s.queue.countP (·.id == o.id) :=
  List.countP_pos_iff.2 ⟨o, ho, by simp⟩

/-- No event but a new call adds a holder. -/
theorem step_cnt {s s' : St} {l : List Lab} {ev : Ev} (he : s.step ev = some (s', l)) {i : Nat} (hi : i < s.next) : s'.cnt i ≤ s.cnt i ∧ s.next ≤ s'.next := by
  cases ev with
  | tick n => cases he; exact ⟨Nat.le_refl _, Nat.le_refl _⟩
  | spawn n =>
    cases he
    have : (List.replicate n Worker.idle).countP (Worker.hasId i) = 0 := by
      rw [List.countP_eq_zero]; intro w hw; rw [List.eq_of_mem_replicate hw]; simp [Worker.hasId, Worker.op]
    exact ⟨by simp [St.cnt, List.countP_append, this], Nat.le_refl _⟩
  | start k p =>
    cases he
    have : (s.next == i) = false := by simp; omega
    exact ⟨by simp [St.cnt, St.start, List.countP_append, List.countP_cons, this], by simp [St.start]⟩
  | enqueue n =>
    simp only [St.step, Option.map_eq_some_iff] at he
    obtain ⟨s1, h1, h2⟩ := he
    cases h2
    unfold St.enqueue at h1
    rw [Option.map_eq_some_iff] at h1
    obtain ⟨o, ho, rfl⟩ := h1
    have := countP_eraseIdx (·.id == i) ho
    refine ⟨?_, Nat.le_refl _⟩
    simp only [St.cnt, List.countP_append, List.countP_cons, List.countP_nil] at this ⊢
    omega
  | take w n =>
    simp only [St.step, Option.map_eq_some_iff] at he
    obtain ⟨s1, h1, h2⟩ := he
    cases h2
    obtain ⟨o, hw, hq, -, rfl⟩ := take_some h1
    have h1 := countP_eraseIdx (·.id == i) hq
    have h2 := countP_set (Worker.hasId i) (.took o) hw
    have e1 : Worker.hasId i (.took o) = (o.id == i) := rfl
    have e2 : Worker.hasId i .idle = false := rfl
    rw [e1, e2] at h2
    refine ⟨?_, Nat.le_refl _⟩
    simp only [St.cnt, Bool.false_eq_true, ↓reduceIte] at h1 h2 ⊢
    omega
  | check w =>
    simp only [St.step, Option.map_eq_some_iff] at he
    obtain ⟨s1, h1, h2⟩ := he
    cases h2
    obtain ⟨o, hw, rfl⟩ := check_some h1
    have h2 := countP_set (Worker.hasId i) (if s.pending o.id then .waiting o else .idle) hw
    have e1 : Worker.hasId i (.took o) = (o.id == i) := rfl
    have e2 : (if Worker.hasId i (if s.pending o.id then Worker.waiting o else .idle) then 1 else 0) ≤ if (o.id == i) = true then 1 else 0 := by
      cases s.pending o.id
      · simp [Worker.hasId, Worker.op]
      · exact Nat.le_refl _
    rw [e1] at h2
    refine ⟨?_, Nat.le_refl _⟩
    simp only [St.cnt] at h2 ⊢
    omega
  | permit w =>
    simp only [St.step, Option.map_eq_some_iff] at he
    obtain ⟨s1, h1, h2⟩ := he
    cases h2
    obtain ⟨o, hw, -, rfl⟩ := permit_some h1
    have h2 := countP_set (Worker.hasId i) (.running o) hw
    have e1 : Worker.hasId i (.running o) = Worker.hasId i (.waiting o) := rfl
    rw [e1] at h2
    refine ⟨?_, Nat.le_refl _⟩
    simp only [St.cnt] at h2 ⊢
    omega
  | exec w cut =>
    obtain ⟨o, hw, rfl, rfl⟩ := exec_some he
    have h2 := countP_set (Worker.hasId i) (.ran o (s.files.exec o.kind cut).2) hw
    have e1 : Worker.hasId i (.ran o (s.files.exec o.kind cut).2) = Worker.hasId i (.running o) := rfl
    rw [e1] at h2
    refine ⟨?_, Nat.le_refl _⟩
    simp only [St.cnt] at h2 ⊢
    omega
  | finish w =>
    obtain ⟨o, r, hw, e⟩ := finish_some he
    have h2 := countP_set (Worker.hasId i) .idle hw
    have e2 : Worker.hasId i .idle = false := rfl
    rw [e2] at h2
    have hs : s'.calls = s.calls ∧ s'.queue = s.queue ∧ s'.workers = s.workers.set w .idle ∧ s'.next = s.next := by
      have : s' = (({ s with permits := s.permits + 1, workers := s.workers.set w .idle } : St).complete o.id r).1 := by rw [← e]
      rw [this]
      unfold St.complete
      split <;> exact ⟨rfl, rfl, rfl, rfl⟩
    obtain ⟨a, b, c, d⟩ := hs
    rw [d]
    refine ⟨?_, Nat.le_refl _⟩
    simp only [St.cnt, a, b, c, Bool.false_eq_true, ↓reduceIte] at h2 ⊢
    omega
  | cancel j =>
    have e := Option.some.inj he
    have : s' = (s.cancel j).1 := by rw [e]
    rw [this]
    unfold St.cancel
    split <;> exact ⟨Nat.le_refl _, Nat.le_refl _⟩
  | drain => cases he; exact ⟨by simp only [St.cnt, List.countP_nil]; omega, Nat.le_refl _⟩
  | expire j =>
    simp only [St.step] at he
    split at he
    · have e := Option.some.inj he
      have : s' = (s.complete j .err).1 := by rw [e]
      rw [this]
      unfold St.complete
      split <;> exact ⟨Nat.le_refl _, Nat.le_refl _⟩
    · cases he
  | cleanup => cases he; exact ⟨Nat.le_refl _, Nat.le_refl _⟩
  | signal => cases he; exact ⟨Nat.le_refl _, Nat.le_refl _⟩
  | exit w =>
    simp only [St.step, Option.map_eq_some_iff] at he
    obtain ⟨s1, h1, h2⟩ := he
    cases h2
    obtain ⟨hw, -, rfl⟩ := exit_some h1
    have h2 := countP_set (Worker.hasId i) .gone hw
    have e1 : Worker.hasId i .idle = false := rfl
    have e2 : Worker.hasId i .gone = false := rfl
    rw [e1, e2] at h2
    refine ⟨?_, Nat.le_refl _⟩
    simp only [St.cnt] at h2 ⊢
    omega
  | abort w =>
    simp only [St.step, Option.map_eq_some_iff] at he
    obtain ⟨s1, h1, h2⟩ := he
    cases h2
    obtain ⟨k, hw, rfl⟩ := abort_some h1
    have h2 := countP_set (Worker.hasId i) .gone hw
    have e2 : Worker.hasId i .gone = false := rfl
    rw [e2] at h2
    refine ⟨?_, Nat.le_refl _⟩
    simp only [St.cnt, Bool.false_eq_true, ↓reduceIte] at h2 ⊢
    omega
  | direct k => cases he; exact ⟨Nat.le_refl _, Nat.le_refl _⟩
  | directExec n cut =>
    obtain ⟨c, -, rfl, rfl⟩ := directExec_some he
    exact ⟨Nat.le_refl _, Nat.le_refl _⟩

/-! ## Order -/

/-- Where `a` and `b` are until `b` is executed. -/
inductive Before (a b : Op) (s : St) (h : List Lab) : Prop where
  | acted (k r) : Lab.act (.op a.id) k r ∈ h → Before a b s h
  | answered (r) : Lab.ret (.op a.id) r ∈ h → Before a b s h
  | lost : s.cnt b.id = 0 → Before a b s h
  | dead : s.workers.countP Worker.alive = 0 → Before a b s h
  | queued : a ∈ s.queue → b ∈ s.queue → Before a b s h
  | taken (w) : b ∈ s.queue → w ∈ s.workers → w = .took a ∨ w = .waiting a ∨ w = .running a → Before a b s h

theorem Op.gt_ne {a b : Op} (h : a.gt b = true) : a ≠ b := by
  rintro rfl
  simp [Op.gt] at h

/-- The number of workers does not grow without `start_workers`. -/
theorem step_alive {s s' : St} {l : List Lab} {ev : Ev} (he : s.step ev = some (s', l)) (hs : ∀ n, ev ≠ .spawn n) :
    s'.workers.countP Worker.alive ≤ s.workers.countP Worker.alive := by
  have key : ∀ {w : Nat} {k : Worker} (k' : Worker), s.workers[w]? = some k → k ≠ .gone ∨ k' = .gone → (s.workers.set w k').countP Worker.alive ≤ s.workers.countP Worker.alive := by
    intro w k k' hw hk
    have := countP_set Worker.alive k' hw
    have h2 : (if Worker.alive k' then 1 else 0) ≤ if Worker.alive k then 1 else 0 := by
      rcases hk with hk | rfl
      · have : Worker.alive k = true := by simp [Worker.alive, hk]
        rw [this]; split <;> simp
      · simp [Worker.alive]
    omega
  cases ev with
  | tick n => cases he; exact Nat.le_refl _
  | spawn n => exact absurd rfl (hs n)
  | start k p => cases he; exact Nat.le_refl _
  | enqueue n =>
    simp only [St.step, Option.map_eq_some_iff] at he
    obtain ⟨s1, h1, h2⟩ := he
    cases h2
    unfold St.enqueue at h1
    rw [Option.map_eq_some_iff] at h1
    obtain ⟨o, ho, rfl⟩ := h1
    exact Nat.le_refl _
  | take w n =>
    simp only [St.step, Option.map_eq_some_iff] at he
    obtain ⟨s1, h1, h2⟩ := he
    cases h2
    obtain ⟨o, hw, hq, -, rfl⟩ := take_some h1
    exact key _ hw (.inl (by simp))
  | check w =>
    simp only [St.step, Option.map_eq_some_iff] at he
    obtain ⟨s1, h1, h2⟩ := he
    cases h2
    obtain ⟨o, hw, rfl⟩ := check_some h1
    exact key _ hw (.inl (by simp))
  | permit w =>
    simp only [St.step, Option.map_eq_some_iff] at he
    obtain ⟨s1, h1, h2⟩ := he
    cases h2
    obtain ⟨o, hw, -, rfl⟩ := permit_some h1
    exact key _ hw (.inl (by simp))
  | exec w cut =>
    obtain ⟨o, hw, rfl, rfl⟩ := exec_some he
    exact key _ hw (.inl (by simp))
  | finish w =>
    obtain ⟨o, r, hw, e⟩ := finish_some he
    have hs : s'.workers = s.workers.set w .idle := by
      have : s' = (({ s with permits := s.permits + 1, workers := s.workers.set w .idle } : St).complete o.id r).1 := by rw [← e]
      rw [this]
      unfold St.complete
      split <;> rfl
    rw [hs]
    exact key _ hw (.inl (by simp))
  | cancel j =>
    have e := Option.some.inj he
    have : s' = (s.cancel j).1 := by rw [e]
    rw [this]
    unfold St.cancel
    split <;> exact Nat.le_refl _
  | drain => cases he; exact Nat.le_refl _
  | expire j =>
    simp only [St.step] at he
    split at he
    · have e := Option.some.inj he
      have : s' = (s.complete j .err).1 := by rw [e]
      rw [this]
      unfold St.complete
      split <;> exact Nat.le_refl _
    · cases he
  | cleanup => cases he; exact Nat.le_refl _
  | signal => cases he; exact Nat.le_refl _
  | exit w =>
    simp only [St.step, Option.map_eq_some_iff] at he
    obtain ⟨s1, h1, h2⟩ := he
    cases h2
    obtain ⟨hw, -, rfl⟩ := exit_some h1
    exact key _ hw (.inr rfl)
  | abort w =>
    simp only [St.step, Option.map_eq_some_iff] at he
    obtain ⟨s1, h1, h2⟩ := he
    cases h2
    obtain ⟨k, hw, rfl⟩ := abort_some h1
    exact key _ hw (.inr rfl)
  | direct k => cases he; exact Nat.le_refl _
  | directExec n cut =>
    obtain ⟨c, -, rfl, rfl⟩ := directExec_some he
    exact Nat.le_refl _

theorem Before.mono {a b : Op} {s s' : St} {h l : List Lab} (hb : Before a b s h) (hq : s'.queue = s.queue) (hw : s'.workers = s.workers) (hc : s'.cnt b.id ≤ s.cnt b.id) :
    Before a b s' (h ++ l) := by
  cases hb with
  | acted k r hm => exact .acted k r (List.mem_append_left _ hm)
  | answered r hm => exact .answered r (List.mem_append_left _ hm)
  | lost h0 => exact .lost (by omega)
  | dead h0 => exact .dead (by rw [hw]; exact h0)
  | queued h1 h2 => exact .queued (by rw [hq]; exact h1) (by rw [hq]; exact h2)
  | taken w h1 h2 h3 => exact .taken w (by rw [hq]; exact h1) (by rw [hw]; exact h2) h3

/-- One worker is replaced, the queue stays. -/
theorem Before.set {a b : Op} {s s' : St} {h l : List Lab} {w : Nat} {k k' : Worker} (hb : Before a b s h) (hone : s.workers.countP Worker.alive ≤ 1)
    (hk : s.workers[w]? = some k) (ha : k ≠ .gone ∨ k' = .gone)
    (hnext : (k = .took a ∨ k = .waiting a ∨ k = .running a) →
      (k' = .took a ∨ k' = .waiting a ∨ k' = .running a) ∨ k' = .gone ∨ (∃ q r, Lab.act (.op a.id) q r ∈ h ++ l) ∨ ∃ r, Lab.ret (.op a.id) r ∈ h ++ l)
    (hq : s'.queue = s.queue) (hw : s'.workers = s.workers.set w k') (hc : s'.cnt b.id ≤ s.cnt b.id) : Before a b s' (h ++ l) := by
  have hset := countP_set Worker.alive k' hk
  cases hb with
  | acted k r hm => exact .acted k r (List.mem_append_left _ hm)
  | answered r hm => exact .answered r (List.mem_append_left _ hm)
  | lost h0 => exact .lost (by omega)
  | dead h0 =>
    refine .dead ?_
    rw [hw]
    have hka : Worker.alive k = false := by
      have := List.countP_eq_zero.1 h0 k (mem_get hk)
      simpa using this
    have : k' = .gone := by
      rcases ha with ha | ha
      · exact absurd (by simpa [Worker.alive] using hka) ha
      · exact ha
    subst this
    have hg : Worker.alive .gone = false := rfl
    rw [hka, h0, hg] at hset
    simpa using hset
  | queued h1 h2 => exact .queued (by rw [hq]; exact h1) (by rw [hq]; exact h2)
  | taken x h1 h2 h3 =>
    have hxa : Worker.alive x = true := by rcases h3 with rfl | rfl | rfl <;> rfl
    by_cases hxk : x = k
    · subst hxk
      rcases hnext h3 with h4 | h4 | h4 | h4
      · exact .taken k' (by rw [hq]; exact h1) (by rw [hw]; exact mem_set_self hk) h4
      · subst h4
        refine .dead ?_
        rw [hw]
        rw [hxa] at hset
        have : Worker.alive .gone = false := rfl
        rw [this] at hset
        simp only [Bool.false_eq_true, ↓reduceIte] at hset
        omega
      · obtain ⟨q, r, hm⟩ := h4; exact .acted q r hm
      · obtain ⟨r, hm⟩ := h4; exact .answered r hm
    · exact .taken x (by rw [hq]; exact h1) (by rw [hw]; exact mem_set_other h2 hk hxk) h3

theorem Before.step {a b : Op} {s s' : St} {h l : List Lab} {ev : Ev} (hgt : a.gt b = true) (hcall : Lab.call (.op a.id) a.kind ∈ h) (hb : Before a b s h) (hi : Inv s h) (hans : Answered s h)
    (hone : s.workers.countP Worker.alive ≤ 1) (hbn : b.id < s.next) (he : s.step ev = some (s', l)) (hs : ∀ n, ev ≠ .spawn n) : Before a b s' (h ++ l) := by
  have hc := (step_cnt he hbn).1
  cases ev with
  | tick n => cases he; exact hb.mono rfl rfl hc
  | spawn n => exact absurd rfl (hs n)
  | start k p => cases he; exact hb.mono rfl rfl hc
  | enqueue n =>
    simp only [St.step, Option.map_eq_some_iff] at he
    obtain ⟨s1, h1, h2⟩ := he
    cases h2
    unfold St.enqueue at h1
    rw [Option.map_eq_some_iff] at h1
    obtain ⟨o, ho, rfl⟩ := h1
    rw [List.append_nil]
    cases hb with
    | acted k r hm => exact .acted k r hm
    | answered r hm => exact .answered r hm
    | lost h0 => exact .lost (by omega)
    | dead h0 => exact .dead h0
    | queued h1 h2 => exact .queued (List.mem_append_left _ h1) (List.mem_append_left _ h2)
    | taken w h1 h2 h3 => exact .taken w (List.mem_append_left _ h1) h2 h3
  | take w n =>
    simp only [St.step, Option.map_eq_some_iff] at he
    obtain ⟨s1, h1, h2⟩ := he
    cases h2
    obtain ⟨o, hw, hq, hmax, rfl⟩ := take_some h1
    rw [List.append_nil]
    cases hb with
    | acted k r hm => exact .acted k r hm
    | answered r hm => exact .answered r hm
    | lost h0 => exact .lost (by omega)
    | dead h0 =>
      have := List.countP_eq_zero.1 h0 _ (mem_get hw)
      exact absurd rfl this
    | queued h1' h2 =>
      have hbo : b ≠ o := by
        rintro rfl
        have := hmax a h1'
        rw [hgt] at this
        cases this
      have h2' := mem_eraseIdx h2 hq hbo
      by_cases hao : a = o
      · subst hao
        exact .taken (.took a) h2' (mem_set_self hw) (.inl rfl)
      · exact .queued (mem_eraseIdx h1' hq hao) h2'
    | taken x h1 h2 h3 =>
      have hxa : Worker.alive x = true := by rcases h3 with rfl | rfl | rfl <;> rfl
      have := alone hone hw rfl h2 hxa
      subst this
      rcases h3 with h3 | h3 | h3 <;> cases h3
  | check w =>
    simp only [St.step, Option.map_eq_some_iff] at he
    obtain ⟨s1, h1, h2⟩ := he
    cases h2
    obtain ⟨o, hw, rfl⟩ := check_some h1
    refine hb.set hone hw (.inl (by simp)) ?_ rfl rfl hc
    intro h
    have ho : o = a := by rcases h with h | h | h <;> cases h; rfl
    subst ho
    rcases hans o.id _ hcall with hp | hp
    · exact .inl (by rw [hp]; simp)
    · obtain ⟨r, hr⟩ := hp
      exact .inr (.inr (.inr ⟨r, by simpa using hr⟩))
  | permit w =>
    simp only [St.step, Option.map_eq_some_iff] at he
    obtain ⟨s1, h1, h2⟩ := he
    cases h2
    obtain ⟨o, hw, -, rfl⟩ := permit_some h1
    refine hb.set hone hw (.inl (by simp)) ?_ rfl rfl hc
    intro h
    have ho : o = a := by rcases h with h | h | h <;> cases h; rfl
    subst ho
    exact .inl (.inr (.inr rfl))
  | exec w cut =>
    obtain ⟨o, hw, rfl, rfl⟩ := exec_some he
    refine hb.set hone hw (.inl (by simp)) ?_ rfl rfl hc
    intro h
    have ho : o = a := by rcases h with h | h | h <;> cases h; rfl
    subst ho
    exact .inr (.inr (.inl ⟨_, _, List.mem_append_right _ (List.mem_singleton.2 rfl)⟩))
  | finish w =>
    obtain ⟨o, r, hw, e⟩ := finish_some he
    have hs : s'.workers = s.workers.set w .idle ∧ s'.queue = s.queue := by
      have : s' = (({ s with permits := s.permits + 1, workers := s.workers.set w .idle } : St).complete o.id r).1 := by rw [← e]
      rw [this]
      unfold St.complete
      split <;> exact ⟨rfl, rfl⟩
    refine hb.set hone hw (.inl (by simp)) ?_ hs.2 hs.1 hc
    intro h
    rcases h with h | h | h <;> cases h
  | cancel j =>
    have e := Option.some.inj he
    have hs : s' = (s.cancel j).1 := by rw [e]
    have : s'.workers = s.workers ∧ s'.queue = s.queue := by
      rw [hs]
      unfold St.cancel
      split <;> exact ⟨rfl, rfl⟩
    exact hb.mono this.2 this.1 hc
  | drain =>
    cases he
    rw [List.append_nil]
    have hl : ∀ {x : Op}, x = b → x ∈ s.queue → Before a b { s with queue := [] } h := by
      rintro x rfl hx
      refine .lost ?_
      have h1 := hi.one x.id
      have h2 := cnt_pos_queue hx
      simp only [St.cnt, List.countP_nil] at h1 ⊢
      omega
    cases hb with
    | acted k r hm => exact .acted k r hm
    | answered r hm => exact .answered r hm
    | lost h0 => exact .lost (by omega)
    | dead h0 => exact .dead h0
    | queued h1 h2 => exact hl rfl h2
    | taken x h1 h2 h3 => exact hl rfl h1
  | expire j =>
    simp only [St.step] at he
    split at he
    · have e := Option.some.inj he
      have hs : s' = (s.complete j .err).1 := by rw [e]
      have : s'.workers = s.workers ∧ s'.queue = s.queue := by
        rw [hs]
        unfold St.complete
        split <;> exact ⟨rfl, rfl⟩
      exact hb.mono this.2 this.1 hc
    · cases he
  | cleanup => cases he; exact hb.mono rfl rfl hc
  | signal => cases he; exact hb.mono rfl rfl hc
  | exit w =>
    simp only [St.step, Option.map_eq_some_iff] at he
    obtain ⟨s1, h1, h2⟩ := he
    cases h2
    obtain ⟨hw, -, rfl⟩ := exit_some h1
    exact hb.set hone hw (.inr rfl) (fun _ => .inr (.inl rfl)) rfl rfl hc
  | abort w =>
    simp only [St.step, Option.map_eq_some_iff] at he
    obtain ⟨s1, h1, h2⟩ := he
    cases h2
    obtain ⟨k, hw, rfl⟩ := abort_some h1
    exact hb.set hone hw (.inr rfl) (fun _ => .inr (.inl rfl)) rfl rfl hc
  | direct k => cases he; exact hb.mono rfl rfl hc
  | directExec n cut =>
    obtain ⟨c, -, rfl, rfl⟩ := directExec_some he
    exact hb.mono rfl rfl hc

/-- Only the execution of an operation gives its action. -/
theorem step_act {s s' : St} {l : List Lab} {ev : Ev} {i : Nat} {k : Kind} {r : Res} (he : s.step ev = some (s', l)) (hm : Lab.act (.op i) k r ∈ l) :
    ∃ (w : Nat) (o : Op), s.workers[w]? = some (Worker.running o) ∧ o.id = i ∧ l = [.act (.op i) k r] := by
  cases ev with
  | tick n => cases he; simp at hm
  | spawn n => cases he; simp at hm
  | start k p => cases he; simp [St.start] at hm
  | enqueue n => simp only [St.step, Option.map_eq_some_iff] at he; obtain ⟨_, _, h⟩ := he; cases h; simp at hm
  | take w n => simp only [St.step, Option.map_eq_some_iff] at he; obtain ⟨_, _, h⟩ := he; cases h; simp at hm
  | check w => simp only [St.step, Option.map_eq_some_iff] at he; obtain ⟨_, _, h⟩ := he; cases h; simp at hm
  | permit w => simp only [St.step, Option.map_eq_some_iff] at he; obtain ⟨_, _, h⟩ := he; cases h; simp at hm
  | exec w cut =>
    obtain ⟨o, hw, rfl, rfl⟩ := exec_some he
    rw [List.mem_singleton] at hm
    injection hm with h1 h2 h3
    injection h1 with h1
    exact ⟨w, o, hw, h1.symm, by rw [h1, h2, h3]⟩
  | finish w =>
    obtain ⟨o, q, hw, e⟩ := finish_some he
    have := complete_files ({ s with permits := s.permits + 1, workers := s.workers.set w .idle } : St) o.id q
    rw [← e] at this
    rcases this.2 with h | h <;> (simp only at h; rw [h] at hm; simp at hm)
  | cancel i =>
    have e := Option.some.inj he
    have := cancel_files s i
    rw [e] at this
    rcases this.2 with h | h <;> (simp only at h; rw [h] at hm; simp at hm)
  | drain => cases he; simp at hm
  | expire i =>
    simp only [St.step] at he
    split at he
    · have e := Option.some.inj he
      have := complete_files s i .err
      rw [e] at this
      rcases this.2 with h | h <;> (simp only at h; rw [h] at hm; simp at hm)
    · cases he
  | cleanup => cases he; simp at hm
  | signal => cases he; simp at hm
  | exit w => simp only [St.step, Option.map_eq_some_iff] at he; obtain ⟨_, _, h⟩ := he; cases h; simp at hm
  | abort w => simp only [St.step, Option.map_eq_some_iff] at he; obtain ⟨_, _, h⟩ := he; cases h; simp at hm
  | direct k => cases he; simp at hm
  | directExec n cut =>
    obtain ⟨c, -, rfl, rfl⟩ := directExec_some he
    simp at hm

theorem Before.run {a b : Op} {s s' : St} {h l pre post : List Lab} {es : List Ev} {k : Kind} {r : Res} (hgt : a.gt b = true) (hcall : Lab.call (.op a.id) a.kind ∈ h)
    (hb : Before a b s h) (hi : Inv s h) (hans : Answered s h) (hone : s.workers.countP Worker.alive ≤ 1) (hbn : b.id < s.next) (he : s.run es = some (s', l))
    (hs : ∀ n, Ev.spawn n ∉ es) (hl : l = pre ++ Lab.act (.op b.id) k r :: post) :
    (∃ k r, Lab.act (.op a.id) k r ∈ h ++ pre) ∨ ∃ r, Lab.ret (.op a.id) r ∈ h ++ pre := by
  induction es generalizing s h l pre with
  | nil => cases he; have := congrArg List.length hl; simp at this
  | cons e es ih =>
    obtain ⟨s1, l1, l2, h1, h2, rfl⟩ := run_cons he
    have hstep := hb.step hgt hcall hi hans hone hbn h1 (fun n en => hs n (by simp [en]))
    have go : ∀ q, pre = l1 ++ q → l2 = q ++ Lab.act (.op b.id) k r :: post →
        (∃ k r, Lab.act (.op a.id) k r ∈ h ++ pre) ∨ ∃ r, Lab.ret (.op a.id) r ∈ h ++ pre := by
      intro q hq hl2
      have := ih (List.mem_append_left _ hcall) hstep (hi.step h1) (hans.step hi h1)
        (Nat.le_trans (step_alive h1 (fun n en => hs n (by simp [en]))) hone) (Nat.lt_of_lt_of_le hbn (step_cnt h1 hbn).2) h2 (fun n hm => hs n (List.mem_cons_of_mem _ hm)) hl2
      rw [hq, ← List.append_assoc]
      exact this
    rcases List.append_eq_append_iff.1 hl with ⟨q, hq, hl2⟩ | ⟨c, hc, hx⟩
    · exact go q hq hl2
    · cases c with
      | nil => exact go [] (by simpa using hc.symm) (by simpa using hx.symm)
      | cons x c =>
        injection hx with hx _
        subst hx
        obtain ⟨w, o, hw, ho, hl1⟩ := step_act h1 (show Lab.act (.op b.id) k r ∈ l1 by rw [hc]; simp)
        have hp : pre = [] := by
          rw [hl1] at hc
          have := congrArg List.length hc
          simp at this
          exact List.eq_nil_of_length_eq_zero (by omega)
        subst hp
        rw [List.append_nil]
        have hcw := cnt_pos_worker (mem_get hw) rfl
        rw [ho] at hcw
        have h1' := hi.one b.id
        cases hb with
        | acted k r hm => exact .inl ⟨k, r, hm⟩
        | answered r hm => exact .inr ⟨r, hm⟩
        | lost h0 => simp only [St.cnt] at h0; omega
        | dead h0 =>
          have := List.countP_eq_zero.1 h0 _ (mem_get hw)
          exact absurd rfl this
        | queued h3 h4 => have := cnt_pos_queue h4; simp only [St.cnt] at h1'; omega
        | taken x h3 h4 h5 => have := cnt_pos_queue h3; simp only [St.cnt] at h1'; omega

end Verif.Io
