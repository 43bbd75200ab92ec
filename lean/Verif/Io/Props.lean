import Verif.Io.Durable
import Verif.Io.Progress

/-!
# Properties of the I/O engine

C104 calls are linearizable; C105 what a sync promises after a crash; C106 priorities; C107 every call is answered; C108 appends to the log.
A history is what `St.run` returns beside the state: calls, their effects on the files and their answers, in the order they happened.
-/

namespace Verif.Io

open Spec

theorem new_inv {db log : Data} {evs : List Ev} {s : St} {h : List Lab} (hr : (St.new db log).run evs = some (s, h)) : Inv s h := by
  simpa using (inv_new db log).run hr

theorem new_small {h : List Lab} (hp : Placed h) (hs : ∀ i k, Lab.call i k ∈ h → Small k) : ∀ i k r, Lab.act i k r ∈ h → Small k :=
  fun i k _ hm => hs i k (hp.called hm)

/-! ## C104 -/

/-- C104, partial: in every run — any number of workers, any interleaving, I/O errors, timeouts, cancellations, shutdown — every call takes effect at most once and after it began, an answer with a result
comes after the effect and has its result, reads give what was there at that moment, and the files at the end are what these effects give, one after the other. What is missing: pages whose position
does not fit in 64 bits (`C104_huge_page_fails`), and that a call that was answered has no effect afterwards, which cancellations and timeouts break (`C104_late_write_fails`). -/
theorem C104_linearizable_partial {db log : Data} {evs : List Ev} {s : St} {h : List Lab} (hr : (St.new db log).run evs = some (s, h)) (hs : ∀ i k, Lab.call i k ∈ h → Small k) :
    Placed h ∧ Acts db log h s.files.db s.files.log ∧ Linearizable db log (seen h) s.files.db s.files.log := by
  have hp := (new_inv hr).placed
  have ha := (run_execs hr).acts (new_small hp hs)
  exact ⟨hp, ha, h, rfl, hp, ha⟩

/-- An answer that is no cancellation and no timeout comes after the effect. -/
theorem ret_step {s s' : St} {h l : List Lab} {e : Ev} {i : Id} {r : Res} (hi : Inv s h) (h1 : s.step e = some (s', l)) (hc : ∀ i, e ≠ .cancel i ∧ e ≠ .expire i) (hm : Lab.ret i r ∈ l) :
    (∃ k r', Lab.act i k r' ∈ h) ∨ ∃ k r', l = [Lab.act i k r', Lab.ret i r] := by
  cases e with
  | tick n => cases h1; simp at hm
  | spawn n => cases h1; simp at hm
  | start k p => cases h1; simp [St.start] at hm
  | enqueue n => simp only [St.step, Option.map_eq_some_iff] at h1; obtain ⟨_, _, h⟩ := h1; cases h; simp at hm
  | take w n => simp only [St.step, Option.map_eq_some_iff] at h1; obtain ⟨_, _, h⟩ := h1; cases h; simp at hm
  | check w => simp only [St.step, Option.map_eq_some_iff] at h1; obtain ⟨_, _, h⟩ := h1; cases h; simp at hm
  | permit w => simp only [St.step, Option.map_eq_some_iff] at h1; obtain ⟨_, _, h⟩ := h1; cases h; simp at hm
  | exec w cut => obtain ⟨o, hw, rfl, rfl⟩ := exec_some h1; simp at hm
  | finish w =>
    obtain ⟨o, q', hw, e⟩ := finish_some h1
    have := complete_files ({ s with permits := s.permits + 1, workers := s.workers.set w .idle } : St) o.id q'
    rw [← e] at this
    rcases this.2 with h | h
    · simp only at h; rw [h] at hm; simp at hm
    · simp only at h
      rw [h, List.mem_singleton] at hm
      injection hm with h3 h4
      rw [h3]
      exact .inl ⟨_, _, (hi.ran o q' (mem_get hw)).2⟩
  | cancel j => exact absurd rfl (hc j).1
  | drain => cases h1; simp at hm
  | expire j => exact absurd rfl (hc j).2
  | cleanup => cases h1; simp at hm
  | signal => cases h1; simp at hm
  | exit w => simp only [St.step, Option.map_eq_some_iff] at h1; obtain ⟨_, _, h⟩ := h1; cases h; simp at hm
  | abort w => simp only [St.step, Option.map_eq_some_iff] at h1; obtain ⟨_, _, h⟩ := h1; cases h; simp at hm
  | direct k => cases h1; simp at hm
  | directExec n cut =>
    obtain ⟨c, -, rfl, rfl⟩ := directExec_some h1
    simp only [List.mem_cons, List.not_mem_nil, or_false] at hm
    rcases hm with hm | hm
    · cases hm
    · injection hm with h3 h4
      exact .inr ⟨c.2, _, by rw [h3, h4]⟩

/-- In a run without cancellations and timeouts every answer comes after the effect. -/
theorem ret_after {s s' : St} {h l : List Lab} {es : List Ev} (hi : Inv s h) (he : s.run es = some (s', l)) (hc : ∀ i, Ev.cancel i ∉ es ∧ Ev.expire i ∉ es)
    (hh : ∀ pre i r post, h = pre ++ Lab.ret i r :: post → ∃ k r', Lab.act i k r' ∈ pre) :
    ∀ pre i r post, h ++ l = pre ++ Lab.ret i r :: post → ∃ k r', Lab.act i k r' ∈ pre := by
  induction es generalizing s h l with
  | nil => cases he; simpa using hh
  | cons e es ih =>
    obtain ⟨s1, l1, l2, h1, h2, rfl⟩ := run_cons he
    rw [← List.append_assoc]
    refine ih (hi.step h1) h2 (fun i => ⟨fun hm => (hc i).1 (List.mem_cons_of_mem _ hm), fun hm => (hc i).2 (List.mem_cons_of_mem _ hm)⟩) ?_
    intro pre i r post hsplit
    have new : ∀ q, pre = h ++ q → l1 = q ++ Lab.ret i r :: post → ∃ k r', Lab.act i k r' ∈ pre := by
      intro q hq hl
      rcases ret_step hi h1 (fun i => ⟨fun e => (hc i).1 (by simp [e]), fun e => (hc i).2 (by simp [e])⟩) (show Lab.ret i r ∈ l1 by rw [hl]; simp) with ⟨k, r', ha⟩ | ⟨k, r', ha⟩
      · exact ⟨k, r', by rw [hq]; exact List.mem_append_left _ ha⟩
      · rw [ha] at hl
        cases q with
        | nil => simp at hl
        | cons y q => injection hl with h1 h2; exact ⟨k, r', by rw [hq, ← h1]; simp⟩
    rcases List.append_eq_append_iff.1 hsplit with ⟨q, hq, hl⟩ | ⟨c, hc', hx⟩
    · exact new q hq hl
    · cases c with
      | nil => exact new [] (by simpa using hc'.symm) (by simpa using hx.symm)
      | cons y c =>
        injection hx with hx _
        subst hx
        exact hh pre i r c hc'

/-- C104, partial: without cancellations and timeouts a call that was answered has no effect afterwards. -/
theorem C104_no_late_effect_partial {db log : Data} {evs : List Ev} {s : St} {h : List Lab} (hr : (St.new db log).run evs = some (s, h))
    (hc : ∀ i, Ev.cancel i ∉ evs ∧ Ev.expire i ∉ evs) : NoLateEffect h := by
  intro pre i r post e k r' hm
  have := ret_after (inv_new db log) hr hc (by intro pre i r post e; have := congrArg List.length e; simp at this) pre i r post (by simpa using e)
  obtain ⟨k1, r1, ha⟩ := this
  obtain ⟨a, b, hab⟩ := List.append_of_mem ha
  exact (new_inv hr).placed.act_once (a := a) (b := b ++ .ret i r :: post) (k := k1) (r := r1) (by rw [e, hab]; simp) (List.mem_append_right _ (List.mem_cons_of_mem _ hm))

/-- Workers that will execute operation `i` without another check. -/
def St.committed (s : St) (i : Nat) : Prop := ∃ o : Op, o.id = i ∧ (Worker.waiting o ∈ s.workers ∨ Worker.running o ∈ s.workers)

theorem committed_step {s s' : St} {h l : List Lab} {ev : Ev} {i : Nat} (hi : Inv s h) (hret : ∃ r, Lab.ret (.op i) r ∈ h) (hn : ¬ s.committed i) (he : s.step ev = some (s', l)) :
    ¬ s'.committed i := by
  have key : ∀ {w : Nat} {k : Worker}, (∀ o, o.id = i → k ≠ .waiting o ∧ k ≠ .running o) → s'.workers = s.workers.set w k → ¬ s'.committed i := by
    intro w k hk hw ⟨o, ho, hm⟩
    rw [hw] at hm
    rcases hm with hm | hm
    · rcases mem_set_cases hm with hm | hm
      · exact (hk o ho).1 hm.symm
      · exact hn ⟨o, ho, .inl hm⟩
    · rcases mem_set_cases hm with hm | hm
      · exact (hk o ho).2 hm.symm
      · exact hn ⟨o, ho, .inr hm⟩
  have same : s'.workers = s.workers → ¬ s'.committed i := by
    intro hw ⟨o, ho, hm⟩
    rw [hw] at hm
    exact hn ⟨o, ho, hm⟩
  cases ev with
  | tick n => cases he; exact same rfl
  | spawn n =>
    cases he
    rintro ⟨o, ho, hm⟩
    simp only [List.mem_append] at hm
    rcases hm with (hm | hm) | (hm | hm)
    · exact hn ⟨o, ho, .inl hm⟩
    · cases List.eq_of_mem_replicate hm
    · exact hn ⟨o, ho, .inr hm⟩
    · cases List.eq_of_mem_replicate hm
  | start k p => cases he; exact same rfl
  | enqueue n =>
    simp only [St.step, Option.map_eq_some_iff] at he
    obtain ⟨s1, h1, h2⟩ := he
    cases h2
    unfold St.enqueue at h1
    rw [Option.map_eq_some_iff] at h1
    obtain ⟨o, ho, rfl⟩ := h1
    exact same rfl
  | take w n =>
    simp only [St.step, Option.map_eq_some_iff] at he
    obtain ⟨s1, h1, h2⟩ := he
    cases h2
    obtain ⟨o, hw, hq, -, rfl⟩ := take_some h1
    exact key (by simp) rfl
  | check w =>
    simp only [St.step, Option.map_eq_some_iff] at he
    obtain ⟨s1, h1, h2⟩ := he
    cases h2
    obtain ⟨o, hw, rfl⟩ := check_some h1
    refine key ?_ rfl
    intro o' ho'
    split
    · rename_i hp
      refine ⟨?_, by simp⟩
      intro e
      injection e with e
      subst e
      rw [ho', pending_iff] at hp
      obtain ⟨t, ht⟩ := hp
      obtain ⟨r, hr⟩ := hret
      exact (hi.pend i t ht).2.2 r hr
    · simp
  | permit w =>
    simp only [St.step, Option.map_eq_some_iff] at he
    obtain ⟨s1, h1, h2⟩ := he
    cases h2
    obtain ⟨o, hw, -, rfl⟩ := permit_some h1
    refine key ?_ rfl
    intro o' ho'
    refine ⟨by simp, ?_⟩
    intro e
    injection e with e
    subst e
    exact hn ⟨o, ho', .inl (mem_get hw)⟩
  | exec w cut =>
    obtain ⟨o, hw, rfl, rfl⟩ := exec_some he
    exact key (by simp) rfl
  | finish w =>
    obtain ⟨o, r, hw, e⟩ := finish_some he
    have := (complete_frame ({ s with permits := s.permits + 1, workers := s.workers.set w .idle } : St) o.id r).1
    rw [← e] at this
    exact key (k := .idle) (by simp) this
  | cancel j =>
    have e := Option.some.inj he
    have := (cancel_frame s j).1
    rw [e] at this
    exact same this
  | drain => cases he; exact same rfl
  | expire j =>
    simp only [St.step] at he
    split at he
    · have e := Option.some.inj he
      have := (complete_frame s j .err).1
      rw [e] at this
      exact same this
    · cases he
  | cleanup => cases he; exact same rfl
  | signal => cases he; exact same rfl
  | exit w =>
    simp only [St.step, Option.map_eq_some_iff] at he
    obtain ⟨s1, h1, h2⟩ := he
    cases h2
    obtain ⟨hw, -, rfl⟩ := exit_some h1
    exact key (by simp) rfl
  | abort w =>
    simp only [St.step, Option.map_eq_some_iff] at he
    obtain ⟨s1, h1, h2⟩ := he
    cases h2
    obtain ⟨k, hw, rfl⟩ := abort_some h1
    exact key (by simp) rfl
  | direct k => cases he; exact same rfl
  | directExec n cut =>
    obtain ⟨c, -, rfl, rfl⟩ := directExec_some he
    exact same rfl

theorem committed_run {s s' : St} {h l : List Lab} {es : List Ev} {i : Nat} (hi : Inv s h) (hret : ∃ r, Lab.ret (.op i) r ∈ h) (hn : ¬ s.committed i) (he : s.run es = some (s', l)) :
    ∀ k r, Lab.act (.op i) k r ∉ l := by
  induction es generalizing s h l with
  | nil => cases he; simp
  | cons e es ih =>
    obtain ⟨s1, l1, l2, h1, h2, rfl⟩ := run_cons he
    intro k r hm
    rcases List.mem_append.1 hm with hm | hm
    · obtain ⟨w, o, hw, ho, -⟩ := step_act h1 hm
      exact hn ⟨o, ho, .inr (mem_get hw)⟩
    · obtain ⟨r0, hr0⟩ := hret
      exact ih (hi.step h1) ⟨r0, List.mem_append_left _ hr0⟩ (committed_step hi ⟨r0, hr0⟩ hn h1) h2 k r hm

/-- C104, partial: a call that was answered — for instance cancelled or timed out — while no worker had got past its check of the operation has no effect afterwards, whatever happens. -/
theorem C104_cancelled_partial {db log : Data} {evs evs' : List Ev} {s s' : St} {h l : List Lab} {i : Nat} {r : Res} (hr : (St.new db log).run evs = some (s, h))
    (hret : Lab.ret (.op i) r ∈ h) (hn : ∀ w ∈ s.workers, ∀ o : Op, o.id = i → w ≠ .waiting o ∧ w ≠ .running o) (hr' : s.run evs' = some (s', l)) :
    ∀ k r', Lab.act (.op i) k r' ∉ l := by
  refine committed_run (new_inv hr) ⟨r, hret⟩ ?_ hr'
  rintro ⟨o, ho, hm | hm⟩
  · exact (hn _ hm o ho).1 rfl
  · exact (hn _ hm o ho).2 rfl

/-- C104 fails for calls that time out (or are cancelled) while a worker waits for its permit or the disk: the caller has its error, writes again, successfully, and then the first write is carried out
over the second. The whole history: -/
theorem C104_late_write_fails :
    ∃ (evs : List Ev) (s : St), (St.new [7] [7]).run evs = some (s, [.call (.op 1) (.writeLog [1] 0), .ret (.op 1) .err, .call (.op 2) (.writeLog [2] 0), .act (.op 2) (.writeLog [2] 0) (.ok [2]),
      .ret (.op 2) (.ok [2]), .act (.op 1) (.writeLog [1] 0) (.ok [1])]) ∧ s.files.log = [1] :=
  ⟨[.spawn 2, .start (.writeLog [1] 0) 7, .enqueue 0, .take 0 0, .check 0, .permit 0, .tick 30001, .expire 1, .start (.writeLog [2] 0) 7, .enqueue 0, .take 1 0, .check 1, .permit 1, .exec 1 none,
    .finish 1, .exec 0 none, .finish 0], _, rfl, rfl⟩

/-- The same as a failure of the property. -/
theorem C104_no_late_effect_fails : ¬ ∀ (db log : Data) (evs : List Ev) (s : St) (h : List Lab), (St.new db log).run evs = some (s, h) → NoLateEffect h := by
  intro hall
  obtain ⟨evs, s, hr, -⟩ := C104_late_write_fails
  exact hall _ _ _ _ _ hr [.call (.op 1) (.writeLog [1] 0)] (.op 1) .err _ rfl (.writeLog [1] 0) (.ok [1]) (by simp)

/-- C104 fails for page numbers from 2^52: their position wraps around, reading page 2^52 succeeds with the content of page 0, although there is no such page in the file. -/
theorem C104_huge_page_fails (db log : Data) (h1 : 4096 ≤ db.length) (h2 : db.length < 2 ^ 64) :
    ∃ evs s h, (St.new db log).run evs = some (s, h) ∧ Lab.call (.op 1) (.readPage (2 ^ 52)) ∈ h ∧ Lab.ret (.op 1) (.ok (db.take 4096)) ∈ h ∧ ¬ ∃ d, Has db (2 ^ 52 * 4096) 4096 d := by
  have hx : (Files.init db log).exec (.readPage (2 ^ 52)) none = (Files.init db log, .ok (db.take 4096)) := by
    have : pageOff (2 ^ 52) = 0 := by decide
    simp only [Files.exec, this, readAt, Files.init]
    rw [if_pos (by omega)]
    simp
  refine ⟨[.spawn 1, .start (.readPage (2 ^ 52)) 10, .enqueue 0, .take 0 0, .check 0, .permit 0, .exec 0 none, .finish 0], _,
    [.call (.op 1) (.readPage (2 ^ 52)), .act (.op 1) (.readPage (2 ^ 52)) ((Files.init db log).exec (.readPage (2 ^ 52)) none).2,
      .ret (.op 1) ((Files.init db log).exec (.readPage (2 ^ 52)) none).2], rfl, by simp, by rw [hx]; simp, ?_⟩
  rintro ⟨d, hd, -⟩
  omega

/-- A run with two workers, a read of page 0 and an append that overtakes it. -/
def demo : List Ev :=
  [.spawn 2, .start (.readLog 0 2) 9, .enqueue 0, .take 0 0, .direct (.appendLog [5]), .start (.appendLog [6, 6]) 7, .enqueue 0, .take 1 0, .check 1, .permit 1, .exec 1 none, .directExec 0 none,
    .check 0, .permit 0, .finish 1, .exec 0 none, .finish 0, .start .syncLog 6, .enqueue 0, .take 0 0, .check 0, .permit 0, .exec 0 none, .finish 0, .cancel 2]

/-- The history of that run. -/
def demoH : List Lab :=
  [.call (.op 1) (.readLog 0 2), .call (.direct 0) (.appendLog [5]), .call (.op 2) (.appendLog [6, 6]), .act (.op 2) (.appendLog [6, 6]) (.ok [1, 0, 0, 0, 0, 0, 0, 0]),
    .act (.direct 0) (.appendLog [5]) (.ok [3, 0, 0, 0, 0, 0, 0, 0]), .ret (.direct 0) (.ok [3, 0, 0, 0, 0, 0, 0, 0]), .ret (.op 2) (.ok [1, 0, 0, 0, 0, 0, 0, 0]),
    .act (.op 1) (.readLog 0 2) (.ok [9, 6]), .ret (.op 1) (.ok [9, 6]), .call (.op 3) .syncLog, .act (.op 3) .syncLog (.ok []), .ret (.op 3) (.ok [])]

theorem demo_run : ∃ s, (St.new [7] [9]).run demo = some (s, demoH) ∧ s.files.log = [9, 6, 6, 5] := ⟨_, rfl, rfl⟩

/-- `C104_linearizable_partial` applies to it. -/
example : ∃ db' log', Linearizable [7] [9] (seen demoH) db' log' := by
  obtain ⟨s, h, -⟩ := demo_run
  refine ⟨_, _, (C104_linearizable_partial h ?_).2.2⟩
  intro i k hm
  simp [demoH] at hm
  rcases hm with h | h | h | h <;> rw [h.2] <;> trivial

/-- A cancelled call that no worker has checked. -/
example : ∃ s h, (St.new [] []).run [.spawn 1, .start .sync 6, .enqueue 0, .take 0 0, .cancel 1] = some (s, h) ∧ Lab.ret (.op 1) .err ∈ h ∧
    ∀ w ∈ s.workers, ∀ o : Op, o.id = 1 → w ≠ .waiting o ∧ w ≠ .running o := by
  refine ⟨_, _, rfl, by decide, ?_⟩
  intro w hw
  have : w = .took ⟨6, 1, .sync, 0⟩ := List.mem_singleton.1 hw
  subst this
  simp

/-! ## C105 -/

/-- C105, partial: a page write was answered with success, then a sync was called and answered with success. Then, whatever is going on at the time of the crash, the page has the written content afterwards
— provided every other write to that page had been answered with success before. What is missing: writes to the page that ended in an error (a timeout), which may be carried out later. -/
theorem C105_sync_partial {db log : Data} {evs : List Ev} {s : St} {h0 h1 h2 h3 h4 : List Lab} {i j : Id} {p : Nat} {d v u left : Data}
    (hr : (St.new db log).run evs = some (s, h0 ++ .call i (.writePage p d) :: (h1 ++ .ret i (.ok v) :: (h2 ++ .call j .sync :: (h3 ++ .ret j (.ok u) :: h4)))))
    (hs : ∀ i' k, Lab.call i' k ∈ h0 ++ .call i (.writePage p d) :: (h1 ++ .ret i (.ok v) :: (h2 ++ .call j .sync :: (h3 ++ .ret j (.ok u) :: h4))) → Small k)
    (ho : ∀ i' d', Lab.call i' (.writePage p d') ∈ h0 ++ .call i (.writePage p d) :: (h1 ++ .ret i (.ok v) :: (h2 ++ .call j .sync :: (h3 ++ .ret j (.ok u) :: h4))) →
      i' = i ∨ ∃ v', Lab.ret i' (.ok v') ∈ h0)
    (hl : Survives s.files.dbSafe s.files.dbSince left) : Has left (p * 4096) 4096 d := by
  generalize hh : h0 ++ .call i (.writePage p d) :: (h1 ++ .ret i (.ok v) :: (h2 ++ .call j .sync :: (h3 ++ .ret j (.ok u) :: h4))) = h at hr hs ho
  have hp := (new_inv hr).placed
  have hsm := new_small hp hs
  have hp52 : p < 2 ^ 52 := hs i (.writePage p d) (by rw [← hh]; simp)
  obtain ⟨a1, a2, e1⟩ := hp.locate hh.symm rfl
  obtain ⟨b1, b2, e2⟩ := hp.locate (a := h0 ++ .call i (.writePage p d) :: (h1 ++ .ret i (.ok v) :: h2)) (i := j) (k := .sync) (b := h3) (d := h4) (v := u) (by rw [← hh]; simp) rfl
  -- the history around the two effects
  have eh : h = (h0 ++ .call i (.writePage p d) :: a1) ++ (Lab.act i (.writePage p d) (.ok v) :: ((a2 ++ .ret i (.ok v) :: (h2 ++ .call j .sync :: b1)) ++ (Lab.act j .sync (.ok u) :: (b2 ++ .ret j (.ok u) :: h4)))) := by
    rw [← hh, e1, e2]; simp
  -- nobody else writes the page after that
  have hno : ∀ i' d' r, Lab.act i' (.writePage p d') r ∈ a2 ++ .ret i (.ok v) :: (h2 ++ .call j .sync :: b1) ++ (Lab.act j .sync (.ok u) :: (b2 ++ .ret j (.ok u) :: h4)) → False := by
    intro i' d' r hm
    have hm' : Lab.act i' (.writePage p d') r ∈ h := by rw [eh]; exact List.mem_append_right _ (List.mem_cons_of_mem _ hm)
    rcases ho i' d' (hp.called hm') with rfl | ⟨v', hv'⟩
    · exact hp.act_once eh hm
    · obtain ⟨x, y, exy⟩ := List.append_of_mem hv'
      obtain ⟨k, hk⟩ := (hp x (.ret i' (.ok v')) (y ++ .call i (.writePage p d) :: (h1 ++ .ret i (.ok v) :: (h2 ++ .call j .sync :: (h3 ++ .ret j (.ok u) :: h4)))) (by rw [← hh, exy]; simp)).2.2 v' rfl
      obtain ⟨x1, x2, ex⟩ := List.append_of_mem hk
      refine hp.act_once (a := x1) (b := x2 ++ .ret i' (.ok v') :: y ++ .call i (.writePage p d) :: a1 ++
        (Lab.act i (.writePage p d) (.ok v) :: ((a2 ++ .ret i (.ok v) :: (h2 ++ .call j .sync :: b1)) ++ (Lab.act j .sync (.ok u) :: (b2 ++ .ret j (.ok u) :: h4)))))
        (k := k) (r := .ok v') (i := i') (by rw [eh, exy, ex]; simp) (k' := .writePage p d') (r' := r) (List.mem_append_right _ (List.mem_cons_of_mem _ hm))
  have hex := run_execs hr
  rw [eh] at hex
  obtain ⟨f1, -, x2⟩ := hex.split
  obtain ⟨cut, hrv, x2⟩ := x2.act_inv
  obtain ⟨f2, x3, x4⟩ := x2.split
  obtain ⟨cut2, hru, x5⟩ := x4.act_inv
  -- the write
  have w1 : Has (f1.exec (.writePage p d) cut).1.db (p * 4096) 4096 d := by
    simp only [Files.exec] at hrv ⊢
    by_cases hd : d.length = 4096
    · rw [if_pos hd] at hrv ⊢
      cases cut with
      | some n => cases hrv
      | none =>
        have := Written.has (writeAt_written f1.db (p * 4096) d) (by intro e; rw [e] at hd; simp at hd)
        rw [hd] at this
        simpa [Files.writeDb, pageOff_small hp52, cutTo] using this
    · rw [if_neg hd] at hrv; cases hrv
  -- it is still there at the sync
  have hmem3 : ∀ x, x ∈ a2 ++ .ret i (.ok v) :: (h2 ++ .call j .sync :: b1) → x ∈ h := by
    intro x hx; rw [eh]; exact List.mem_append_right _ (List.mem_cons_of_mem _ (List.mem_append_left _ hx))
  have w2 := x3.has (fun i k r hm => hsm i k r (hmem3 _ hm)) hp52 (fun i' d' r hm => hno i' d' r (List.mem_append_left _ hm)) w1
  have w3 : Kept (f2.exec .sync cut2).1 p d := by
    cases cut2 with
    | some n => simp [Files.exec] at hru
    | none => exact ⟨w2, w2, by intro w hw; simp [Files.exec] at hw⟩
  have hmem5 : ∀ x, x ∈ b2 ++ .ret j (.ok u) :: h4 → x ∈ h := by
    intro x hx; rw [eh]; exact List.mem_append_right _ (List.mem_cons_of_mem _ (List.mem_append_right _ (List.mem_cons_of_mem _ hx)))
  have w4 := x5.kept (fun i k r hm => hsm i k r (hmem5 _ hm)) hp52 (fun i' d' r hm => hno i' d' r (List.mem_append_right _ (List.mem_cons_of_mem _ hm))) w3
  exact w4.survives hl

/-- C105, partial: an append to the log was answered with success, then a sync of the log was called and answered with success; nothing is written into the log but by appending. Then after a crash the
appended bytes are in the log, at the offset that was returned. -/
theorem C105_sync_log_partial {db log : Data} {evs : List Ev} {s : St} {h0 h1 h2 h3 h4 : List Lab} {i j : Id} {d o u left : Data}
    (hr : (St.new db log).run evs = some (s, h0 ++ .call i (.appendLog d) :: (h1 ++ .ret i (.ok o) :: (h2 ++ .call j .syncLog :: (h3 ++ .ret j (.ok u) :: h4)))))
    (hw : ∀ i' d' off, Lab.call i' (.writeLog d' off) ∉ h0 ++ .call i (.appendLog d) :: (h1 ++ .ret i (.ok o) :: (h2 ++ .call j .syncLog :: (h3 ++ .ret j (.ok u) :: h4))))
    (hsz : s.files.log.length < 2 ^ 64) (hl : Survives s.files.logSafe s.files.logSince left) : Has left (Bytes.ofLE o) d.length d := by
  generalize hh : h0 ++ .call i (.appendLog d) :: (h1 ++ .ret i (.ok o) :: (h2 ++ .call j .syncLog :: (h3 ++ .ret j (.ok u) :: h4))) = h at hr hw
  have hp := (new_inv hr).placed
  have hw' : ∀ i' d' off r, Lab.act i' (.writeLog d' off) r ∉ h := fun i' d' off r hm => hw i' d' off (hp.called hm)
  obtain ⟨a1, a2, e1⟩ := hp.locate hh.symm rfl
  obtain ⟨b1, b2, e2⟩ := hp.locate (a := h0 ++ .call i (.appendLog d) :: (h1 ++ .ret i (.ok o) :: h2)) (i := j) (k := .syncLog) (b := h3) (d := h4) (v := u) (by rw [← hh]; simp) rfl
  have eh : h = ((h0 ++ .call i (.appendLog d) :: a1) ++ (Lab.act i (.appendLog d) (.ok o) :: (a2 ++ .ret i (.ok o) :: (h2 ++ .call j .syncLog :: b1)))) ++
      (Lab.act j .syncLog (.ok u) :: (b2 ++ .ret j (.ok u) :: h4)) := by
    rw [← hh, e1, e2]; simp
  have hex := run_execs hr
  rw [eh] at hex
  obtain ⟨f2, x1, x2⟩ := hex.split
  obtain ⟨a, x, ha, ho, hlog⟩ := x1.appended (fun j e p r hm => hw' j e p r (by rw [eh]; exact List.mem_append_left _ hm))
  obtain ⟨cut2, hru, x5⟩ := x2.act_inv
  have k0 : LogKept f2 [] := x1.logKept (fun j e p r hm => hw' j e p r (by rw [eh]; exact List.mem_append_left _ hm))
    ⟨⟨log, by simp [St.new, Files.init]⟩, ⟨[], by simp [St.new, Files.init]⟩, by intro w hw; simp [St.new, Files.init] at hw⟩
  have k1 : LogKept (f2.exec .syncLog cut2).1 (a.log ++ d) := by
    cases cut2 with
    | some n => simp [Files.exec] at hru
    | none => exact ⟨⟨x, by simp only [Files.exec]; exact hlog⟩, ⟨[], by simp [Files.exec]⟩, by intro w hw; simp [Files.exec] at hw⟩
  have k2 := x5.logKept (fun j' e p r hm => hw' j' e p r (by rw [eh]; exact List.mem_append_right _ (List.mem_cons_of_mem _ hm))) k1
  have k3 := k2.survives hl
  have hlen : a.log.length < 256 ^ 8 := by
    obtain ⟨⟨y, hy⟩, ⟨z, hz⟩, -⟩ := k2
    have h1 := congrArg List.length hy
    have h2 := congrArg List.length hz
    simp only [List.length_append] at h1 h2
    have : (256 : Nat) ^ 8 = 2 ^ 64 := by decide
    omega
  rw [ho, Bytes.ofLE_toLE hlen]
  exact k3

/-- Both apply: an append and a sync in the demo run. -/
example {s : St} {left : Data} (hr : (St.new [7] [9]).run demo = some (s, demoH)) (hl : Survives s.files.logSafe s.files.logSince left) (hs : s.files.log = [9, 6, 6, 5]) :
    Has left 1 2 [6, 6] :=
  C105_sync_log_partial (h0 := demoH.take 2) (h1 := (demoH.take 6).drop 3) (h2 := (demoH.take 9).drop 7) (h3 := (demoH.take 11).drop 10) (h4 := []) (i := .op 2) (j := .op 3)
    (d := [6, 6]) (o := [1, 0, 0, 0, 0, 0, 0, 0]) (u := []) hr (by intro i d off hm; simp [demoH] at hm) (by rw [hs]; decide) hl

/-- A page written and synced. -/
example (d : Data) (hd : d.length = 4096) (log left : Data) {s : St} {h : List Lab}
    (hr : (St.new [] log).run [.spawn 1, .start (.writePage 1 d) 8, .enqueue 0, .take 0 0, .check 0, .permit 0, .exec 0 none, .finish 0,
      .start .sync 6, .enqueue 0, .take 0 0, .check 0, .permit 0, .exec 0 none, .finish 0] = some (s, h))
    (hl : Survives s.files.dbSafe s.files.dbSince left) : Has left 4096 4096 d := by
  have hx : (Files.init [] log).exec (.writePage 1 d) none = ((Files.init [] log).writeDb (pageOff 1) d none, .ok d) := by simp [Files.exec, hd, resOf]
  have he : h = [] ++ .call (.op 1) (.writePage 1 d) :: ([.act (.op 1) (.writePage 1 d) ((Files.init [] log).exec (.writePage 1 d) none).2] ++ .ret (.op 1) ((Files.init [] log).exec (.writePage 1 d) none).2 ::
      ([] ++ .call (.op 2) .sync :: ([.act (.op 2) .sync (.ok [])] ++ .ret (.op 2) (.ok []) :: []))) := by
    have e := congrArg Prod.snd (Option.some.inj hr)
    exact e.symm
  rw [hx] at he
  subst he
  refine C105_sync_partial hr ?_ ?_ hl
  · intro i k hm
    simp at hm
    rcases hm with h | h <;> rw [h.2]
    · show 1 < 2 ^ 52; decide
    · trivial
  · intro i d' hm
    simp at hm
    exact .inl hm.1

/-! ## C106 -/

/-- C106, partial: while at most one worker is there, of two queued operations the one with the higher priority — or of equal priority and queued earlier — is executed first: when the other is executed,
it has been executed, or has been answered (cancelled, timed out). What is missing: several workers (`C106_two_workers_fails`), and that the lower one is ever executed (`C106_starvation_fails`). -/
theorem C106_priority_partial {db log : Data} {evs evs' : List Ev} {s s' : St} {h pre post : List Lab} {a b : Op} {k : Kind} {r : Res}
    (hr : (St.new db log).run evs = some (s, h)) (hw : s.workers.countP (· != .gone) ≤ 1) (ha : a ∈ s.queue) (hb : b ∈ s.queue)
    (hab : b.prio < a.prio ∨ (a.prio = b.prio ∧ a.time < b.time)) (hs : ∀ n, Ev.spawn n ∉ evs')
    (hr' : s.run evs' = some (s', pre ++ Lab.act (.op b.id) k r :: post)) :
    (∃ k r, Lab.act (.op a.id) k r ∈ pre) ∨ ∃ r, Lab.ret (.op a.id) r ∈ h ++ pre := by
  have hi := new_inv hr
  have hwa := hi.waits a (.queue ha)
  have hwb := hi.waits b (.queue hb)
  have hans : Answered s h := by simpa using (answered_new db log).run (inv_new db log) hr
  have hgt : a.gt b = true := by simp [Op.gt]; omega
  rcases Before.run hgt hwa.2.1 (.queued ha hb) hi hans hw hwb.1 hr' hs rfl with ⟨k, r, hm⟩ | hm
  · rcases List.mem_append.1 hm with hm | hm
    · exact absurd hm (hwa.2.2 k r)
    · exact .inl ⟨k, r, hm⟩
  · exact .inr hm

/-- A write and then a read in the queue of one worker: the read has the higher priority. -/
example : ∃ s h, (St.new [] []).run [.spawn 1, .start (.writeLog [1] 0) 7, .start (.readLog 0 0) 9, .enqueue 0, .enqueue 0] = some (s, h) ∧ s.workers.countP (· != .gone) ≤ 1 ∧
    (⟨9, 2, .readLog 0 0, 0⟩ : Op) ∈ s.queue ∧ (⟨7, 1, .writeLog [1] 0, 0⟩ : Op) ∈ s.queue := ⟨_, _, rfl, by decide, by decide, by decide⟩

/-- C106 fails with two workers: both operations are taken, the one with the lower priority is executed first. -/
theorem C106_two_workers_fails :
    ∃ evs s h evs' s', (St.new [] []).run evs = some (s, h) ∧ (⟨9, 2, .readLog 0 0, 0⟩ : Op) ∈ s.queue ∧ (⟨7, 1, .writeLog [1] 0, 0⟩ : Op) ∈ s.queue ∧
      s.run evs' = some (s', [.act (.op 1) (.writeLog [1] 0) (.ok [1]), .act (.op 2) (.readLog 0 0) (.ok [])]) :=
  ⟨[.spawn 2, .start (.writeLog [1] 0) 7, .start (.readLog 0 0) 9, .enqueue 0, .enqueue 0], _, _,
    [.take 0 1, .take 1 0, .check 0, .check 1, .permit 0, .permit 1, .exec 1 none, .exec 0 none], _, rfl, by decide, by decide, rfl⟩

/-- One read, served. -/
def readRound : List Ev := [.start (.readPage 0) 10, .enqueue 0, .take 0 1, .check 0, .permit 0, .exec 0 none, .finish 0]

/-- A queued operation of low priority, an idle worker. -/
structure Starved (s : St) (o : Op) : Prop where
  queue : s.queue = [o]
  workers : s.workers = [.idle]
  calls : s.calls = []
  permits : 0 < s.permits
  prio : o.prio < 10

theorem readRound_run {s : St} {o : Op} (h : Starved s o) : ∃ s' r, s.run readRound = some (s', [.call (.op s.next) (.readPage 0), .act (.op s.next) (.readPage 0) r, .ret (.op s.next) r]) ∧
    Starved s' o ∧ s'.next = s.next + 1 := by
  obtain ⟨files, ops, next, calls, queue, workers, permits, stop, now, directs, nextDirect⟩ := s
  obtain ⟨h1, h2, h3, h4, h5⟩ := h
  simp only at h1 h2 h3 h4
  subst h1 h2 h3
  have hg : (o.gt ⟨10, next, .readPage 0, now⟩) = false := by simp [Op.gt]; omega
  have hp : permits ≠ 0 := by omega
  have hself : (⟨10, next, .readPage 0, now⟩ : Op).gt ⟨10, next, .readPage 0, now⟩ = false := by simp [Op.gt]
  have hget : ∀ (m : AMap Nat Status) v, (m.set next v).get next = some v := fun m v => AMap.get_set_self m next v
  refine ⟨⟨(files.exec (.readPage 0) none).1, AMap.set (AMap.set (if maxTracked ≤ List.length ops then List.filter (keep now) ops else ops) next (.pending now)) next
      (.done now (files.exec (.readPage 0) none).2), next + 1, [], [o], [.idle], permits - 1 + 1, stop, now, directs, nextDirect⟩, (files.exec (.readPage 0) none).2, ?_, ?_, ?_⟩
  · simp [readRound, St.run, St.step, St.start, St.enqueue, St.take, St.check, St.permit, St.exec, St.finish, St.pending, St.complete, hg, hself, hget, hp]
  · exact ⟨rfl, rfl, rfl, by show 0 < permits - 1 + 1; omega, h5⟩
  · rfl

/-- C106 fails as a promise of service: as long as reads keep coming, a queued write waits — any number of reads that began after it are executed and answered before it, and it is still in the queue. -/
theorem C106_starvation_fails (n : Nat) :
    ∃ evs s h, (St.new [] []).run evs = some (s, h) ∧ (∃ h', h = .call (.op 1) (.writeLog [1] 0) :: h' ∧ ∀ m, 2 ≤ m → m < 2 + n → ∃ r, Lab.act (.op m) (.readPage 0) r ∈ h' ∧ Lab.ret (.op m) r ∈ h') ∧
      (∃ o ∈ s.queue, o.id = 1) ∧ s.workers = [.idle] := by
  suffices hs : ∃ evs s h, (St.new [] []).run evs = some (s, h) ∧
      (∃ h', h = .call (.op 1) (.writeLog [1] 0) :: h' ∧ ∀ m, 2 ≤ m → m < 2 + n → ∃ r, Lab.act (.op m) (.readPage 0) r ∈ h' ∧ Lab.ret (.op m) r ∈ h') ∧
      Starved s ⟨7, 1, .writeLog [1] 0, 0⟩ ∧ s.next = 2 + n by
    obtain ⟨evs, s, h, h1, h2, h3, -⟩ := hs
    exact ⟨evs, s, h, h1, h2, ⟨⟨7, 1, .writeLog [1] 0, 0⟩, by rw [h3.queue]; simp, rfl⟩, h3.workers⟩
  induction n with
  | zero =>
    refine ⟨[.spawn 1, .start (.writeLog [1] 0) 7, .enqueue 0], _, _, rfl, ⟨[], rfl, ?_⟩, ⟨rfl, rfl, rfl, by decide, by decide⟩, rfl⟩
    intro m h1 h2
    omega
  | succ n ih =>
    obtain ⟨evs, s, h, h1, ⟨h', e, hm⟩, h3, h4⟩ := ih
    obtain ⟨s', r, h5, h6, h7⟩ := readRound_run h3
    refine ⟨evs ++ readRound, s', h ++ _, run_append h1 h5, ⟨h' ++ _, by rw [e]; rfl, ?_⟩, h6, by omega⟩
    intro m hm1 hm2
    by_cases hmn : m = s.next
    · subst hmn
      exact ⟨r, List.mem_append_right _ (by simp), List.mem_append_right _ (by simp)⟩
    · obtain ⟨r', ha, hb⟩ := hm m hm1 (by omega)
      exact ⟨r', List.mem_append_left _ ha, List.mem_append_left _ hb⟩

/-! ## C107 -/

/-- C107, partial: as long as workers were started, the queue is not cleared and no worker is stopped, work ends and answers everything: from any reachable state there is a bound for the number of parts of work
— whichever is done next, in whichever interleaving — and when nothing is left to do every call has its answer. What is missing: clearing the queue and stopping workers (`C107_cleared_fails`). -/
theorem C107_answered_partial {db log : Data} {evs : List Ev} {s : St} {h : List Lab} {n : Nat} (hr : (St.new db log).run evs = some (s, h)) (hn : ∀ e ∈ evs, Normal e) (hs : Ev.spawn (n + 1) ∈ evs) :
    ∃ bound, ∀ ws s' l, (∀ e ∈ ws, Work e) → s.run ws = some (s', l) →
      ws.length ≤ bound ∧ ((∀ e, Work e → s'.step e = none) → ∀ i k, Lab.call i k ∈ h → ∃ r, Lab.ret i r ∈ h ++ l) := by
  refine ⟨s.todo, ?_⟩
  intro ws s' l hw hr'
  refine ⟨by have := Work.run hr' hw; omega, ?_⟩
  intro hstuck i k hm
  have hrr := run_append hr hr'
  have hl : Live s' (h ++ l) := by
    simpa using (live_new db log).run (inv_new db log) hrr (by
      intro e he
      rcases List.mem_append.1 he with he | he
      · exact hn e he
      · exact Work.normal (hw e he))
  have hans : Answered s' (h ++ l) := by simpa using (answered_new db log).run (inv_new db log) hrr
  obtain ⟨h1, h2⟩ := hl.idle (run_spawned hrr (List.mem_append_left _ hs)) hstuck
  cases i with
  | op i =>
    rcases hans i k (List.mem_append_left _ hm) with hp | hp
    · rw [h1 i] at hp; cases hp
    · exact hp
  | direct i =>
    rcases hl.directs i k (List.mem_append_left _ hm) with ⟨c, hc, -⟩ | hp
    · rw [h2] at hc; simp at hc
    · exact hp

theorem expires {s : St} {i n : Nat} {t : Nat} (ht : s.ops.get i = some (.pending t)) (h : t + timeout < s.now + n) :
    ∃ s', s.run [.tick n, .expire i] = some (s', [.ret (.op i) .err]) := by
  have h1 : ({ s with now := s.now + n } : St).timedOut i = true := by
    simp only [St.timedOut, ht]
    exact decide_eq_true h
  refine ⟨{ s with now := s.now + n, ops := s.ops.set i (.done (s.now + n) .err) }, ?_⟩
  simp [St.run, St.step, h1, St.complete, ht]

/-- C107, partial: in every reachable state, whatever was cleared or stopped, a queued call that has no answer gets one — an error — from the first timeout check after thirty seconds. -/
theorem C107_timeout_partial {db log : Data} {evs : List Ev} {s : St} {h : List Lab} {i : Nat} {k : Kind} (hr : (St.new db log).run evs = some (s, h)) (hc : Lab.call (.op i) k ∈ h)
    (hn : ∀ r, Lab.ret (.op i) r ∉ h) {n : Nat} (h30 : 30000 < n) : ∃ s', s.run [.tick n, .expire i] = some (s', [.ret (.op i) .err]) := by
  have hans : Answered s h := by simpa using (answered_new db log).run (inv_new db log) hr
  have hpast : Past s := by
    refine Past.run (h := []) ?_ (inv_new db log) hr
    intro i t ht
    simp [St.new] at ht
  rcases hans i k hc with hp | ⟨r, hr⟩
  · rw [pending_iff] at hp
    obtain ⟨t, ht⟩ := hp
    have := hpast i t ht
    exact expires ht (by unfold timeout; omega)
  · exact absurd hr (hn r)

/-- C107 fails when the queue is cleared: a call was made, a worker is idle, nothing is left to do, and the call has no answer (it waits for the timeout). -/
theorem C107_cleared_fails : ∃ s h, (St.new [] []).run [.spawn 1, .start .sync 6, .enqueue 0, .drain] = some (s, h) ∧ (∀ e, Work e → s.step e = none) ∧ Lab.call (.op 1) .sync ∈ h ∧
    (∀ r, Lab.ret (.op 1) r ∉ h) ∧ s.workers = [.idle] := by
  refine ⟨_, _, rfl, ?_, by decide, ?_, rfl⟩
  rotate_left
  · intro r hm
    have := List.mem_singleton.1 hm
    cases this
  intro e he
  cases e with
  | enqueue n => rfl
  | take w n => cases w <;> rfl
  | check w => cases w <;> rfl
  | permit w => cases w <;> rfl
  | exec w c => cases w <;> rfl
  | finish w => cases w <;> rfl
  | directExec n c => rfl
  | _ => exact he.elim

/-- A run as the first theorem needs it, and one as the second. -/
example : (∀ e ∈ demo, Normal e) ∧ Ev.spawn (1 + 1) ∈ demo := by
  refine ⟨?_, by simp [demo]⟩
  simp only [demo, List.forall_mem_cons]
  repeat' constructor
  intro e he
  simp at he

example : ∃ s h, (St.new [] []).run [.spawn 1, .start .sync 6, .enqueue 0, .take 0 0, .abort 0] = some (s, h) ∧ Lab.call (.op 1) .sync ∈ h ∧ ∀ r, Lab.ret (.op 1) r ∉ h :=
  by
  refine ⟨_, _, rfl, by decide, ?_⟩
  intro r hm
  have := List.mem_singleton.1 hm
  cases this

/-! ## C108 -/

/-- C108, partial: every append that was answered with success is in the log at the offset it returned, as long as nothing else is written into the log. What is missing: `write_log`, which writes where it is told. -/
theorem C108_append_partial {db log : Data} {evs : List Ev} {s : St} {h : List Lab} {i : Id} {d o : Data} (hr : (St.new db log).run evs = some (s, h))
    (hw : ∀ i d off, Lab.call i (.writeLog d off) ∉ h) (hsz : s.files.log.length < 2 ^ 64) (hc : Lab.call i (.appendLog d) ∈ h) (ho : Lab.ret i (.ok o) ∈ h) :
    Has s.files.log (Bytes.ofLE o) d.length d := by
  have hp := (new_inv hr).placed
  obtain ⟨l1, l2, e⟩ := hp.acted hc ho
  have hex := run_execs hr
  rw [e] at hex
  obtain ⟨a, x, -, h2, h3⟩ := hex.appended (fun j f p r hm => hw j f p (hp.called (by rw [e]; exact hm)))
  have hlen : a.log.length < 256 ^ 8 := by
    have h1 := congrArg List.length h3
    simp only [List.length_append] at h1
    have : (256 : Nat) ^ 8 = 2 ^ 64 := by decide
    omega
  rw [h2, Bytes.ofLE_toLE hlen, h3]
  exact has_append

/-- C108, partial: two appends that were answered with success do not overlap. -/
theorem C108_disjoint_partial {db log : Data} {evs : List Ev} {s : St} {h : List Lab} {i j : Id} {d d' o o' : Data} (hr : (St.new db log).run evs = some (s, h))
    (hw : ∀ i d off, Lab.call i (.writeLog d off) ∉ h) (hsz : s.files.log.length < 2 ^ 64) (hij : i ≠ j)
    (hc : Lab.call i (.appendLog d) ∈ h) (ho : Lab.ret i (.ok o) ∈ h) (hc' : Lab.call j (.appendLog d') ∈ h) (ho' : Lab.ret j (.ok o') ∈ h) :
    Bytes.ofLE o + d.length ≤ Bytes.ofLE o' ∨ Bytes.ofLE o' + d'.length ≤ Bytes.ofLE o := by
  have hp := (new_inv hr).placed
  have hwa : ∀ j f p r, Lab.act j (.writeLog f p) r ∉ h := fun j f p r hm => hw j f p (hp.called hm)
  have key : ∀ {i j : Id} {d d' o o' : Data} {l1 l2 l3 : List Lab}, h = l1 ++ Lab.act i (.appendLog d) (.ok o) :: (l2 ++ Lab.act j (.appendLog d') (.ok o') :: l3) →
      Bytes.ofLE o + d.length ≤ Bytes.ofLE o' := by
    intro i j d d' o o' l1 l2 l3 e
    have e' : h = (l1 ++ Lab.act i (.appendLog d) (.ok o) :: l2) ++ Lab.act j (.appendLog d') (.ok o') :: l3 := by rw [e]; simp
    have hex := run_execs hr
    rw [e'] at hex
    obtain ⟨a, x, h1, h2, h3⟩ := hex.appended (fun j f p r hm => hwa j f p r (by rw [e']; exact hm))
    obtain ⟨b, y, -, h5, h6⟩ := h1.appended (fun j f p r hm => hwa j f p r (by rw [e']; exact List.mem_append_left _ hm))
    have e3 := congrArg List.length h3
    have e6 := congrArg List.length h6
    simp only [List.length_append] at e3 e6
    have h256 : (256 : Nat) ^ 8 = 2 ^ 64 := by decide
    rw [h2, h5, Bytes.ofLE_toLE (by omega), Bytes.ofLE_toLE (by omega)]
    omega
  obtain ⟨l1, l2, e⟩ := hp.acted hc ho
  obtain ⟨m1, m2, e'⟩ := hp.acted hc' ho'
  have hm : Lab.act j (.appendLog d') (.ok o') ∈ l1 ++ Lab.act i (.appendLog d) (.ok o) :: l2 := by
    rw [← e, e']
    exact List.mem_append_right _ List.mem_cons_self
  rcases List.mem_append.1 hm with hm | hm
  · obtain ⟨x, y, ex⟩ := List.append_of_mem hm
    exact .inr (key (i := j) (j := i) (d' := d) (l1 := x) (l2 := y) (l3 := l2) (by rw [e, ex]; simp))
  · rcases List.mem_cons.1 hm with hm | hm
    · injection hm with hm; exact absurd hm.symm hij
    · obtain ⟨x, y, ex⟩ := List.append_of_mem hm
      exact .inl (key (l1 := l1) (l2 := x) (l3 := y) (by rw [e, ex]))

/-- Two appends, of which one bypasses the queue, in the demo run. -/
example : Lab.call (.op 2) (.appendLog [6, 6]) ∈ demoH ∧ Lab.ret (.op 2) (.ok [1, 0, 0, 0, 0, 0, 0, 0]) ∈ demoH ∧ Lab.call (.direct 0) (.appendLog [5]) ∈ demoH ∧
    Lab.ret (.direct 0) (.ok [3, 0, 0, 0, 0, 0, 0, 0]) ∈ demoH ∧ ∀ i d off, Lab.call i (.writeLog d off) ∉ demoH := by
  refine ⟨by decide, by decide, by decide, by decide, ?_⟩
  intro i d off hm
  simp [demoH] at hm

/-- C108 fails with `write_log`: it overwrites an append that was answered with success. -/
theorem C108_write_log_fails : ∃ evs s h, (St.new [] []).run evs = some (s, h) ∧ Lab.call (.op 1) (.appendLog [5]) ∈ h ∧ Lab.ret (.op 1) (.ok (Bytes.toLE 8 0)) ∈ h ∧ s.files.log = [6] :=
  ⟨[.spawn 1, .start (.appendLog [5]) 7, .enqueue 0, .take 0 0, .check 0, .permit 0, .exec 0 none, .finish 0, .start (.writeLog [6] 0) 7, .enqueue 0, .take 0 0, .check 0, .permit 0, .exec 0 none, .finish 0],
    _, _, rfl, by decide, by decide, rfl⟩

end Verif.Io
