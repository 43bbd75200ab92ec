import Verif.Io.Lemmas

/-! The invariant holds after every run. -/

namespace Verif.Io

open Spec

theorem mem_get {α : Type} {l : List α} {n : Nat} {x : α} (h : l[n]? = some x) : x ∈ l := List.mem_of_getElem? h

/-- Replacing one worker. -/
theorem Inv.set_worker {s s' : St} {h : List Lab} {w : Nat} {k k' : Worker} (hi : Inv s h) (hk : s.workers[w]? = some k)
    (hop : k'.op = none ∨ k'.op = k.op) (hran : ∀ o r, k' ≠ .ran o r)
    (hpre : ∀ o r, k = .ran o r → k'.op = none)
    (e : s'.workers = s.workers.set w k') (ec : s'.calls = s.calls) (eq : s'.queue = s.queue) (en : s'.next = s.next) (ed : s'.nextDirect = s.nextDirect)
    (edd : s'.directs = s.directs) (eo : s'.ops = s.ops) : Inv s' h := by
  refine hi.of_sub ?_ ?_ ?_ en ed edd (by rw [eo]; exact fun _ _ h => h) (by rw [eo]; exact hi.wf)
  · intro i
    have := countP_set (Worker.hasId i) k' hk
    simp only [St.cnt, e, ec, eq]
    have hle : (if Worker.hasId i k' then 1 else 0) ≤ (if Worker.hasId i k then 1 else 0) := by
      rcases hop with h | h
      · simp [Worker.hasId, h]
      · simp only [Worker.hasId, h]; exact Nat.le_refl _
    omega
  · intro o ho
    have key : ∀ x, x ∈ s'.workers → x.op = some o → (∀ r, x ≠ .ran o r) → s.Waits o := by
      intro x hx hxo hxr
      rw [e] at hx
      have hW : ∀ y, y ∈ s.workers → y.op = some o → (∀ r, y ≠ .ran o r) → s.Waits o := by
        intro y hy hyo hyr
        cases y with
        | idle => cases hyo
        | gone => cases hyo
        | took a => cases hyo; exact .took hy
        | waiting a => cases hyo; exact .waiting hy
        | running a => cases hyo; exact .running hy
        | ran a r => cases hyo; exact absurd rfl (hyr r)
      rcases mem_set_cases hx with rfl | hx
      · have hko : k.op = some o := by
          rcases hop with h | h
          · rw [h] at hxo; cases hxo
          · rw [← h]; exact hxo
        refine hW k (mem_get hk) hko ?_
        intro r hr
        have := hpre o r hr
        rw [this] at hxo; cases hxo
      · exact hW x hx hxo hxr
    refine ⟨o, ?_, rfl, rfl⟩
    cases ho with
    | calls h => rw [ec] at h; exact .calls h
    | queue h => rw [eq] at h; exact .queue h
    | took h => exact key _ h rfl (by simp)
    | waiting h => exact key _ h rfl (by simp)
    | running h => exact key _ h rfl (by simp)
  · intro o r h
    rw [e] at h
    rcases mem_set_cases h with h | h
    · exact absurd h.symm (hran o r)
    · exact h

theorem waits_congr {s s' : St} {o : Op} (h : s'.Waits o) (h1 : s'.calls = s.calls) (h2 : s'.queue = s.queue) (h3 : s'.workers = s.workers) : s.Waits o := by
  cases h with
  | calls h => exact .calls (h1 ▸ h)
  | queue h => exact .queue (h2 ▸ h)
  | took h => exact .took (h3 ▸ h)
  | waiting h => exact .waiting (h3 ▸ h)
  | running h => exact .running (h3 ▸ h)

/-- Changes to clock, permits, files and flags. -/
theorem Inv.frame {s s' : St} {h : List Lab} (hi : Inv s h) (e : s'.workers = s.workers) (ec : s'.calls = s.calls) (eq : s'.queue = s.queue)
    (en : s'.next = s.next) (ed : s'.nextDirect = s.nextDirect) (edd : s'.directs = s.directs) (eo : s'.ops = s.ops) : Inv s' h :=
  hi.of_sub (by intro i; simp [St.cnt, e, ec, eq]) (fun o ho => ⟨o, waits_congr ho ec eq e, rfl, rfl⟩) (by rw [e]; exact fun _ _ h => h) en ed edd
    (by rw [eo]; exact fun _ _ h => h) (by rw [eo]; exact hi.wf)

theorem Inv.start {s : St} {h : List Lab} (hi : Inv s h) (k : Kind) (p : Nat) : Inv (s.start k p).1 (h ++ (s.start k p).2) := by
  have hnew : ∀ x ∈ h, x.id ≠ .op s.next := by
    intro x hx e
    have := hi.new x hx
    rw [e] at this
    exact Nat.lt_irrefl _ this
  have hops : ∀ i t, (s.start k p).1.ops.get i = some (.pending t) → i ≠ s.next → s.ops.get i = some (.pending t) := by
    intro i t hg hne
    simp only [St.start] at hg
    rw [AMap.get_set_ne _ _ (fun e => hne e.symm)] at hg
    split at hg
    · exact get_filter_sub hi.wf _ hg
    · exact hg
  constructor
  · intro i
    have := hi.one i
    simp only [St.cnt, St.start, List.countP_append, List.countP_cons, List.countP_nil] at this ⊢
    by_cases hi' : s.next = i
    · subst hi'
      have h1 : s.calls.countP (·.id == s.next) = 0 := by
        rw [List.countP_eq_zero]
        intro o ho
        have := (hi.waits o (.calls ho)).1
        simp; omega
      have h2 : s.queue.countP (·.id == s.next) = 0 := by
        rw [List.countP_eq_zero]
        intro o ho
        have := (hi.waits o (.queue ho)).1
        simp; omega
      have h3 : s.workers.countP (Worker.hasId s.next) = 0 := by
        rw [List.countP_eq_zero]
        intro w hw
        cases w with
        | idle => simp [Worker.hasId, Worker.op]
        | gone => simp [Worker.hasId, Worker.op]
        | took o => have := (hi.waits o (.took hw)).1; simp [Worker.hasId, Worker.op]; omega
        | waiting o => have := (hi.waits o (.waiting hw)).1; simp [Worker.hasId, Worker.op]; omega
        | running o => have := (hi.waits o (.running hw)).1; simp [Worker.hasId, Worker.op]; omega
        | ran o r => have := (hi.ran o r hw).1; simp [Worker.hasId, Worker.op]; omega
      rw [h1, h2, h3]; simp
    · have : (s.next == i) = false := by simpa using hi'
      simp only [this]; simp; omega
  · intro o ho
    have old : s.Waits o → _ := fun hw => hi.waits o hw
    have lift : (o.id < s.next ∧ .call (.op o.id) o.kind ∈ h ∧ ∀ k r, Lab.act (.op o.id) k r ∉ h) →
        (o.id < (s.start k p).1.next ∧ .call (.op o.id) o.kind ∈ h ++ (s.start k p).2 ∧ ∀ k' r, Lab.act (.op o.id) k' r ∉ h ++ (s.start k p).2) := by
      intro ⟨a, b, c⟩
      refine ⟨by simp only [St.start]; omega, by simp [b], ?_⟩
      intro k' r hm
      simp only [St.start, List.mem_append, List.mem_singleton, reduceCtorEq, or_false] at hm
      exact c k' r hm
    cases ho with
    | calls hc =>
      simp only [St.start, List.mem_append, List.mem_singleton] at hc
      rcases hc with hc | rfl
      · exact lift (old (.calls hc))
      · refine ⟨by simp [St.start], by simp [St.start], ?_⟩
        intro k' r hm
        simp only [St.start, List.mem_append, List.mem_singleton, reduceCtorEq, or_false] at hm
        exact hnew _ hm rfl
    | queue hc => exact lift (old (.queue hc))
    | took hc => exact lift (old (.took hc))
    | waiting hc => exact lift (old (.waiting hc))
    | running hc => exact lift (old (.running hc))
  · intro o r ho
    have := hi.ran o r ho
    exact ⟨by simp only [St.start]; omega, List.mem_append_left _ this.2⟩
  · intro x hx
    rcases List.mem_append.1 hx with hx | hx
    · have := hi.new x hx
      cases hx' : x.id with
      | op n => rw [hx'] at this; simp only [St.start] at this ⊢; omega
      | direct n => rw [hx'] at this; exact this
    · simp only [St.start, List.mem_singleton] at hx
      subst hx
      simp [Lab.id, St.start]
  · intro i t hg
    by_cases hie : i = s.next
    · subst hie
      refine ⟨by simp [St.start], ⟨k, by simp [St.start]⟩, ?_⟩
      intro r hm
      simp only [St.start, List.mem_append, List.mem_singleton, reduceCtorEq, or_false] at hm
      exact hnew _ hm rfl
    · obtain ⟨a, ⟨k', b⟩, c⟩ := hi.pend i t (hops i t hg hie)
      refine ⟨by simp only [St.start]; omega, ⟨k', by simp [b]⟩, ?_⟩
      intro r hm
      simp only [St.start, List.mem_append, List.mem_singleton, reduceCtorEq, or_false] at hm
      exact c r hm
  · intro c hc
    obtain ⟨a, b, d, e⟩ := hi.directs c hc
    refine ⟨a, by simp [b], ?_, ?_⟩
    · intro k' r hm
      simp only [St.start, List.mem_append, List.mem_singleton, reduceCtorEq, or_false] at hm
      exact d k' r hm
    · intro r hm
      simp only [St.start, List.mem_append, List.mem_singleton, reduceCtorEq, or_false] at hm
      exact e r hm
  · simp only [St.start]
    apply AMap.wf_set
    split
    · exact wf_filter hi.wf _
    · exact hi.wf
  · exact hi.oneDirect
  · refine hi.placed.snoc ?_
    intro x hx
    refine ⟨?_, ?_, ?_⟩ <;> (intros; rintro rfl; exact hnew _ hx rfl)

/-- An answer to a pending operation. -/
theorem Inv.answer {s : St} {h : List Lab} (hi : Inv s h) {i t : Nat} (hp : s.ops.get i = some (.pending t)) (v : Status) (hv : ∀ t, v ≠ .pending t) (r : Res)
    (hr : ∀ d, r = .ok d → ∃ k, Lab.act (.op i) k (.ok d) ∈ h) :
    Inv { s with ops := s.ops.set i v } (h ++ [.ret (.op i) r]) := by
  obtain ⟨h1, h2, h3⟩ := hi.pend i t hp
  have hmem : ∀ {x}, x ∈ h ++ [Lab.ret (.op i) r] → (∀ j q, x ≠ .ret j q) → x ∈ h := by
    intro x hx hne
    rcases List.mem_append.1 hx with hx | hx
    · exact hx
    · rw [List.mem_singleton] at hx; exact absurd hx (hne _ _)
  constructor
  · exact hi.one
  · intro o ho
    obtain ⟨a, b, c⟩ := hi.waits o (waits_congr ho rfl rfl rfl)
    exact ⟨a, by simp [b], fun k q hm => c k q (hmem hm (by simp))⟩
  · intro o q ho
    obtain ⟨a, b⟩ := hi.ran o q ho
    exact ⟨a, by simp [b]⟩
  · intro x hx
    rcases List.mem_append.1 hx with hx | hx
    · exact hi.new x hx
    · rw [List.mem_singleton] at hx; subst hx; exact h1
  · intro j u hg
    by_cases hj : j = i
    · subst hj; rw [AMap.get_set_self] at hg; cases hg; exact absurd rfl (hv _)
    · rw [AMap.get_set_ne _ _ (fun e => hj e.symm)] at hg
      obtain ⟨a, ⟨k, b⟩, c⟩ := hi.pend j u hg
      refine ⟨a, ⟨k, by simp [b]⟩, ?_⟩
      intro q hm
      rcases List.mem_append.1 hm with hm | hm
      · exact c q hm
      · rw [List.mem_singleton] at hm; cases hm; exact hj rfl
  · intro c hc
    obtain ⟨a, b, d, e⟩ := hi.directs c hc
    refine ⟨a, by simp [b], fun k q hm => d k q (hmem hm (by simp)), ?_⟩
    intro q hm
    rcases List.mem_append.1 hm with hm | hm
    · exact e q hm
    · rw [List.mem_singleton] at hm; cases hm
  · exact AMap.wf_set hi.wf _ _
  · exact hi.oneDirect
  · exact hi.placed.snoc ⟨h2, h3, hr⟩

theorem Inv.complete {s : St} {h : List Lab} (hi : Inv s h) (i : Nat) (r : Res) (hr : ∀ d, r = .ok d → ∃ k, Lab.act (.op i) k (.ok d) ∈ h) :
    Inv (s.complete i r).1 (h ++ (s.complete i r).2) := by
  unfold St.complete
  split
  · rename_i t hp
    exact hi.answer hp _ (by simp) r hr
  · simpa using hi

theorem Inv.cancel {s : St} {h : List Lab} (hi : Inv s h) (i : Nat) : Inv (s.cancel i).1 (h ++ (s.cancel i).2) := by
  unfold St.cancel
  split
  · rename_i t hp
    exact hi.answer hp _ (by simp) .err (by simp)
  · simpa using hi

theorem Inv.enqueue {s s' : St} {h : List Lab} {n : Nat} (hi : Inv s h) (he : s.enqueue n = some s') : Inv s' h := by
  unfold St.enqueue at he
  cases ho : s.calls[n]? with
  | none => rw [ho] at he; cases he
  | some o =>
    rw [ho] at he
    cases he
    refine hi.of_sub ?_ ?_ (fun _ _ h => h) rfl rfl rfl (fun _ _ h => h) hi.wf
    · intro i
      have := countP_eraseIdx (·.id == i) ho
      simp only [St.cnt, List.countP_append, List.countP_cons, List.countP_nil] at this ⊢
      omega
    · intro p hp
      cases hp with
      | calls h => exact ⟨p, .calls (List.mem_of_mem_eraseIdx h), rfl, rfl⟩
      | queue h =>
        rcases List.mem_append.1 h with h | h
        · exact ⟨p, .queue h, rfl, rfl⟩
        · rw [List.mem_singleton] at h; subst h; exact ⟨o, .calls (mem_get ho), rfl, rfl⟩
      | took h => exact ⟨p, .took h, rfl, rfl⟩
      | waiting h => exact ⟨p, .waiting h, rfl, rfl⟩
      | running h => exact ⟨p, .running h, rfl, rfl⟩

theorem take_some {s s' : St} {w n : Nat} (he : s.take w n = some s') : ∃ o, s.workers[w]? = some .idle ∧ s.queue[n]? = some o ∧
    (∀ p ∈ s.queue, p.gt o = false) ∧ s' = { s with queue := s.queue.eraseIdx n, workers := s.workers.set w (.took o) } := by
  unfold St.take at he
  split at he
  · rename_i o hw hq
    split at he
    · rename_i ha
      cases he
      refine ⟨o, hw, hq, ?_, rfl⟩
      intro p hp
      have := List.all_eq_true.1 ha p hp
      simpa using this
    · cases he
  · cases he

theorem Inv.take {s s' : St} {h : List Lab} {w n : Nat} (hi : Inv s h) (he : s.take w n = some s') : Inv s' h := by
  obtain ⟨o, hw, hq, -, rfl⟩ := take_some he
  refine hi.of_sub ?_ ?_ ?_ rfl rfl rfl (fun _ _ h => h) hi.wf
  · intro i
    have h1 := countP_eraseIdx (·.id == i) hq
    have h2 := countP_set (Worker.hasId i) (.took o) hw
    simp only [Worker.hasId, Worker.op, Bool.false_eq_true, ↓reduceIte, Nat.add_zero] at h1 h2
    simp only [St.cnt]
    show _ + _ + List.countP (Worker.hasId i) _ ≤ _ + _ + List.countP (Worker.hasId i) _
    have h3 : List.countP (Worker.hasId i) (s.workers.set w (.took o)) = List.countP (Worker.hasId i) s.workers + if (o.id == i) = true then 1 else 0 := h2
    omega
  · intro p hp
    refine ⟨p, ?_, rfl, rfl⟩
    cases hp with
    | calls h => exact .calls h
    | queue h => exact .queue (List.mem_of_mem_eraseIdx h)
    | took h =>
      rcases mem_set_cases h with h | h
      · cases h; exact .queue (mem_get hq)
      · exact .took h
    | waiting h =>
      rcases mem_set_cases h with h | h
      · cases h
      · exact .waiting h
    | running h =>
      rcases mem_set_cases h with h | h
      · cases h
      · exact .running h
  · intro p r h
    rcases mem_set_cases h with h | h
    · cases h
    · exact h

theorem check_some {s s' : St} {w : Nat} (he : s.check w = some s') : ∃ o, s.workers[w]? = some (.took o) ∧
    s' = { s with workers := s.workers.set w (if s.pending o.id then .waiting o else .idle) } := by
  unfold St.check at he
  split at he
  · rename_i o hw; cases he; exact ⟨o, hw, rfl⟩
  · cases he

theorem permit_some {s s' : St} {w : Nat} (he : s.permit w = some s') : ∃ o, s.workers[w]? = some (.waiting o) ∧ s.permits ≠ 0 ∧
    s' = { s with permits := s.permits - 1, workers := s.workers.set w (.running o) } := by
  unfold St.permit at he
  split at he
  · rename_i o hw
    split at he
    · cases he
    · rename_i hp; cases he; exact ⟨o, hw, hp, rfl⟩
  · cases he

theorem exec_some {s s' : St} {w : Nat} {cut : Option Nat} {l : List Lab} (he : s.exec w cut = some (s', l)) : ∃ o, s.workers[w]? = some (.running o) ∧
    s' = { s with files := (s.files.exec o.kind cut).1, workers := s.workers.set w (.ran o (s.files.exec o.kind cut).2) } ∧
    l = [.act (.op o.id) o.kind (s.files.exec o.kind cut).2] := by
  unfold St.exec at he
  split at he
  · rename_i o hw; cases he; exact ⟨o, hw, rfl, rfl⟩
  · cases he

theorem finish_some {s s' : St} {w : Nat} {l : List Lab} (he : s.finish w = some (s', l)) : ∃ o r, s.workers[w]? = some (.ran o r) ∧
    (s', l) = ({ s with permits := s.permits + 1, workers := s.workers.set w .idle } : St).complete o.id r := by
  unfold St.finish at he
  split at he
  · rename_i o r hw; exact ⟨o, r, hw, (Option.some.inj he).symm⟩
  · cases he

theorem exit_some {s s' : St} {w : Nat} (he : s.exit w = some s') : s.workers[w]? = some .idle ∧ s.stop = true ∧ s' = { s with workers := s.workers.set w .gone } := by
  unfold St.exit at he
  split at he
  · rename_i hw
    split at he
    · rename_i hs; cases he; exact ⟨hw, hs, rfl⟩
    · cases he
  · cases he

theorem abort_some {s s' : St} {w : Nat} (he : s.abort w = some s') : ∃ k, s.workers[w]? = some k ∧
    s' = { s with workers := s.workers.set w .gone, permits := if k.holds then s.permits + 1 else s.permits } := by
  unfold St.abort at he
  cases hk : s.workers[w]? with
  | none => rw [hk] at he; cases he
  | some k => rw [hk] at he; cases he; exact ⟨k, rfl, rfl⟩

theorem directExec_some {s s' : St} {n : Nat} {cut : Option Nat} {l : List Lab} (he : s.directExec n cut = some (s', l)) : ∃ c, s.directs[n]? = some c ∧
    s' = { s with files := (s.files.exec c.2 cut).1, directs := s.directs.eraseIdx n } ∧
    l = [.act (.direct c.1) c.2 (s.files.exec c.2 cut).2, .ret (.direct c.1) (s.files.exec c.2 cut).2] := by
  unfold St.directExec at he
  cases hk : s.directs[n]? with
  | none => rw [hk] at he; cases he
  | some c => rw [hk] at he; cases he; exact ⟨c, rfl, rfl, rfl⟩

/-- The id of an operation a worker is about to execute is held nowhere else. -/
theorem Inv.unique {s : St} {h : List Lab} {w : Nat} {k : Worker} {o : Op} (hi : Inv s h) (hw : s.workers[w]? = some k) (ho : k.op = some o) (x : Worker)
    (hx : x.op = none) (i : Nat) (hie : i = o.id) :
    s.calls.countP (·.id == i) = 0 ∧ s.queue.countP (·.id == i) = 0 ∧ (s.workers.set w x).countP (Worker.hasId i) = 0 := by
  subst hie
  have h1 := hi.one o.id
  have h2 := countP_set (Worker.hasId o.id) x hw
  have hx' : Worker.hasId o.id x = false := by simp [Worker.hasId, hx]
  have hk' : Worker.hasId o.id k = true := by simp [Worker.hasId, ho]
  simp only [hx', hk', Bool.false_eq_true, ↓reduceIte] at h2
  simp only [St.cnt] at h1
  omega

theorem Inv.exec {s s' : St} {h l : List Lab} {w : Nat} {cut : Option Nat} (hi : Inv s h) (he : s.exec w cut = some (s', l)) : Inv s' (h ++ l) := by
  obtain ⟨o, hw, rfl, rfl⟩ := exec_some he
  generalize s.files.exec o.kind cut = fr
  obtain ⟨a, b, c⟩ := hi.waits o (.running (mem_get hw))
  obtain ⟨u1, u2, u3⟩ := hi.unique hw rfl .idle rfl o.id rfl
  rw [List.countP_eq_zero] at u1 u2 u3
  have hother : ∀ p, St.Waits { s with files := fr.1, workers := s.workers.set w (.ran o fr.2) } p → s.Waits p ∧ p.id ≠ o.id := by
    intro p hp
    have hget : ∀ y, y ∈ s.workers.set w (.ran o fr.2) → y ≠ .ran o fr.2 → y ∈ s.workers ∧ y ∈ s.workers.set w .idle := by
      intro y hy hne
      refine ⟨(mem_set_cases hy).resolve_left hne, ?_⟩
      obtain ⟨j, hj, hjy⟩ := List.mem_iff_getElem.1 hy
      by_cases hjw : w = j
      · subst hjw; rw [List.getElem_set_self] at hjy; exact absurd hjy.symm hne
      · rw [List.getElem_set_ne hjw] at hjy
        have hj' : j < (s.workers.set w .idle).length := by simpa using hj
        have : (s.workers.set w .idle)[j] = y := by rw [List.getElem_set_ne hjw]; exact hjy
        exact List.mem_iff_getElem.2 ⟨j, hj', this⟩
    have hne : ∀ {y}, y ∈ s.workers.set w .idle → y.op = some p → p.id ≠ o.id := by
      intro y hy hyo e
      have := u3 y hy
      simp [Worker.hasId, hyo, e] at this
    cases hp with
    | calls h => exact ⟨.calls h, fun e => by have := u1 p h; simp [e] at this⟩
    | queue h => exact ⟨.queue h, fun e => by have := u2 p h; simp [e] at this⟩
    | took h => exact ⟨.took (hget _ h (by simp)).1, hne (hget _ h (by simp)).2 rfl⟩
    | waiting h => exact ⟨.waiting (hget _ h (by simp)).1, hne (hget _ h (by simp)).2 rfl⟩
    | running h => exact ⟨.running (hget _ h (by simp)).1, hne (hget _ h (by simp)).2 rfl⟩
  have hmem : ∀ {x}, x ∈ h ++ [Lab.act (.op o.id) o.kind fr.2] → x ≠ .act (.op o.id) o.kind fr.2 → x ∈ h := by
    intro x hx hne
    rcases List.mem_append.1 hx with hx | hx
    · exact hx
    · rw [List.mem_singleton] at hx; exact absurd hx hne
  constructor
  · intro i
    have h1 := hi.one i
    have h2 := countP_set (Worker.hasId i) (.ran o fr.2) hw
    have : Worker.hasId i (.ran o fr.2) = Worker.hasId i (.running o) := rfl
    rw [this] at h2
    simp only [St.cnt] at h1 ⊢
    omega
  · intro p hp
    obtain ⟨hp1, hp2⟩ := hother p hp
    obtain ⟨a', b', c'⟩ := hi.waits p hp1
    refine ⟨a', List.mem_append_left _ b', ?_⟩
    intro k r hm
    exact c' k r (hmem hm (by intro e; injection e with e _ _; injection e with e; exact hp2 e))
  · intro p r hp
    rcases mem_set_cases hp with hp | hp
    · cases hp; exact ⟨a, by simp⟩
    · obtain ⟨a', b'⟩ := hi.ran p r hp
      exact ⟨a', List.mem_append_left _ b'⟩
  · intro x hx
    rcases List.mem_append.1 hx with hx | hx
    · exact hi.new x hx
    · rw [List.mem_singleton] at hx; subst hx; exact a
  · intro i t hg
    obtain ⟨a', ⟨k, b'⟩, c'⟩ := hi.pend i t hg
    exact ⟨a', ⟨k, List.mem_append_left _ b'⟩, fun r hm => c' r (hmem hm (by simp))⟩
  · intro d hd
    obtain ⟨a', b', c', d'⟩ := hi.directs d hd
    exact ⟨a', List.mem_append_left _ b', fun k r hm => c' k r (hmem hm (by rintro e; cases e)), fun r hm => d' r (hmem hm (by simp))⟩
  · exact hi.wf
  · exact hi.oneDirect
  · exact hi.placed.snoc ⟨b, c⟩

theorem Inv.finish {s s' : St} {h l : List Lab} {w : Nat} (hi : Inv s h) (he : s.finish w = some (s', l)) : Inv s' (h ++ l) := by
  obtain ⟨o, r, hw, e⟩ := finish_some he
  have hi' : Inv ({ s with permits := s.permits + 1, workers := s.workers.set w .idle } : St) h :=
    hi.set_worker hw (.inl rfl) (by simp) (fun _ _ _ => rfl) rfl rfl rfl rfl rfl rfl rfl
  have := hi'.complete o.id r (by rintro d rfl; exact ⟨_, (hi.ran o _ (mem_get hw)).2⟩)
  rw [← e] at this
  exact this

theorem Inv.direct {s : St} {h : List Lab} (hi : Inv s h) (k : Kind) :
    Inv { s with directs := s.directs ++ [(s.nextDirect, k)], nextDirect := s.nextDirect + 1 } (h ++ [.call (.direct s.nextDirect) k]) := by
  have hnew : ∀ x ∈ h, x.id ≠ .direct s.nextDirect := by
    intro x hx e
    have := hi.new x hx
    rw [e] at this
    exact Nat.lt_irrefl _ this
  have hmem : ∀ {x}, x ∈ h ++ [Lab.call (.direct s.nextDirect) k] → (∀ i k, x ≠ .call i k) → x ∈ h := by
    intro x hx hne
    rcases List.mem_append.1 hx with hx | hx
    · exact hx
    · rw [List.mem_singleton] at hx; exact absurd hx (hne _ _)
  constructor
  · exact hi.one
  · intro o ho
    obtain ⟨a, b, c⟩ := hi.waits o (waits_congr ho rfl rfl rfl)
    exact ⟨a, List.mem_append_left _ b, fun k r hm => c k r (hmem hm (by simp))⟩
  · intro o r ho
    obtain ⟨a, b⟩ := hi.ran o r ho
    exact ⟨a, List.mem_append_left _ b⟩
  · intro x hx
    rcases List.mem_append.1 hx with hx | hx
    · have := hi.new x hx
      cases hx' : x.id with
      | op n => rw [hx'] at this; exact this
      | direct n => rw [hx'] at this; simp only at this ⊢; omega
    · rw [List.mem_singleton] at hx; subst hx; simp [Lab.id]
  · intro i t hg
    obtain ⟨a, ⟨k', b⟩, c⟩ := hi.pend i t hg
    exact ⟨a, ⟨k', List.mem_append_left _ b⟩, fun r hm => c r (hmem hm (by simp))⟩
  · intro c hc
    rcases List.mem_append.1 hc with hc | hc
    · obtain ⟨a, b, d, e⟩ := hi.directs c hc
      exact ⟨by simp only; omega, List.mem_append_left _ b, fun k' r hm => d k' r (hmem hm (by simp)), fun r hm => e r (hmem hm (by simp))⟩
    · rw [List.mem_singleton] at hc; subst hc
      exact ⟨by simp, by simp, fun k' r hm => hnew _ (hmem hm (by simp)) rfl, fun r hm => hnew _ (hmem hm (by simp)) rfl⟩
  · exact hi.wf
  · intro i
    have := hi.oneDirect i
    simp only [List.countP_append, List.countP_cons, List.countP_nil]
    by_cases hie : s.nextDirect = i
    · subst hie
      have h0 : s.directs.countP (·.1 == s.nextDirect) = 0 := by
        rw [List.countP_eq_zero]
        intro c hc
        have := (hi.directs c hc).1
        simp; omega
      rw [h0]; simp
    · have : (s.nextDirect == i) = false := by simpa using hie
      simp only [this]; simp; omega
  · refine hi.placed.snoc ?_
    intro x hx
    refine ⟨?_, ?_, ?_⟩ <;> (intros; rintro rfl; exact hnew _ hx rfl)

theorem Inv.directExec {s s' : St} {h l : List Lab} {n : Nat} {cut : Option Nat} (hi : Inv s h) (he : s.directExec n cut = some (s', l)) : Inv s' (h ++ l) := by
  obtain ⟨c, hc, rfl, rfl⟩ := directExec_some he
  generalize s.files.exec c.2 cut = fr
  obtain ⟨a, b, d, e⟩ := hi.directs c (mem_get hc)
  have h1 := countP_eraseIdx (·.1 == c.1) hc
  have h2 := hi.oneDirect c.1
  simp only [beq_self_eq_true, ↓reduceIte] at h1
  have h3 : (s.directs.eraseIdx n).countP (·.1 == c.1) = 0 := by omega
  rw [List.countP_eq_zero] at h3
  have hmem : ∀ {x}, x ∈ h ++ [Lab.act (.direct c.1) c.2 fr.2, .ret (.direct c.1) fr.2] → x.id ≠ .direct c.1 → x ∈ h := by
    intro x hx hne
    rcases List.mem_append.1 hx with hx | hx
    · exact hx
    · simp only [List.mem_cons, List.not_mem_nil, or_false] at hx
      rcases hx with rfl | rfl <;> exact absurd rfl hne
  constructor
  · exact hi.one
  · intro o ho
    obtain ⟨a', b', c'⟩ := hi.waits o (waits_congr ho rfl rfl rfl)
    exact ⟨a', List.mem_append_left _ b', fun k r hm => c' k r (hmem hm (by simp [Lab.id]))⟩
  · intro o r ho
    obtain ⟨a', b'⟩ := hi.ran o r ho
    exact ⟨a', List.mem_append_left _ b'⟩
  · intro x hx
    by_cases hxi : x.id = .direct c.1
    · rw [hxi]; exact a
    · exact hi.new x (hmem hx hxi)
  · intro i t hg
    obtain ⟨a', ⟨k', b'⟩, c'⟩ := hi.pend i t hg
    exact ⟨a', ⟨k', List.mem_append_left _ b'⟩, fun r hm => c' r (hmem hm (by simp [Lab.id]))⟩
  · intro x hx
    have hne : x.1 ≠ c.1 := by have := h3 x hx; simpa using this
    obtain ⟨a', b', d', e'⟩ := hi.directs x (List.mem_of_mem_eraseIdx hx)
    refine ⟨a', List.mem_append_left _ b', fun k r hm => d' k r (hmem hm ?_), fun r hm => e' r (hmem hm ?_)⟩ <;> simpa [Lab.id] using hne
  · exact hi.wf
  · intro i
    have := countP_eraseIdx (·.1 == i) hc
    have := hi.oneDirect i
    show (s.directs.eraseIdx n).countP (·.1 == i) ≤ 1
    omega
  · have p1 : Placed (h ++ [Lab.act (.direct c.1) c.2 fr.2]) := hi.placed.snoc ⟨b, d⟩
    have p2 := p1.snoc (x := .ret (.direct c.1) fr.2) ⟨⟨c.2, by simp [b]⟩, by
      intro r hm
      rcases List.mem_append.1 hm with hm | hm
      · exact e r hm
      · simp at hm, by
      intro dd hdd
      exact ⟨c.2, by simp [hdd]⟩⟩
    simpa using p2

theorem Inv.step {s s' : St} {h l : List Lab} {ev : Ev} (hi : Inv s h) (he : s.step ev = some (s', l)) : Inv s' (h ++ l) := by
  cases ev with
  | tick n => cases he; simpa using hi.frame (s' := { s with now := s.now + n }) rfl rfl rfl rfl rfl rfl rfl
  | spawn n =>
    cases he
    rw [List.append_nil]
    refine hi.of_sub ?_ ?_ ?_ rfl rfl rfl (fun _ _ h => h) hi.wf
    · intro i
      have : (List.replicate n Worker.idle).countP (Worker.hasId i) = 0 := by
        rw [List.countP_eq_zero]; intro w hw; rw [List.eq_of_mem_replicate hw]; simp [Worker.hasId, Worker.op]
      simp [St.cnt, List.countP_append, this]
    · intro o ho
      have key : ∀ {w : Worker}, w ∈ s.workers ++ List.replicate n .idle → w ≠ .idle → w ∈ s.workers := by
        intro w hw hne
        rcases List.mem_append.1 hw with hw | hw
        · exact hw
        · exact absurd (List.eq_of_mem_replicate hw) hne
      refine ⟨o, ?_, rfl, rfl⟩
      cases ho with
      | calls h => exact .calls h
      | queue h => exact .queue h
      | took h => exact .took (key h (by simp))
      | waiting h => exact .waiting (key h (by simp))
      | running h => exact .running (key h (by simp))
    · intro o r ho
      rcases List.mem_append.1 ho with ho | ho
      · exact ho
      · cases List.eq_of_mem_replicate ho
  | start k p => cases he; exact hi.start k p
  | enqueue n =>
    simp only [St.step, Option.map_eq_some_iff] at he
    obtain ⟨s1, h1, h2⟩ := he
    cases h2
    simpa using hi.enqueue h1
  | take w n =>
    simp only [St.step, Option.map_eq_some_iff] at he
    obtain ⟨s1, h1, h2⟩ := he
    cases h2
    simpa using hi.take h1
  | check w =>
    simp only [St.step, Option.map_eq_some_iff] at he
    obtain ⟨s1, h1, h2⟩ := he
    cases h2
    obtain ⟨o, hw, rfl⟩ := check_some h1
    rw [List.append_nil]
    refine hi.set_worker hw ?_ ?_ ?_ rfl rfl rfl rfl rfl rfl rfl
    · split
      · exact .inr rfl
      · exact .inl rfl
    · intro o r; split <;> simp
    · intro o r h; cases h
  | permit w =>
    simp only [St.step, Option.map_eq_some_iff] at he
    obtain ⟨s1, h1, h2⟩ := he
    cases h2
    obtain ⟨o, hw, -, rfl⟩ := permit_some h1
    rw [List.append_nil]
    exact hi.set_worker (k' := .running o) hw (.inr rfl) (by simp) (by intro o r h; cases h) rfl rfl rfl rfl rfl rfl rfl
  | exec w cut => exact hi.exec he
  | finish w => exact hi.finish he
  | cancel i =>
    have e := Option.some.inj he
    have := hi.cancel i
    rw [e] at this
    exact this
  | drain =>
    cases he
    rw [List.append_nil]
    refine hi.of_sub ?_ ?_ (fun _ _ h => h) rfl rfl rfl (fun _ _ h => h) hi.wf
    · intro i; simp only [St.cnt, List.countP_nil]; omega
    · intro o ho
      refine ⟨o, ?_, rfl, rfl⟩
      cases ho with
      | calls h => exact .calls h
      | queue h => simp at h
      | took h => exact .took h
      | waiting h => exact .waiting h
      | running h => exact .running h
  | expire i =>
    simp only [St.step] at he
    split at he
    · have e := Option.some.inj he
      have := hi.complete i .err (by simp)
      rw [e] at this
      exact this
    · cases he
  | cleanup =>
    cases he
    rw [List.append_nil]
    exact hi.of_sub (fun _ => Nat.le_refl _) (fun o ho => ⟨o, waits_congr ho rfl rfl rfl, rfl, rfl⟩) (fun _ _ h => h) rfl rfl rfl
      (fun _ _ h => get_filter_sub hi.wf _ h) (wf_filter hi.wf _)
  | signal => cases he; simpa using hi.frame (s' := { s with stop := true }) rfl rfl rfl rfl rfl rfl rfl
  | exit w =>
    simp only [St.step, Option.map_eq_some_iff] at he
    obtain ⟨s1, h1, h2⟩ := he
    cases h2
    obtain ⟨hw, -, rfl⟩ := exit_some h1
    rw [List.append_nil]
    exact hi.set_worker hw (.inl rfl) (by simp) (fun _ _ _ => rfl) rfl rfl rfl rfl rfl rfl rfl
  | abort w =>
    simp only [St.step, Option.map_eq_some_iff] at he
    obtain ⟨s1, h1, h2⟩ := he
    cases h2
    obtain ⟨k, hw, rfl⟩ := abort_some h1
    rw [List.append_nil]
    exact hi.set_worker hw (.inl rfl) (by simp) (fun _ _ _ => rfl) rfl rfl rfl rfl rfl rfl rfl
  | direct k => cases he; exact hi.direct k
  | directExec n cut => exact hi.directExec he

theorem inv_new (db log : Data) : Inv (St.new db log) [] where
  one i := by simp [St.cnt, St.new]
  waits o ho := by cases ho <;> simp [St.new] at *
  ran o r ho := by simp [St.new] at ho
  new x hx := by simp at hx
  pend i t h := by simp [St.new] at h
  directs c hc := by simp [St.new] at hc
  wf := by simp [St.new]
  oneDirect i := by simp [St.new]
  placed := placed_nil

theorem run_cons {s s'' : St} {e : Ev} {es : List Ev} {l : List Lab} (h : s.run (e :: es) = some (s'', l)) :
    ∃ s' l1 l2, s.step e = some (s', l1) ∧ s'.run es = some (s'', l2) ∧ l = l1 ++ l2 := by
  simp only [St.run] at h
  split at h
  · cases h
  · rename_i s' l1 h1
    split at h
    · cases h
    · rename_i s2 l2 h2
      cases h
      exact ⟨s', l1, l2, h1, h2, rfl⟩

theorem Inv.run {s s' : St} {h l : List Lab} {es : List Ev} (hi : Inv s h) (he : s.run es = some (s', l)) : Inv s' (h ++ l) := by
  induction es generalizing s h l with
  | nil => cases he; simpa using hi
  | cons e es ih =>
    obtain ⟨s1, l1, l2, h1, h2, rfl⟩ := run_cons he
    have := ih (hi.step h1) h2
    simpa using this

theorem run_append {s s' s'' : St} {l l' : List Lab} {es es' : List Ev} (h : s.run es = some (s', l)) (h' : s'.run es' = some (s'', l')) :
    s.run (es ++ es') = some (s'', l ++ l') := by
  induction es generalizing s l with
  | nil => cases h; simpa using h'
  | cons e es ih =>
    obtain ⟨s1, l1, l2, h1, h2, rfl⟩ := run_cons h
    simp only [List.cons_append, St.run, h1, ih h2, List.append_assoc]

end Verif.Io
