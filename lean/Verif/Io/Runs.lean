import Verif.Io.Inv

/-! What runs do to the files, and which calls are answered. -/

namespace Verif.Io

open Spec

/-! ## Files along a history -/

/-- The actions of a history, done by `Files.exec`. -/
inductive Execs : Files → List Lab → Files → Prop where
  | nil (f) : Execs f [] f
  | call {f l f'} (i k) : Execs f l f' → Execs f (.call i k :: l) f'
  | ret {f l f'} (i r) : Execs f l f' → Execs f (.ret i r :: l) f'
  | act {f l f'} (i k cut) : Execs (f.exec k cut).1 l f' → Execs f (.act i k (f.exec k cut).2 :: l) f'

theorem Execs.append {f g f' : Files} {l l' : List Lab} (h : Execs f l g) (h' : Execs g l' f') : Execs f (l ++ l') f' := by
  induction h with
  | nil => exact h'
  | call i k _ ih => exact .call i k (ih h')
  | ret i r _ ih => exact .ret i r (ih h')
  | act i k cut _ ih => exact .act i k cut (ih h')

theorem Execs.split {f f' : Files} {l l' : List Lab} (h : Execs f (l ++ l') f') : ∃ g, Execs f l g ∧ Execs g l' f' := by
  induction l generalizing f with
  | nil => exact ⟨f, .nil f, h⟩
  | cons x l ih =>
    cases h with
    | call i k h => obtain ⟨g, a, b⟩ := ih h; exact ⟨g, .call i k a, b⟩
    | ret i r h => obtain ⟨g, a, b⟩ := ih h; exact ⟨g, .ret i r a, b⟩
    | act i k cut h => obtain ⟨g, a, b⟩ := ih h; exact ⟨g, .act i k cut a, b⟩

theorem complete_files (s : St) (i : Nat) (r : Res) : (s.complete i r).1.files = s.files ∧ ((s.complete i r).2 = [] ∨ (s.complete i r).2 = [.ret (.op i) r]) := by
  unfold St.complete
  split
  · exact ⟨rfl, .inr rfl⟩
  · exact ⟨rfl, .inl rfl⟩

theorem cancel_files (s : St) (i : Nat) : (s.cancel i).1.files = s.files ∧ ((s.cancel i).2 = [] ∨ (s.cancel i).2 = [.ret (.op i) .err]) := by
  unfold St.cancel
  split
  · exact ⟨rfl, .inr rfl⟩
  · exact ⟨rfl, .inl rfl⟩

theorem Execs.act_inv {f f' : Files} {l : List Lab} {i : Id} {k : Kind} {r : Res} (h : Execs f (.act i k r :: l) f') : ∃ cut, r = (f.exec k cut).2 ∧ Execs (f.exec k cut).1 l f' := by
  cases h with
  | act _ _ cut h => exact ⟨cut, rfl, h⟩

theorem Execs.same {f : Files} {l : List Lab} {i : Id} {r : Res} (h : l = [] ∨ l = [.ret i r]) : Execs f l f := by
  rcases h with rfl | rfl
  · exact .nil _
  · exact .ret _ _ (.nil _)

theorem step_execs {s s' : St} {l : List Lab} {ev : Ev} (he : s.step ev = some (s', l)) : Execs s.files l s'.files := by
  cases ev with
  | tick n => cases he; exact .nil _
  | spawn n => cases he; exact .nil _
  | start k p => cases he; exact .call _ _ (.nil _)
  | enqueue n =>
    simp only [St.step, Option.map_eq_some_iff] at he
    obtain ⟨s1, h1, h2⟩ := he
    cases h2
    unfold St.enqueue at h1
    rw [Option.map_eq_some_iff] at h1
    obtain ⟨o, -, rfl⟩ := h1
    exact .nil _
  | take w n =>
    simp only [St.step, Option.map_eq_some_iff] at he
    obtain ⟨s1, h1, h2⟩ := he
    cases h2
    obtain ⟨o, -, -, -, rfl⟩ := take_some h1
    exact .nil _
  | check w =>
    simp only [St.step, Option.map_eq_some_iff] at he
    obtain ⟨s1, h1, h2⟩ := he
    cases h2
    obtain ⟨o, -, rfl⟩ := check_some h1
    exact .nil _
  | permit w =>
    simp only [St.step, Option.map_eq_some_iff] at he
    obtain ⟨s1, h1, h2⟩ := he
    cases h2
    obtain ⟨o, -, -, rfl⟩ := permit_some h1
    exact .nil _
  | exec w cut =>
    obtain ⟨o, -, rfl, rfl⟩ := exec_some he
    exact .act _ _ _ (.nil _)
  | finish w =>
    obtain ⟨o, r, -, e⟩ := finish_some he
    have := complete_files ({ s with permits := s.permits + 1, workers := s.workers.set w .idle } : St) o.id r
    rw [← e] at this
    rw [this.1]
    exact Execs.same this.2
  | cancel i =>
    have e := Option.some.inj he
    have := cancel_files s i
    rw [e] at this
    rw [this.1]
    exact Execs.same this.2
  | drain => cases he; exact .nil _
  | expire i =>
    simp only [St.step] at he
    split at he
    · have e := Option.some.inj he
      have := complete_files s i .err
      rw [e] at this
      rw [this.1]
      exact Execs.same this.2
    · cases he
  | cleanup => cases he; exact .nil _
  | signal => cases he; exact .nil _
  | exit w =>
    simp only [St.step, Option.map_eq_some_iff] at he
    obtain ⟨s1, h1, h2⟩ := he
    cases h2
    obtain ⟨-, -, rfl⟩ := exit_some h1
    exact .nil _
  | abort w =>
    simp only [St.step, Option.map_eq_some_iff] at he
    obtain ⟨s1, h1, h2⟩ := he
    cases h2
    obtain ⟨k, -, rfl⟩ := abort_some h1
    exact .nil _
  | direct k => cases he; exact .call _ _ (.nil _)
  | directExec n cut =>
    obtain ⟨c, -, rfl, rfl⟩ := directExec_some he
    exact .act _ _ _ (.ret _ _ (.nil _))

theorem run_execs {s s' : St} {l : List Lab} {es : List Ev} (he : s.run es = some (s', l)) : Execs s.files l s'.files := by
  induction es generalizing s l with
  | nil => cases he; exact .nil _
  | cons e es ih =>
    obtain ⟨s1, l1, l2, h1, h2, rfl⟩ := run_cons he
    exact (step_execs h1).append (ih h2)

theorem Execs.acts {f f' : Files} {l : List Lab} (h : Execs f l f') (hs : ∀ i k r, Lab.act i k r ∈ l → Small k) : Acts f.db f.log l f'.db f'.log := by
  induction h with
  | nil f => exact .nil _ _
  | call i k _ ih => exact .call _ _ (ih fun i k r hm => hs i k r (List.mem_cons_of_mem _ hm))
  | ret i r _ ih => exact .ret _ _ (ih fun i k r hm => hs i k r (List.mem_cons_of_mem _ hm))
  | @act f l f' i k cut _ ih =>
    exact .act _ _ _ (exec_act f k cut (hs i k _ List.mem_cons_self)) (ih fun i k r hm => hs i k r (List.mem_cons_of_mem _ hm))

/-- In a history every action has been called. -/
theorem Spec.Placed.called {h : List Lab} (hp : Placed h) {i : Id} {k : Kind} {r : Res} (ha : Lab.act i k r ∈ h) : Lab.call i k ∈ h := by
  obtain ⟨a, b, e⟩ := List.append_of_mem ha
  have := (hp a _ b e).1
  rw [e]
  exact List.mem_append_left _ this

/-! ## Answers -/

theorem pending_iff {s : St} {i : Nat} : s.pending i = true ↔ ∃ t, s.ops.get i = some (.pending t) := by
  unfold St.pending
  split
  · rename_i t h; simp [h]
  · rename_i h
    simp only [Bool.false_eq_true, false_iff]
    rintro ⟨t, ht⟩
    exact h t ht

/-- Operations that are not pending have been answered. -/
def Answered (s : St) (h : List Lab) : Prop := ∀ i k, Lab.call (.op i) k ∈ h → s.pending i = true ∨ ∃ r, Lab.ret (.op i) r ∈ h

theorem get_filter_pending {m : AMap Nat Status} (hw : AMap.WF m) (now : Nat) {i t : Nat} (h : m.get i = some (.pending t)) :
    AMap.get (K := Nat) (V := Status) (m.filter (keep now)) i = some (.pending t) := by
  apply AMap.get_of_mem (wf_filter hw _)
  rw [List.mem_filter]
  exact ⟨AMap.mem_of_get h, rfl⟩

theorem Answered.same {s s' : St} {h l : List Lab} (ha : Answered s h) (hl : ∀ i k, Lab.call (.op i) k ∉ l) (ho : ∀ i t, s.ops.get i = some (.pending t) → s'.ops.get i = some (.pending t)) :
    Answered s' (h ++ l) := by
  intro i k hm
  rcases ha i k ((List.mem_append.1 hm).resolve_right (hl i k)) with hp | ⟨r, hr⟩
  · obtain ⟨t, ht⟩ := pending_iff.1 hp
    exact .inl (pending_iff.2 ⟨t, ho i t ht⟩)
  · exact .inr ⟨r, List.mem_append_left _ hr⟩

theorem Answered.complete {s : St} {h : List Lab} (ha : Answered s h) (j : Nat) (r : Res) : Answered (s.complete j r).1 (h ++ (s.complete j r).2) := by
  unfold St.complete
  split
  · rename_i t hp
    intro i k hm
    have hm : Lab.call (.op i) k ∈ h := (List.mem_append.1 hm).resolve_right (by simp)
    by_cases hij : i = j
    · subst hij; exact .inr ⟨r, by simp⟩
    · rcases ha i k hm with hp' | ⟨r', hr⟩
      · obtain ⟨t', ht⟩ := pending_iff.1 hp'
        exact .inl (pending_iff.2 ⟨t', by show (s.ops.set j _).get i = _; rw [AMap.get_set_ne _ _ (fun e => hij e.symm)]; exact ht⟩)
      · exact .inr ⟨r', List.mem_append_left _ hr⟩
  · simpa using ha

theorem Answered.cancel {s : St} {h : List Lab} (ha : Answered s h) (j : Nat) : Answered (s.cancel j).1 (h ++ (s.cancel j).2) := by
  unfold St.cancel
  split
  · rename_i t hp
    intro i k hm
    have hm : Lab.call (.op i) k ∈ h := (List.mem_append.1 hm).resolve_right (by simp)
    by_cases hij : i = j
    · subst hij; exact .inr ⟨.err, by simp⟩
    · rcases ha i k hm with hp' | ⟨r', hr⟩
      · obtain ⟨t', ht⟩ := pending_iff.1 hp'
        exact .inl (pending_iff.2 ⟨t', by show (s.ops.set j _).get i = _; rw [AMap.get_set_ne _ _ (fun e => hij e.symm)]; exact ht⟩)
      · exact .inr ⟨r', List.mem_append_left _ hr⟩
  · simpa using ha

theorem Answered.step {s s' : St} {h l : List Lab} {ev : Ev} (ha : Answered s h) (hi : Inv s h) (he : s.step ev = some (s', l)) : Answered s' (h ++ l) := by
  cases ev with
  | tick n => cases he; exact ha.same (by simp) fun _ _ h => h
  | spawn n => cases he; exact ha.same (by simp) fun _ _ h => h
  | start k p =>
    cases he
    intro i k' hm
    by_cases hie : i = s.next
    · subst hie
      exact .inl (pending_iff.2 ⟨s.now, by simp [St.start]⟩)
    · have hm : Lab.call (.op i) k' ∈ h := by
        simp only [St.start, List.mem_append, List.mem_singleton] at hm
        rcases hm with hm | hm
        · exact hm
        · injection hm with e _; injection e with e; exact absurd e hie
      rcases ha i k' hm with hp | ⟨r, hr⟩
      · obtain ⟨t, ht⟩ := pending_iff.1 hp
        refine .inl (pending_iff.2 ⟨t, ?_⟩)
        simp only [St.start]
        rw [AMap.get_set_ne _ _ (fun e => hie e.symm)]
        split
        · exact get_filter_pending hi.wf _ ht
        · exact ht
      · exact .inr ⟨r, List.mem_append_left _ hr⟩
  | enqueue n =>
    simp only [St.step, Option.map_eq_some_iff] at he
    obtain ⟨s1, h1, h2⟩ := he
    cases h2
    unfold St.enqueue at h1
    rw [Option.map_eq_some_iff] at h1
    obtain ⟨o, -, rfl⟩ := h1
    exact ha.same (by simp) fun _ _ h => h
  | take w n =>
    simp only [St.step, Option.map_eq_some_iff] at he
    obtain ⟨s1, h1, h2⟩ := he
    cases h2
    obtain ⟨o, -, -, -, rfl⟩ := take_some h1
    exact ha.same (by simp) fun _ _ h => h
  | check w =>
    simp only [St.step, Option.map_eq_some_iff] at he
    obtain ⟨s1, h1, h2⟩ := he
    cases h2
    obtain ⟨o, -, rfl⟩ := check_some h1
    exact ha.same (by simp) fun _ _ h => h
  | permit w =>
    simp only [St.step, Option.map_eq_some_iff] at he
    obtain ⟨s1, h1, h2⟩ := he
    cases h2
    obtain ⟨o, -, -, rfl⟩ := permit_some h1
    exact ha.same (by simp) fun _ _ h => h
  | exec w cut =>
    obtain ⟨o, -, rfl, rfl⟩ := exec_some he
    exact ha.same (by simp) fun _ _ h => h
  | finish w =>
    obtain ⟨o, r, -, e⟩ := finish_some he
    have h0 : Answered ({ s with permits := s.permits + 1, workers := s.workers.set w .idle } : St) h := ha
    have := h0.complete o.id r
    rw [← e] at this
    exact this
  | cancel i =>
    have e := Option.some.inj he
    have := ha.cancel i
    rw [e] at this
    exact this
  | drain => cases he; exact ha.same (by simp) fun _ _ h => h
  | expire i =>
    simp only [St.step] at he
    split at he
    · have e := Option.some.inj he
      have := ha.complete i .err
      rw [e] at this
      exact this
    · cases he
  | cleanup => cases he; exact ha.same (by simp) fun _ _ h => get_filter_pending hi.wf _ h
  | signal => cases he; exact ha.same (by simp) fun _ _ h => h
  | exit w =>
    simp only [St.step, Option.map_eq_some_iff] at he
    obtain ⟨s1, h1, h2⟩ := he
    cases h2
    obtain ⟨-, -, rfl⟩ := exit_some h1
    exact ha.same (by simp) fun _ _ h => h
  | abort w =>
    simp only [St.step, Option.map_eq_some_iff] at he
    obtain ⟨s1, h1, h2⟩ := he
    cases h2
    obtain ⟨k, -, rfl⟩ := abort_some h1
    exact ha.same (by simp) fun _ _ h => h
  | direct k => cases he; exact ha.same (by simp) fun _ _ h => h
  | directExec n cut =>
    obtain ⟨c, -, rfl, rfl⟩ := directExec_some he
    exact ha.same (by simp) fun _ _ h => h

theorem Answered.run {s s' : St} {h l : List Lab} {es : List Ev} (ha : Answered s h) (hi : Inv s h) (he : s.run es = some (s', l)) : Answered s' (h ++ l) := by
  induction es generalizing s h l with
  | nil => cases he; simpa using ha
  | cons e es ih =>
    obtain ⟨s1, l1, l2, h1, h2, rfl⟩ := run_cons he
    have := ih (ha.step hi h1) (hi.step h1) h2
    simpa using this

theorem answered_new (db log : Data) : Answered (St.new db log) [] := by
  intro i k hm
  simp at hm

end Verif.Io
