import Verif.Latch.Spec

/-!
# Threads that take their locks in one order finish
-/

namespace Verif.Latch

variable {L σ : Type} [DecidableEq L]

/-! ## No schedule goes on for ever -/

/-- `t'` is `t` after a step. -/
def Thread.After (t' t : Thread L σ) : Prop :=
  (∃ f k w, t.prog = .act f k ∧ t'.prog = k w) ∨ (∃ l m k, t.prog = .unlock l m k ∧ t'.prog = k) ∨ (∃ l m k, t.prog = .lock l m k ∧ t'.prog = k) ∨
    (t'.prog = t.prog ∧ t.asked = false ∧ t'.asked = true)

theorem Thread.after_acc (p : Prog L σ) : ∀ t : Thread L σ, t.prog = p → Acc Thread.After t := by
  suffices h : ∀ p : Prog L σ, (∀ t : Thread L σ, t.prog = p → t.asked = true → Acc Thread.After t) ∧
      (∀ t : Thread L σ, t.prog = p → t.asked = false → Acc Thread.After t) by
    intro t ht
    cases ha : t.asked with
    | true => exact (h p).1 t ht ha
    | false => exact (h p).2 t ht ha
  intro p
  induction p with
  | done =>
    have h1 : ∀ t : Thread L σ, t.prog = .done → t.asked = true → Acc Thread.After t := by
      intro t ht ha
      refine Acc.intro _ fun t' hr => ?_
      rcases hr with ⟨f, k, w, h, _⟩ | ⟨l, m, k, h, _⟩ | ⟨l, m, k, h, _⟩ | ⟨_, h, _⟩ <;> simp_all
    refine ⟨h1, fun t ht ha => Acc.intro _ fun t' hr => ?_⟩
    rcases hr with ⟨f, k, w, h, _⟩ | ⟨l, m, k, h, _⟩ | ⟨l, m, k, h, _⟩ | ⟨h, _, h'⟩
    · simp_all
    · simp_all
    · simp_all
    · exact h1 t' (by rw [h, ht]) h'
  | lock l m k ih =>
    have ihk : ∀ t : Thread L σ, t.prog = k → Acc Thread.After t := fun t ht => by
      cases ha : t.asked with
      | true => exact ih.1 t ht ha
      | false => exact ih.2 t ht ha
    have h1 : ∀ t : Thread L σ, t.prog = .lock l m k → t.asked = true → Acc Thread.After t := by
      intro t ht ha
      refine Acc.intro _ fun t' hr => ?_
      rcases hr with ⟨f, k', w, h, _⟩ | ⟨l', m', k', h, _⟩ | ⟨l', m', k', h, h'⟩ | ⟨_, h, _⟩
      · simp_all
      · simp_all
      · rw [ht] at h
        injection h with _ _ h
        exact ihk t' (by rw [h', h])
      · simp_all
    refine ⟨h1, fun t ht ha => Acc.intro _ fun t' hr => ?_⟩
    rcases hr with ⟨f, k', w, h, _⟩ | ⟨l', m', k', h, _⟩ | ⟨l', m', k', h, h'⟩ | ⟨h, _, h'⟩
    · simp_all
    · simp_all
    · rw [ht] at h
      injection h with _ _ h
      exact ihk t' (by rw [h', h])
    · exact h1 t' (by rw [h, ht]) h'
  | unlock l m k ih =>
    have ihk : ∀ t : Thread L σ, t.prog = k → Acc Thread.After t := fun t ht => by
      cases ha : t.asked with
      | true => exact ih.1 t ht ha
      | false => exact ih.2 t ht ha
    have h1 : ∀ t : Thread L σ, t.prog = .unlock l m k → t.asked = true → Acc Thread.After t := by
      intro t ht ha
      refine Acc.intro _ fun t' hr => ?_
      rcases hr with ⟨f, k', w, h, _⟩ | ⟨l', m', k', h, h'⟩ | ⟨l', m', k', h, _⟩ | ⟨_, h, _⟩
      · simp_all
      · rw [ht] at h
        injection h with _ _ h
        exact ihk t' (by rw [h', h])
      · simp_all
      · simp_all
    refine ⟨h1, fun t ht ha => Acc.intro _ fun t' hr => ?_⟩
    rcases hr with ⟨f, k', w, h, _⟩ | ⟨l', m', k', h, h'⟩ | ⟨l', m', k', h, _⟩ | ⟨h, _, h'⟩
    · simp_all
    · rw [ht] at h
      injection h with _ _ h
      exact ihk t' (by rw [h', h])
    · simp_all
    · exact h1 t' (by rw [h, ht]) h'
  | act f k ih =>
    have ihk : ∀ w, ∀ t : Thread L σ, t.prog = k w → Acc Thread.After t := fun w t ht => by
      cases ha : t.asked with
      | true => exact (ih w).1 t ht ha
      | false => exact (ih w).2 t ht ha
    have h1 : ∀ t : Thread L σ, t.prog = .act f k → t.asked = true → Acc Thread.After t := by
      intro t ht ha
      refine Acc.intro _ fun t' hr => ?_
      rcases hr with ⟨f', k', w, h, h'⟩ | ⟨l', m', k', h, _⟩ | ⟨l', m', k', h, _⟩ | ⟨_, h, _⟩
      · rw [ht] at h
        injection h with _ h
        exact ihk w t' (by rw [h', h])
      · simp_all
      · simp_all
      · simp_all
    refine ⟨h1, fun t ht ha => Acc.intro _ fun t' hr => ?_⟩
    rcases hr with ⟨f', k', w, h, h'⟩ | ⟨l', m', k', h, _⟩ | ⟨l', m', k', h, _⟩ | ⟨h, _, h'⟩
    · rw [ht] at h
      injection h with _ h
      exact ihk w t' (by rw [h', h])
    · simp_all
    · simp_all
    · exact h1 t' (by rw [h, ht]) h'

/-- One element of the list has gone down. -/
inductive OneDown {α : Type} (r : α → α → Prop) : List α → List α → Prop where
  | head {a' a as} : r a' a → OneDown r (a' :: as) (a :: as)
  | tail {a as' as} : OneDown r as' as → OneDown r (a :: as') (a :: as)

theorem OneDown.acc {α : Type} {r : α → α → Prop} : ∀ as : List α, (∀ a, Acc r a) → Acc (OneDown r) as := by
  intro as hr
  induction as with
  | nil => exact Acc.intro _ fun _ h => by cases h
  | cons a as ih =>
    have : ∀ a, Acc r a → ∀ as, Acc (OneDown r) as → Acc (OneDown r) (a :: as) := by
      intro a ha
      induction ha with
      | intro a _ iha =>
        intro as has
        induction has with
        | intro as hacc ihas =>
          refine Acc.intro _ fun x hx => ?_
          cases hx with
          | head h => exact iha _ h as (Acc.intro as hacc)
          | tail h => exact ihas _ h
    exact this a (hr a) as ih

theorem OneDown.set {α : Type} {r : α → α → Prop} : ∀ (as : List α) (i : Nat) (a a' : α), as[i]? = some a → r a' a → OneDown r (as.set i a') as
  | [], _, _, _, h, _ => by simp at h
  | x :: xs, 0, a, a', h, hr => by
    simp only [List.getElem?_cons_zero, Option.some.injEq] at h
    subst h
    exact .head hr
  | x :: xs, i + 1, a, a', h, hr => by
    simp only [List.getElem?_cons_succ] at h
    exact .tail (OneDown.set xs i a a' h hr)

/-- A step of the system is a step of one thread. -/
theorem Sys.step_after {s s' : Sys L σ} {i : Nat} (h : s.step i = some s') : ∃ t t', s.threads[i]? = some t ∧ Thread.After t' t ∧ s'.threads = s.threads.set i t' := by
  unfold Sys.step at h
  split at h
  · cases h
  · rename_i t ht
    refine ⟨t, ?_⟩
    split at h
    · cases h
    · rename_i f k hp
      cases h
      exact ⟨_, ht, Or.inl ⟨f, k, s.world, hp, rfl⟩, rfl⟩
    · rename_i l m k hp
      cases h
      exact ⟨_, ht, Or.inr (Or.inl ⟨l, m, k, hp, rfl⟩), rfl⟩
    · rename_i l k hp
      split at h
      · cases h
      · cases h
        exact ⟨_, ht, Or.inr (Or.inr (Or.inl ⟨l, _, k, hp, rfl⟩)), rfl⟩
    · rename_i l k hp
      split at h
      · split at h
        · cases h
        · cases h
          exact ⟨_, ht, Or.inr (Or.inr (Or.inl ⟨l, _, k, hp, rfl⟩)), rfl⟩
      · rename_i ha
        cases h
        exact ⟨{ t with asked := true }, ht, Or.inr (Or.inr (Or.inr ⟨rfl, by simpa using ha, rfl⟩)), rfl⟩

theorem Sys.run_append (s : Sys L σ) (a b : List Nat) : s.run (a ++ b) = (s.run a).bind (·.run b) := by
  induction a generalizing s with
  | nil => rfl
  | cons i is ih =>
    simp only [List.cons_append, Sys.run]
    cases s.step i with
    | none => rfl
    | some s' => simp [ih]

/-- No schedule goes on for ever. -/
theorem Sys.ends (s : Sys L σ) (schedule : Nat → Nat) : ∃ n, s.run ((List.range n).map schedule) = none := by
  suffices h : ∀ ts : List (Thread L σ), Acc (OneDown Thread.After) ts → ∀ (s s0 : Sys L σ) (m : Nat), s.threads = ts → s0.run ((List.range m).map schedule) = some s →
      ∃ n, s0.run ((List.range n).map schedule) = none from
    h s.threads (OneDown.acc _ fun t => Thread.after_acc t.prog t rfl) s s 0 rfl rfl
  intro ts hacc
  induction hacc with
  | intro ts _ ih =>
    intro s s0 m hs hrun
    cases hst : s.step (schedule m) with
    | none =>
      refine ⟨m + 1, ?_⟩
      rw [List.range_succ, List.map_append, Sys.run_append, hrun]
      simp [Sys.run, hst]
    | some s' =>
      obtain ⟨t, t', ht, hafter, hts⟩ := Sys.step_after hst
      refine ih s'.threads ?_ s' s0 (m + 1) rfl ?_
      · rw [hts, hs]
        rw [hs] at ht
        exact OneDown.set _ _ _ _ ht hafter
      · rw [List.range_succ, List.map_append, Sys.run_append, hrun]
        simp [Sys.run, hst]

/-! ## Locks in one order -/

/-- What the threads have in reserve or know: how many of each kind of token. -/
abbrev Tokens (κ : Type) := κ → Nat

/-- The tokens of several threads together. -/
def total {κ : Type} : List (Tokens κ) → Tokens κ
  | [] => fun _ => 0
  | n :: ns => fun x => n x + total ns x

/-- The program takes its locks in the order of `rank`: what it holds comes before what it takes. The locks of `shared` are only ever read, and are not counted.
`inv` is true of every state and of the tokens all threads have together; the tokens of this thread are `n`, and a step may change them. -/
inductive Ordered {κ : Type} (rank : L → Nat) (shared : L → Prop) (inv : σ → Tokens κ → Prop) : List (L × Mode) → Tokens κ → Prog L σ → Prop where
  | done {held} (n) : held = [] → Ordered rank shared inv held n .done
  | lock {held n l m k} : (shared l → m = .read) → (¬ shared l → ∀ h ∈ held, ¬ shared h.1 → rank h.1 < rank l) → Ordered rank shared inv ((l, m) :: held) n k →
      Ordered rank shared inv held n (.lock l m k)
  | unlock {held n l m k} : Ordered rank shared inv (held.erase (l, m)) n k → Ordered rank shared inv held n (.unlock l m k)
  | act {held n f k} (n' : σ → Tokens κ) : (∀ (w : σ) (rest : Tokens κ), inv w (fun x => n x + rest x) → inv (f w) (fun x => n' w x + rest x)) →
      (∀ (w : σ) (rest : Tokens κ), inv w (fun x => n x + rest x) → Ordered rank shared inv held (n' w) (k w)) → Ordered rank shared inv held n (.act f k)

variable {κ : Type} {rank : L → Nat} {shared : L → Prop} {inv : σ → Tokens κ → Prop}

theorem Ordered.more {held : List (L × Mode)} {n : Tokens κ} {p : Prog L σ} (h : Ordered rank shared inv held n p) (d : Tokens κ) :
    Ordered rank shared inv held (fun x => n x + d x) p := by
  induction h with
  | done n h => exact .done _ h
  | lock h1 h2 _ ih => exact .lock h1 h2 ih
  | unlock _ ih => exact .unlock ih
  | @act held n f k n' h1 _ ih =>
    have e : ∀ rest : Tokens κ, (fun x => n x + d x + rest x) = fun x => n x + (d x + rest x) := fun rest => funext fun x => Nat.add_assoc _ _ _
    refine .act (fun w x => n' w x + d x) (fun w rest hi => ?_) (fun w rest hi => ?_)
    · have := h1 w (fun x => d x + rest x) (by rw [← e]; exact hi)
      have e' : (fun x => n' w x + d x + rest x) = fun x => n' w x + (d x + rest x) := funext fun x => Nat.add_assoc _ _ _
      rw [e']
      exact this
    · exact ih w (fun x => d x + rest x) (by rw [← e]; exact hi)

/-- All threads keep to the order, each with its share of the tokens. -/
def Disciplined (rank : L → Nat) (shared : L → Prop) (inv : σ → Tokens κ → Prop) (s : Sys L σ) : Prop :=
  ∃ ts : List (Thread L σ × Tokens κ), ts.map Prod.fst = s.threads ∧ inv s.world (total (ts.map Prod.snd)) ∧
    ∀ x ∈ ts, Ordered rank shared inv x.1.held x.2 x.1.prog ∧ ∀ h ∈ x.1.held, shared h.1 → h.2 = .read

theorem total_append (a b : List (Tokens κ)) : total (a ++ b) = fun x => total a x + total b x := by
  induction a with
  | nil => funext x; simp [total]
  | cons n ns ih => funext x; simp [total, ih]; omega

theorem total_middle (a b : List (Tokens κ)) (n : Tokens κ) : total (a ++ n :: b) = fun x => n x + (total a x + total b x) := by
  rw [total_append]
  funext x
  simp only [total]
  omega

theorem split_at {α β : Type} (g : α → β) : ∀ (ts : List α) (i : Nat) (t : β), (ts.map g)[i]? = some t → ∃ pre x post, ts = pre ++ x :: post ∧ g x = t ∧
    ∀ t', (ts.map g).set i t' = pre.map g ++ t' :: post.map g
  | [], _, _, h => by simp at h
  | x :: xs, 0, t, h => by
    refine ⟨[], x, xs, rfl, by simpa using h, fun t' => by simp⟩
  | x :: xs, i + 1, t, h => by
    simp only [List.map_cons, List.getElem?_cons_succ] at h
    obtain ⟨pre, y, post, h1, h2, h3⟩ := split_at g xs i t h
    refine ⟨x :: pre, y, post, by simp [h1], h2, fun t' => by simp [h3]⟩

theorem Disciplined.step {s s' : Sys L σ} {i : Nat} (hd : Disciplined rank shared inv s) (h : s.step i = some s') : Disciplined rank shared inv s' := by
  obtain ⟨ts, hts, hinv, hall⟩ := hd
  unfold Sys.step at h
  split at h
  · cases h
  rename_i t ht
  rw [← hts] at ht
  obtain ⟨pre, ⟨t0, n⟩, post, hsplit, ht0, hset⟩ := split_at Prod.fst ts i t ht
  simp only at ht0
  subst ht0
  have hx := hall (t0, n) (by simp [hsplit])
  have hpre : ∀ x ∈ pre, _ := fun x hx => hall x (by simp [hsplit, hx])
  have hpost : ∀ x ∈ post, _ := fun x hx => hall x (by simp [hsplit, hx])
  let rest : Tokens κ := fun x => total (pre.map Prod.snd) x + total (post.map Prod.snd) x
  have hinv' : inv s.world (fun x => n x + rest x) := by
    have : total (ts.map Prod.snd) = fun x => n x + rest x := by
      rw [hsplit, List.map_append, List.map_cons, total_middle]
    rw [← this]
    exact hinv
  have build : ∀ (w : σ) (t' : Thread L σ) (n' : Tokens κ), inv w (fun x => n' x + rest x) →
      Ordered rank shared inv t'.held n' t'.prog → (∀ h ∈ t'.held, shared h.1 → h.2 = .read) →
      Disciplined rank shared inv { world := w, threads := s.threads.set i t' } := by
    intro w t' n' hw ho hh
    refine ⟨pre ++ (t', n') :: post, ?_, ?_, ?_⟩
    · rw [← hts, hset t']
      simp
    · have : total ((pre ++ (t', n') :: post).map Prod.snd) = fun x => n' x + rest x := by
        rw [List.map_append, List.map_cons, total_middle]
      rw [this]
      exact hw
    · intro x hx
      simp only [List.mem_append, List.mem_cons] at hx
      rcases hx with hx | rfl | hx
      · exact hpre x hx
      · exact ⟨ho, hh⟩
      · exact hpost x hx
  obtain ⟨hord, hheld⟩ := hx
  simp only at hord hheld
  split at h
  · cases h
  · rename_i f k hp
    cases h
    rw [hp] at hord
    cases hord with
    | act n' h1 h2 => exact build _ _ (n' s.world) (h1 _ _ hinv') (h2 _ _ hinv') hheld
  · rename_i l m k hp
    cases h
    rw [hp] at hord
    cases hord with
    | unlock h1 => exact build _ _ n hinv' h1 (fun h hm => hheld h (List.mem_of_mem_erase hm))
  · rename_i l k hp
    split at h
    · cases h
    · cases h
      rw [hp] at hord
      cases hord with
      | lock h1 h2 h3 =>
        refine build _ _ n hinv' h3 ?_
        intro h hm hs
        simp only [List.mem_cons] at hm
        rcases hm with rfl | hm
        · rfl
        · exact hheld h hm hs
  · rename_i l k hp
    split at h
    · split at h
      · cases h
      · cases h
        rw [hp] at hord
        cases hord with
        | lock h1 h2 h3 =>
          refine build _ _ n hinv' h3 ?_
          intro h hm hs
          simp only [List.mem_cons] at hm
          rcases hm with rfl | hm
          · exact h1 hs
          · exact hheld h hm hs
    · cases h
      exact build _ _ n hinv' (by simpa using hord) (by simpa using hheld)

theorem Disciplined.run {s s' : Sys L σ} {is : List Nat} (hd : Disciplined rank shared inv s) (h : s.run is = some s') : Disciplined rank shared inv s' := by
  induction is generalizing s with
  | nil =>
    cases h
    exact hd
  | cons i is ih =>
    simp only [Sys.run] at h
    cases hs : s.step i with
    | none => simp [hs] at h
    | some s1 =>
      rw [hs] at h
      exact ih (hd.step hs) h

/-- The lock a thread wants next. -/
def Prog.wants : Prog L σ → Option (L × Mode)
  | .lock l m _ => some (l, m)
  | _ => none

/-- When nothing moves, a thread that has not finished waits for a lock. -/
theorem Sys.blocked {s : Sys L σ} (hn : ∀ i, s.step i = none) {t : Thread L σ} (ht : t ∈ s.threads) (hf : t.prog.finished = false) :
    ∃ l m k, t.prog = .lock l m k ∧ ((m = .read ∧ ∃ u ∈ s.threads, u.writes l = true ∨ u.asks l = true) ∨ (m = .write ∧ ∃ u ∈ s.threads, u.holds l = true)) := by
  obtain ⟨i, hi, hti⟩ := List.getElem_of_mem ht
  have hget : s.threads[i]? = some t := by rw [List.getElem?_eq_getElem hi, hti]
  have h := hn i
  unfold Sys.step at h
  rw [hget] at h
  simp only at h
  split at h
  · rename_i hp
    rw [hp] at hf
    cases hf
  · cases h
  · cases h
  · rename_i l k hp
    split at h
    · rename_i hc
      rw [List.any_eq_true] at hc
      obtain ⟨u, hu, hc⟩ := hc
      exact ⟨l, .read, k, hp, Or.inl ⟨rfl, u, hu, by simpa using hc⟩⟩
    · cases h
  · rename_i l k hp
    split at h
    · split at h
      · rename_i hc
        rw [List.any_eq_true] at hc
        obtain ⟨u, hu, hc⟩ := hc
        exact ⟨l, .write, k, hp, Or.inr ⟨rfl, u, hu, hc⟩⟩
      · cases h
    · cases h

theorem Thread.holds_of_writes {t : Thread L σ} {l : L} (h : t.writes l = true) : (l, Mode.write) ∈ t.held := by
  simp only [Thread.writes, List.any_eq_true, Bool.and_eq_true, decide_eq_true_eq] at h
  obtain ⟨⟨l', m'⟩, hm, h1, h2⟩ := h
  simp only at h1 h2
  subst h1 h2
  exact hm

theorem Thread.asks_wants {t : Thread L σ} {l : L} (h : t.asks l = true) : ∃ k, t.prog = .lock l .write k := by
  unfold Thread.asks at h
  split at h
  · rename_i l' k hp
    simp only [Bool.and_eq_true, decide_eq_true_eq] at h
    obtain ⟨_, rfl⟩ := h
    exact ⟨k, hp⟩
  · cases h

/-- Threads that keep to the order are never all waiting. -/
theorem Disciplined.complete {s : Sys L σ} (hd : Disciplined rank shared inv s) (top : Nat) (htop : ∀ l, rank l < top) (hn : ∀ i, s.step i = none) : s.finished = true := by
  obtain ⟨ts, hts, _, hall⟩ := hd
  have hord : ∀ t ∈ s.threads, (∃ n, Ordered rank shared inv t.held n t.prog) ∧ ∀ h ∈ t.held, shared h.1 → h.2 = .read := by
    intro t ht
    rw [← hts, List.mem_map] at ht
    obtain ⟨x, hx, rfl⟩ := ht
    exact ⟨⟨x.2, (hall x hx).1⟩, (hall x hx).2⟩
  -- nobody waits for a shared lock
  have hshared : ∀ t ∈ s.threads, ∀ l m k, t.prog = .lock l m k → ¬ shared l := by
    intro t ht l m k hp hs
    obtain ⟨l', m', k', hp', hb⟩ := Sys.blocked hn ht (by rw [hp]; rfl)
    rw [hp] at hp'
    injection hp' with e1 e2 e3
    subst e1 e2 e3
    obtain ⟨⟨n, ho⟩, _⟩ := hord t ht
    rw [hp] at ho
    cases ho with
    | lock h1 _ _ =>
      have hm := h1 hs
      subst hm
      rcases hb with ⟨_, u, hu, hw | ha⟩ | ⟨hm, _⟩
      · have := (hord u hu).2 _ (Thread.holds_of_writes hw) hs
        cases this
      · obtain ⟨k', hpu⟩ := Thread.asks_wants ha
        obtain ⟨⟨n', ho'⟩, _⟩ := hord u hu
        rw [hpu] at ho'
        cases ho' with
        | lock h1' _ _ => cases h1' hs
      · cases hm
  -- whoever holds a lock has not finished
  have hholder : ∀ u ∈ s.threads, ∀ l, u.holds l = true → ¬ shared l → ∃ l' m' k', u.prog = .lock l' m' k' ∧ rank l < rank l' := by
    intro u hu l hl hs
    simp only [Thread.holds, List.any_eq_true, decide_eq_true_eq] at hl
    obtain ⟨h, hm, rfl⟩ := hl
    obtain ⟨⟨n, ho⟩, _⟩ := hord u hu
    have hf : u.prog.finished = false := by
      cases hp : u.prog with
      | done =>
        rw [hp] at ho
        cases ho with
        | done _ hh =>
          rw [hh] at hm
          cases hm
      | _ => rfl
    obtain ⟨l', m', k', hp, _⟩ := Sys.blocked hn hu hf
    refine ⟨l', m', k', hp, ?_⟩
    have hns := hshared u hu l' m' k' hp
    rw [hp] at ho
    cases ho with
    | lock _ h2 _ => exact h2 hns h hm hs
  have main : ∀ d, ∀ t ∈ s.threads, ∀ l m k, t.prog = .lock l m k → top ≤ rank l + d → False := by
    intro d
    induction d with
    | zero =>
      intro t _ l m k _ hle
      have := htop l
      omega
    | succ d ih =>
      intro t ht l m k hp hle
      have hns := hshared t ht l m k hp
      have next : ∀ u ∈ s.threads, u.holds l = true → False := by
        intro u hu hl
        obtain ⟨l', m', k', hp', hr⟩ := hholder u hu l hl hns
        exact ih u hu l' m' k' hp' (by omega)
      obtain ⟨l', m', k', hp', hb⟩ := Sys.blocked hn ht (by rw [hp]; rfl)
      rw [hp] at hp'
      injection hp' with e1 e2 e3
      subst e1 e2 e3
      rcases hb with ⟨_, u, hu, hw | ha⟩ | ⟨_, u, hu, hl⟩
      · refine next u hu ?_
        simp only [Thread.holds, List.any_eq_true, decide_eq_true_eq]
        exact ⟨_, Thread.holds_of_writes hw, rfl⟩
      · obtain ⟨k', hpu⟩ := Thread.asks_wants ha
        obtain ⟨l2, m2, k2, hp2, hb2⟩ := Sys.blocked hn hu (by rw [hpu]; rfl)
        rw [hpu] at hp2
        injection hp2 with e1 e2 e3
        subst e1 e2 e3
        rcases hb2 with ⟨hm, _⟩ | ⟨_, v, hv, hl⟩
        · cases hm
        · exact next v hv hl
      · exact next u hu hl
  simp only [Sys.finished, List.all_eq_true]
  intro t ht
  cases hf : t.prog.finished with
  | true => rfl
  | false =>
    obtain ⟨l, m, k, hp, _⟩ := Sys.blocked hn ht hf
    exact (main top t ht l m k hp (by omega)).elim

/-- Threads that keep to the order always finish. -/
theorem Disciplined.alwaysFinishes {s : Sys L σ} (hd : Disciplined rank shared inv s) (top : Nat) (htop : ∀ l, rank l < top) : s.AlwaysFinishes :=
  ⟨s.ends, fun _ _ hrun hn => (hd.run hrun).complete top htop hn⟩

end Verif.Latch
