import Verif.Latch.Lemmas

/-!
# What is true of the shared state when all threads have finished
-/

namespace Verif.Latch

variable {L σ κ : Type} [DecidableEq L]

/-- Every step of the program keeps `inv`, which is about the state and the tokens all threads have together; the tokens of this thread are `n`, and when it has finished `final` is
true of them. -/
inductive Safe (inv : σ → Tokens κ → Prop) (final : Tokens κ → Prop) : Tokens κ → Prog L σ → Prop where
  | done {n} : final n → Safe inv final n .done
  | lock {n l m k} : Safe inv final n k → Safe inv final n (.lock l m k)
  | unlock {n l m k} : Safe inv final n k → Safe inv final n (.unlock l m k)
  | act {n f k} (n' : σ → Tokens κ) : (∀ (w : σ) (rest : Tokens κ), inv w (fun x => n x + rest x) → inv (f w) (fun x => n' w x + rest x)) →
      (∀ (w : σ) (rest : Tokens κ), inv w (fun x => n x + rest x) → Safe inv final (n' w) (k w)) → Safe inv final n (.act f k)

variable {inv : σ → Tokens κ → Prop} {final : Tokens κ → Prop}

/-- Tokens that may be left at the end do no harm. -/
theorem Safe.more {n : Tokens κ} {p : Prog L σ} (h : Safe inv final n p) (d : Tokens κ) (hd : ∀ n, final n → final fun x => n x + d x) : Safe inv final (fun x => n x + d x) p := by
  induction h with
  | done h => exact .done (hd _ h)
  | lock _ ih => exact .lock ih
  | unlock _ ih => exact .unlock ih
  | @act n f k n' h1 _ ih =>
    have e : ∀ rest : Tokens κ, (fun x => n x + d x + rest x) = fun x => n x + (d x + rest x) := fun rest => funext fun x => Nat.add_assoc _ _ _
    refine .act (fun w x => n' w x + d x) (fun w rest hi => ?_) (fun w rest hi => ?_)
    · have := h1 w (fun x => d x + rest x) (by rw [← e]; exact hi)
      have e' : (fun x => n' w x + d x + rest x) = fun x => n' w x + (d x + rest x) := funext fun x => Nat.add_assoc _ _ _
      rw [e']
      exact this
    · exact ih w (fun x => d x + rest x) (by rw [← e]; exact hi)

/-- Tokens may be exchanged for others if `inv` allows it. -/
theorem Safe.exchange {n n' : Tokens κ} {p : Prog L σ} (h : Safe inv final n' p) (h1 : ∀ (w : σ) (rest : Tokens κ), inv w (fun x => n x + rest x) → inv w (fun x => n' x + rest x))
    (h2 : final n' → final n) : Safe inv final n p := by
  induction h with
  | done h => exact .done (h2 h)
  | lock _ ih => exact .lock (ih h1 h2)
  | unlock _ ih => exact .unlock (ih h1 h2)
  | act n'' h3 h4 _ => exact .act n'' (fun w rest hi => h3 w rest (h1 w rest hi)) (fun w rest hi => h4 w rest (h1 w rest hi))

/-- All threads are safe, each with its share of the tokens. -/
def AllSafe (inv : σ → Tokens κ → Prop) (final : Tokens κ → Prop) (s : Sys L σ) : Prop :=
  ∃ ts : List (Thread L σ × Tokens κ), ts.map Prod.fst = s.threads ∧ inv s.world (total (ts.map Prod.snd)) ∧ ∀ x ∈ ts, Safe inv final x.2 x.1.prog

theorem AllSafe.step {s s' : Sys L σ} {i : Nat} (hd : AllSafe inv final s) (h : s.step i = some s') : AllSafe inv final s' := by
  obtain ⟨ts, hts, hinv, hall⟩ := hd
  unfold Sys.step at h
  split at h
  · cases h
  rename_i t ht
  rw [← hts] at ht
  obtain ⟨pre, ⟨t0, n⟩, post, hsplit, ht0, hset⟩ := split_at Prod.fst ts i t ht
  simp only at ht0
  subst ht0
  have hord := hall (t0, n) (by simp [hsplit])
  have hpre : ∀ x ∈ pre, _ := fun x hx => hall x (by simp [hsplit, hx])
  have hpost : ∀ x ∈ post, _ := fun x hx => hall x (by simp [hsplit, hx])
  let rest : Tokens κ := fun x => total (pre.map Prod.snd) x + total (post.map Prod.snd) x
  have hinv' : inv s.world (fun x => n x + rest x) := by
    have : total (ts.map Prod.snd) = fun x => n x + rest x := by
      rw [hsplit, List.map_append, List.map_cons, total_middle]
    rw [← this]
    exact hinv
  have build : ∀ (w : σ) (t' : Thread L σ) (n' : Tokens κ), inv w (fun x => n' x + rest x) → Safe inv final n' t'.prog →
      AllSafe inv final { world := w, threads := s.threads.set i t' } := by
    intro w t' n' hw ho
    refine ⟨pre ++ (t', n') :: post, ?_, ?_, ?_⟩
    · rw [← hts, hset t']
      simp
    · have : total ((pre ++ (t', n') :: post).map Prod.snd) = fun x => n' x + rest x := by
        rw [List.map_append, List.map_cons, total_middle]
      rw [this]
      exact hw
    · intro x hx
      simp only [List.mem_append, List.mem_cons] at hx
      rcases hx with hx | rfl | hx
      · exact hpre x hx
      · exact ho
      · exact hpost x hx
  simp only at hord
  split at h
  · cases h
  · rename_i f k hp
    cases h
    rw [hp] at hord
    cases hord with
    | act n' h1 h2 => exact build _ _ (n' s.world) (h1 _ _ hinv') (h2 _ _ hinv')
  · rename_i l m k hp
    cases h
    rw [hp] at hord
    cases hord with
    | unlock h1 => exact build _ _ n hinv' h1
  · rename_i l k hp
    split at h
    · cases h
    · cases h
      rw [hp] at hord
      cases hord with
      | lock h1 => exact build _ _ n hinv' h1
  · rename_i l k hp
    split at h
    · split at h
      · cases h
      · cases h
        rw [hp] at hord
        cases hord with
        | lock h1 => exact build _ _ n hinv' h1
    · cases h
      exact build _ _ n hinv' hord

theorem AllSafe.run {s s' : Sys L σ} {is : List Nat} (hd : AllSafe inv final s) (h : s.run is = some s') : AllSafe inv final s' := by
  induction is generalizing s with
  | nil =>
    cases h
    exact hd
  | cons i is ih =>
    simp only [Sys.run] at h
    cases hs : s.step i with
    | none => simp [hs] at h
    | some s1 =>
      rw [hs] at h
      exact ih (hd.step hs) h

/-- When all threads have finished, `inv` is true of tokens each share of which is `final`. -/
theorem AllSafe.finished {s : Sys L σ} (hd : AllSafe inv final s) (h : s.finished = true) : ∃ ns : List (Tokens κ), inv s.world (total ns) ∧ ∀ n ∈ ns, final n := by
  obtain ⟨ts, hts, hinv, hall⟩ := hd
  refine ⟨_, hinv, fun n hn => ?_⟩
  rw [List.mem_map] at hn
  obtain ⟨x, hx, rfl⟩ := hn
  have hs := hall x hx
  have hf : x.1.prog.finished = true := by
    unfold Sys.finished at h
    rw [List.all_eq_true] at h
    exact h _ (by rw [← hts]; exact List.mem_map_of_mem hx)
  cases hp : x.1.prog with
  | done =>
    rw [hp] at hs
    cases hs with
    | done h => exact h
  | _ => rw [hp] at hf; cases hf

end Verif.Latch
