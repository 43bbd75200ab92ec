import Verif.Disk.Keep

/-!
# Property C93: flushes that run at the same time

Calls of several tasks in their atomic steps: a page is put into the write buffer (under its lock, write_manager.rs:319-360), a flush drains the buffer (`flush_internal`, write_manager.rs:475-490) and
gives up the flush lock (410, 457) before the pages it drained are written (manager.rs:656-660, 734-742), page by page, while other tasks go on. The buffer always has room and no I/O fails.
-/

namespace Verif.Disk.Tasks

open Verif.Disk

/-- The file, the write buffer and for each flush under way the pages it has still to write. -/
structure World where
  file : Nat → Data
  buf : List (Nat × Data)
  hands : List (List (Nat × Data))

/-- An atomic step of one of the tasks. -/
inductive Event where
  /-- `buffer_write` puts a page into the buffer. -/
  | write (p : Nat) (d : Data)
  /-- A flush drains the buffer. -/
  | drain
  /-- The `i`-th flush under way writes its next page. -/
  | put (i : Nat)
  deriving DecidableEq

/-- The step in the world; a `put` of a flush that has nothing left does nothing. -/
def step (w : World) : Event → World
  | .write p d => { w with buf := putBuf w.buf p d }
  | .drain => { w with buf := [], hands := w.hands ++ [w.buf] }
  | .put i => match w.hands[i]? with
    | some ((p, d) :: l) => { w with file := fun q => if q = p then d else w.file q, hands := w.hands.set i l }
    | _ => w

def steps (w : World) (es : List Event) : World := es.foldl step w

/-- A world with nothing under way. -/
def start (f : Nat → Data) : World := ⟨f, [], []⟩

/-- The buffer is empty and every flush is over. -/
def Quiet (w : World) : Prop := w.buf = [] ∧ ∀ h ∈ w.hands, h = []

/-! ## Specification -/

/-- The page writes of a run, oldest first. -/
def written : List Event → List (Nat × Data)
  | [] => []
  | .write p d :: es => (p, d) :: written es
  | _ :: es => written es

/-- No flush drains the buffer while another has pages left to write. -/
def Apart (w : World) : List Event → Prop
  | [] => True
  | e :: es => (e = .drain → ∀ h ∈ w.hands, h = []) ∧ Apart (step w e) es

/-! ## Proofs -/

theorem steps_cons (w : World) (e : Event) (es : List Event) : steps w (e :: es) = steps (step w e) es := rfl

/-- The pages under way, newest first: the buffer, then the one flush that has pages left. -/
structure Good (v : Nat → Data) (w : World) (h : List (Nat × Data)) : Prop where
  bufNodup : (w.buf.map (·.1)).Nodup
  nodup : (h.map (·.1)).Nodup
  val : ∀ p, (w.buf.lookup p).getD ((h.lookup p).getD (w.file p)) = v p
  one : ∃ i : Nat, (∀ (j : Nat) (k : List (Nat × Data)), w.hands[j]? = some k → j ≠ i → k = []) ∧ (w.hands[i]? = some h ∨ h = [] ∧ w.hands[i]? = none)

theorem putBuf_nodup {l : List (Nat × Data)} {p : Nat} {d : Data} (h : (l.map (·.1)).Nodup) : ((putBuf l p d).map (·.1)).Nodup := by
  rw [putBuf_keys]
  split
  · exact h
  · next hm => exact List.nodup_append.mpr ⟨h, by simp, by intro a ha b hb e; rw [List.mem_singleton] at hb; exact hm (hb ▸ e ▸ ha)⟩

theorem good_steps {v : Nat → Data} {w : World} {h : List (Nat × Data)} (es : List Event) (hg : Good v w h) (ha : Apart w es) : ∃ h', Good (putAll v (written es)) (steps w es) h' := by
  induction es generalizing v w h with
  | nil => exact ⟨h, hg⟩
  | cons e es ih =>
    obtain ⟨ha, hrest⟩ := ha
    rw [steps_cons]
    cases e with
    | write p d =>
      have : Good (put1 v p d) (step w (.write p d)) h := by
        refine ⟨putBuf_nodup hg.bufNodup, hg.nodup, fun q => ?_, hg.one⟩
        simp only [step, putBuf_lookup, put1]
        split
        · rfl
        · exact hg.val q
      rw [written, putAll_cons]
      exact ih this hrest
    | drain =>
      have hnil := ha rfl
      have h0 : h = [] := by
        obtain ⟨i, _, hi | hi⟩ := hg.one
        · exact hnil h (List.mem_of_getElem? hi)
        · exact hi.1
      subst h0
      have : Good v (step w .drain) w.buf := by
        refine ⟨List.nodup_nil, hg.bufNodup, fun q => ?_, w.hands.length, fun j k hj hne => ?_, .inl (by simp [step])⟩
        · exact hg.val q
        · simp only [step] at hj
          rw [List.getElem?_append] at hj
          split at hj
          · exact hnil k (List.mem_of_getElem? hj)
          · next hlt =>
            have : j - w.hands.length ≠ 0 := by omega
            rw [List.getElem?_eq_none (by simp; omega)] at hj
            cases hj
      exact ih this hrest
    | put i =>
      cases hi : w.hands[i]? with
      | none =>
        have : step w (.put i) = w := by simp [step, hi]
        rw [this] at hrest ⊢
        exact ih hg hrest
      | some l =>
        cases l with
        | nil =>
          have : step w (.put i) = w := by simp [step, hi]
          rw [this] at hrest ⊢
          exact ih hg hrest
        | cons x l =>
          obtain ⟨p, d⟩ := x
          obtain ⟨k, hk, hh⟩ := hg.one
          have hik : i = k := by
            apply Decidable.byContradiction
            intro hne
            cases hk i _ hi hne
          subst hik
          have hh : h = (p, d) :: l := by
            rcases hh with hh | hh
            · rw [hi] at hh; cases hh; rfl
            · rw [hi] at hh; cases hh.2
          subst hh
          have hn := hg.nodup
          rw [List.map_cons, List.nodup_cons] at hn
          have hlen : i < w.hands.length := by
            apply Decidable.byContradiction
            intro hge
            rw [List.getElem?_eq_none (by omega)] at hi
            cases hi
          have : Good v (step w (.put i)) l := by
            refine ⟨by simp only [step, hi]; exact hg.bufNodup, hn.2, fun q => ?_, i, fun j m hj hne => ?_, .inl ?_⟩
            · have hv := hg.val q
              rw [List.lookup_cons] at hv
              simp only [step, hi]
              by_cases hq : q = p
              · subst hq
                have hnone : l.lookup q = none := by
                  cases hl : l.lookup q with
                  | none => rfl
                  | some x => exact absurd (lookup_isSome.mp (by rw [hl]; rfl)) hn.1
                rw [hnone]
                simpa using hv
              · rw [show (q == p) = false from by simpa using hq] at hv
                simpa [hq] using hv
            · simp only [step, hi] at hj
              rw [List.getElem?_set_ne (Ne.symm hne)] at hj
              exact hk j m hj hne
            · simp only [step, hi]
              rw [List.getElem?_set_self hlen]
          exact ih this hrest

/-- C93, the part that holds: in every interleaving of writes by any tasks with flushes that do not overlap, once the buffer is empty and every flush is over, each page of the file holds
what was last written to it. -/
theorem C93_apart_partial (f : Nat → Data) (es : List Event) (ha : Apart (start f) es) (hq : Quiet (steps (start f) es)) (p : Nat) :
    (steps (start f) es).file p = (written es).foldl (fun x w => if w.1 = p then w.2 else x) (f p) := by
  have h0 : Good f (start f) [] := ⟨List.nodup_nil, List.nodup_nil, fun _ => rfl, 0, fun j k hj _ => by simp [start] at hj, .inr ⟨rfl, rfl⟩⟩
  obtain ⟨h, hg⟩ := good_steps es h0 ha
  have hh : h = [] := by
    obtain ⟨i, _, hi | hi⟩ := hg.one
    · exact hq.2 h (List.mem_of_getElem? hi)
    · exact hi.1
  have := hg.val p
  rw [hq.1, hh] at this
  exact this

/-- Two tasks write while a flush is under way; both flushes are over at the end. -/
def twoTasks : List Event := [.write 1 [7], .write 2 [8], .drain, .put 0, .write 1 [9], .put 0, .drain, .put 1]

example : Apart (start fun _ => [0]) twoTasks ∧ Quiet (steps (start fun _ => [0]) twoTasks) := by
  refine ⟨⟨by decide, by decide, by decide, by decide, by decide, by decide, by decide, by decide, trivial⟩, rfl, by decide⟩

example : (steps (start fun _ => [0]) twoTasks).file 1 = [9] := by
  rw [C93_apart_partial _ twoTasks ⟨by decide, by decide, by decide, by decide, by decide, by decide, by decide, by decide, trivial⟩ ⟨rfl, by decide⟩]
  rfl

/-- C93, another part: in every interleaving, whatever the overlaps, the file and the pages under way hold only contents that were there at the start or written to that page. -/
theorem C93_integrity_partial (f : Nat → Data) (es : List Event) (p : Nat) : (steps (start f) es).file p = f p ∨ (p, (steps (start f) es).file p) ∈ written es := by
  have key : ∀ (es : List Event) (w : World) (K : Nat → Data → Prop), (∀ q, K q (w.file q)) → (∀ x ∈ w.buf, K x.1 x.2) → (∀ h ∈ w.hands, ∀ x ∈ h, K x.1 x.2) → (∀ x ∈ written es, K x.1 x.2) →
      ∀ q, K q ((steps w es).file q) := by
    intro es
    induction es with
    | nil => intro w K h1 _ _ _; exact h1
    | cons e es ih =>
      intro w K h1 h2 h3 h4
      rw [steps_cons]
      cases e with
      | write r d =>
        refine ih (step w (.write r d)) K h1 (fun x hx => ?_) h3 fun x hx => h4 x (List.mem_cons_of_mem _ hx)
        rcases mem_putBuf hx with hx | hx
        · rw [hx]; exact h4 (r, d) List.mem_cons_self
        · exact h2 x hx
      | drain =>
        refine ih (step w .drain) K h1 (fun x hx => (nomatch hx)) (fun h hh x hx => ?_) h4
        rcases List.mem_append.mp hh with hh | hh
        · exact h3 h hh x hx
        · rw [List.mem_singleton.mp hh] at hx; exact h2 x hx
      | put i =>
        cases hi : w.hands[i]? with
        | none => rw [show step w (.put i) = w from by simp [step, hi]]; exact ih w K h1 h2 h3 h4
        | some l =>
          cases l with
          | nil => rw [show step w (.put i) = w from by simp [step, hi]]; exact ih w K h1 h2 h3 h4
          | cons x l =>
            obtain ⟨r, d⟩ := x
            have hm := h3 _ (List.mem_of_getElem? hi)
            rw [show step w (.put i) = { w with file := fun q => if q = r then d else w.file q, hands := w.hands.set i l } from by simp [step, hi]]
            refine ih _ K (fun q => ?_) h2 (fun h hh x hx => ?_) h4
            · dsimp only
              split
              · next e => rw [e]; exact hm (r, d) List.mem_cons_self
              · exact h1 q
            · rcases List.mem_or_eq_of_mem_set hh with hh | hh
              · exact h3 h hh x hx
              · rw [hh] at hx; exact hm x (List.mem_cons_of_mem _ hx)
  exact key es (start f) (fun q d => d = f q ∨ (q, d) ∈ written es) (fun _ => .inl rfl) (fun x hx => (nomatch hx)) (fun h hh => (nomatch hh)) (fun x hx => .inr hx) p

/-- C93 fails: a flush that drained the old content writes it after another task has written and flushed the new one; everything is over and the page holds the old content. -/
theorem C93_overlap_fails (f : Nat → Data) (p : Nat) (a b : Data) :
    Quiet (steps (start f) [.write p a, .drain, .write p b, .drain, .put 1, .put 0]) ∧
      (steps (start f) [.write p a, .drain, .write p b, .drain, .put 1, .put 0]).file p = a := by
  simp [Quiet, steps, step, start, putBuf]

end Verif.Disk.Tasks
