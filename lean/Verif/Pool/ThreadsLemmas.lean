import Verif.Pool.Threads
import Verif.Latch.Lemmas

/-!
# Lemmas on the programs of the pool's calls
-/

namespace Verif.Pool

open Verif.Latch (Mode Prog Thread Sys Ordered)

variable {B : Type}

/-! ## The order in which calls that find a free frame take their locks -/

/-- Page table, list of pages, a page, replacer, free list. -/
def lockRank : Lock → Nat
  | .table => 0
  | .pages => 1
  | .page _ => 2
  | .replacer => 3
  | .freeList => 4

/-- The state has a free frame for each token. -/
def Reserve (w : World B) (n : Latch.Tokens Unit) : Prop := n () ≤ w.free.length

/-- The program keeps to this order and takes at most `n` free frames. -/
abbrev Ord (held : List (Lock × Mode)) (n : Nat) (p : Code B) : Prop := Ordered lockRank (fun _ => False) Reserve held (fun _ => n) p

theorem Ord.weaken {held : List (Lock × Mode)} {n m : Nat} {p : Code B} (h : Ord held n p) (hm : n ≤ m) : Ord held m p := by
  obtain ⟨d, rfl⟩ := Nat.exists_eq_add_of_le hm
  exact h.more fun _ => d

theorem Ord.lock {held : List (Lock × Mode)} {n : Nat} {l : Lock} {m : Mode} {k : Code B} (h : ∀ x ∈ held, lockRank x.1 < lockRank l) (hk : Ord ((l, m) :: held) n k) :
    Ord held n (.lock l m k) := Ordered.lock (fun h => h.elim) (fun _ x hx _ => h x hx) hk

theorem Ord.unlock {held : List (Lock × Mode)} {n : Nat} {l : Lock} {m : Mode} {k : Code B} (hk : Ord held n k) : Ord ((l, m) :: held) n (.unlock l m k) :=
  Ordered.unlock (by simpa using hk)

theorem Ord.look {held : List (Lock × Mode)} {n : Nat} {k : World B → Code B} (h : ∀ w, Ord held n (k w)) : Ord held n (look k) :=
  Ordered.act (fun _ _ => n) (fun _ _ h => h) (fun w _ _ => h w)

theorem Ord.upd {held : List (Lock × Mode)} {n : Nat} {f : World B → World B} {k : World B → Code B} (hf : ∀ w, w.free.length ≤ (f w).free.length) (h : ∀ w, Ord held n (k w)) :
    Ord held n (.act f k) := Ordered.act (fun _ _ => n) (fun w _ h => Nat.le_trans h (hf w)) (fun w _ _ => h w)

theorem Ord.panic {n : Nat} : ∀ held : List (Lock × Mode), Ord (B := B) held n (Pool.panic held)
  | [] => .done _ rfl
  | (l, m) :: rest => Ord.unlock (Ord.panic rest)

theorem writeOutC_ord {e : Env} {pid o n : Nat} {k : Code B} (hk : Ord [] n k) : Ord [] n (writeOutC e pid o k) := by
  refine .lock (by simp) (.look fun w => .unlock ?_)
  split
  · exact hk
  · split
    · exact .upd (fun _ => Nat.le_refl _) fun _ => .lock (by simp) (.upd (fun _ => Nat.le_refl _) fun _ => .unlock hk)
    · exact hk

theorem forget_ord {f pid n : Nat} {k : Code B} (hk : Ord [] n k) : Ord [] n (forget f pid k) :=
  .lock (by simp) (.upd (fun _ => Nat.le_refl _) fun _ => .unlock (.lock (by simp) (.upd (fun _ => Nat.le_refl _) fun _ => .unlock hk)))

theorem evictOldC_ord {e : Env} {f pid n : Nat} {k : Code B} (hk : Ord [] n k) : Ord [] n (evictOldC e f pid k) := by
  refine .lock (by simp) (.look fun w => ?_)
  split
  · exact .unlock (forget_ord hk)
  · refine .lock (by simp [lockRank]) (.look fun w => .unlock (.unlock ?_))
    split
    · exact forget_ord hk
    · split
      · exact writeOutC_ord (forget_ord hk)
      · exact forget_ord hk

theorem evictIfNecessaryC_ord {e : Env} {f n : Nat} {k : Code B} (hk : Ord [] n k) : Ord [] n (evictIfNecessaryC e f k) := by
  refine .lock (by simp) (.look fun w => ?_)
  split
  · exact .unlock hk
  · refine .lock (by simp [lockRank]) (.look fun w => .unlock (.unlock ?_))
    split
    · exact hk
    · split
      · exact evictOldC_ord hk
      · exact hk

/-- With a free frame in reserve nothing is evicted. -/
theorem getFrameC_ord {e : Env} {n : Nat} {k : Option Nat → Code B} (hk : ∀ f, Ord [] n (k (some f))) : Ord [] (n + 1) (getFrameC e k) := by
  refine Ord.lock (by simp) (Ordered.act (fun _ _ => n) (fun w rest hb => ?_) (fun w rest hb => Ord.unlock ?_))
  · simp only [Reserve, List.length_dropLast] at hb ⊢
    omega
  · split
    · exact hk _
    · rename_i h
      rw [List.getLast?_eq_none_iff] at h
      simp [Reserve, h] at hb

theorem touchC_ord {e : Env} {f n : Nat} {ev : Bool} {held : List (Lock × Mode)} {k : Code B} (hh : ∀ x ∈ held, lockRank x.1 < 3) (hk : Ord held n k) :
    Ord held n (touchC e f ev held k) := by
  refine .lock hh (.look fun w => ?_)
  split
  · exact .panic _
  · exact .upd (fun _ => Nat.le_refl _) fun _ => .unlock hk

theorem metadataC_ord {e : Env} {f pid o n : Nat} {k : Code B} (hk : Ord [] n k) : Ord [] n (metadataC e f pid o k) := by
  refine .lock (by simp) (.look fun w => ?_)
  split
  · exact .upd (fun _ => Nat.le_refl _) fun _ => .unlock (.lock (by simp) (.upd (fun _ => Nat.le_refl _) fun _ => .unlock (touchC_ord (by simp) hk)))
  · exact .panic _

theorem handOut_ord {pid o n : Nat} {k : Code B} (hk : Ord [] n k) : Ord [] n (handOut pid o k) := .upd (fun _ => Nat.le_refl _) fun _ => hk

theorem newPageC_ord {e : Env} {c : Content B} {n : Nat} {k : Code B} (hk : Ord [] n k) : Ord [] (n + 1) (newPageC e c k) :=
  getFrameC_ord fun _ => evictIfNecessaryC_ord (.upd (fun _ => Nat.le_refl _) fun _ => metadataC_ord (.lock (by simp) (.unlock (handOut_ord hk))))

theorem loadC_ord {e : Env} {ty pid n : Nat} {k : Code B} (hk : Ord [] n k) : Ord [] (n + 1) (loadC e ty pid k) := by
  refine getFrameC_ord fun _ => evictIfNecessaryC_ord (.look fun w => ?_)
  split
  · exact hk
  · split
    · exact .upd (fun _ => Nat.le_refl _) fun _ => .lock (by simp) (.unlock (.lock (by simp) (.unlock (metadataC_ord (handOut_ord hk)))))
    · exact hk

theorem fetchResidentC_ord {e : Env} {ty pid o n : Nat} {k : Code B} (hk : Ord [] n k) : Ord [] n (fetchResidentC e ty pid o k) := by
  refine .lock (by simp) (.look fun w => .unlock ?_)
  split
  · exact .done _ rfl
  · split
    · exact hk
    · have hpin : Ord [] n (.lock (.page o) .write (.act (·.modifyObj o fun p => { p with pin := p.pin + 1 }) fun _ => .unlock (.page o) .write (handOut pid o k)) : Code B) :=
        .lock (by simp) (.upd (fun _ => Nat.le_refl _) fun _ => .unlock (handOut_ord hk))
      refine .lock (by simp) (.look fun w => ?_)
      split
      · exact touchC_ord (by simp [lockRank]) (.unlock hpin)
      · exact .unlock hpin

theorem fetchPageC_ord {e : Env} {ty pid n : Nat} {k : Code B} (hk : Ord [] n k) : Ord [] (n + 1) (fetchPageC e ty pid k) := by
  have hk' : Ord [] (n + 1) k := hk.weaken (Nat.le_succ n)
  refine .look fun w => ?_
  split
  · exact hk'
  · refine .lock (by simp) (.look fun w => ?_)
    split
    · exact .unlock (loadC_ord hk)
    · refine .lock (by simp [lockRank]) (.look fun w => ?_)
      split
      · refine .unlock (.unlock ?_)
        split
        · exact loadC_ord hk
        · exact fetchResidentC_ord hk'
      · exact .panic _

theorem unpinC_ord {e : Env} {pid n : Nat} {d : Bool} {k : Code B} (hk : Ord [] n k) : Ord [] n (unpinC e pid d k) := by
  refine .lock (by simp) (.look fun w => .unlock ?_)
  split
  · exact hk
  · refine .lock (by simp) (.look fun w => ?_)
    split
    · exact .unlock hk
    · refine .lock (by simp [lockRank]) (.upd (fun w => by cases d <;> exact Nat.le_refl _) fun w => ?_)
      split
      · exact .panic _
      · split
        · refine .upd (fun _ => Nat.le_refl _) fun _ => ?_
          split
          · exact touchC_ord (by simp [lockRank]) (.unlock (.unlock hk))
          · exact .unlock (.unlock hk)
        · exact .unlock (.unlock hk)

theorem dropC_ord {e : Env} {g n : Nat} {k : Code B} (hk : Ord [] n k) : Ord [] n (dropC e g k) := by
  refine .upd (fun _ => Nat.le_refl _) fun w => ?_
  split
  · exact hk
  · exact unpinC_ord hk

theorem writeC_ord {g n : Nat} {b : B} {k : Code B} (hk : Ord [] n k) : Ord [] n (writeC g b k) := by
  refine .upd (fun w => ?_) fun w => ?_
  · unfold World.noteWrite
    split <;> exact Nat.le_refl _
  · split
    · exact hk
    · exact .lock (by simp) (.upd (fun _ => Nat.le_refl _) fun _ => .unlock hk)

theorem readC_ord {g n : Nat} {k : Code B} (hk : Ord [] n k) : Ord [] n (readC g k) := by
  refine .look fun w => ?_
  split
  · exact hk
  · exact .lock (by simp) (.unlock hk)

theorem searchC_ord {pid n : Nat} {k : Option Nat → Code B} (hk : ∀ o, Ord [] n (k o)) : ∀ fs, Ord [(.pages, .read)] n (searchC pid k fs)
  | [] => .unlock (hk none)
  | f :: fs => by
    refine .look fun w => ?_
    split
    · exact searchC_ord hk fs
    · refine .lock (by simp [lockRank]) (.look fun w => .unlock ?_)
      split
      · exact searchC_ord hk fs
      · split
        · exact .unlock (hk _)
        · exact searchC_ord hk fs

theorem writePageC_ord {pid n : Nat} {b : B} {k : Code B} (hk : Ord [] n k) : Ord [] n (writePageC pid b k) := by
  refine .lock (by simp) (.look fun w => searchC_ord (fun o => ?_) _)
  cases o with
  | none => exact hk
  | some o => exact .lock (by simp) (.upd (fun _ => Nat.le_refl _) fun _ => .unlock hk)

theorem flushC_ord {e : Env} {pid n : Nat} {k : Code B} (hk : Ord [] n k) : Ord [] n (flushC e pid k) := by
  refine .lock (by simp) (.look fun w => .unlock ?_)
  split
  · exact hk
  · refine .lock (by simp) (.look fun w => .unlock ?_)
    split
    · exact hk
    · exact writeOutC_ord hk

theorem deleteFrameC_ord {f pid n : Nat} {k : Code B} (hk : Ord [] n k) : Ord [] n (deleteFrameC f pid k) := by
  refine .lock (by simp) (.look fun w => ?_)
  split
  · exact .upd (fun _ => Nat.le_refl _) fun _ => .unlock (.lock (by simp) (.upd (fun _ => Nat.le_refl _) fun _ => .unlock
      (.lock (by simp) (.upd (fun w => by simp) fun _ => .unlock (.lock (by simp) (.upd (fun _ => Nat.le_refl _) fun _ => .unlock hk))))))
  · exact .unlock hk

theorem deleteC_ord {pid n : Nat} {k : Code B} (hk : Ord [] n k) : Ord [] n (deleteC pid k) := by
  refine .lock (by simp) (.look fun w => .unlock ?_)
  split
  · exact hk
  · refine .lock (by simp) (.look fun w => ?_)
    split
    · exact .unlock (deleteFrameC_ord hk)
    · refine .lock (by simp [lockRank]) (.look fun w => .unlock (.unlock ?_))
      split
      · exact deleteFrameC_ord hk
      · split
        · exact hk
        · exact deleteFrameC_ord hk

/-! ## A thread alone does what the model of the pool says -/

@[simp] theorem alone_look (k : World B → Code B) (w : World B) : (look k).alone w = (k w).alone w := rfl
@[simp] theorem alone_lock (l : Lock) (m : Mode) (k : Code B) (w : World B) : (Prog.lock l m k).alone w = k.alone w := rfl
@[simp] theorem alone_unlock (l : Lock) (m : Mode) (k : Code B) (w : World B) : (Prog.unlock l m k).alone w = k.alone w := rfl
@[simp] theorem alone_act (f : World B → World B) (k : World B → Code B) (w : World B) : (Prog.act f k : Code B).alone w = (k w).alone (f w) := rfl

theorem writeOutC_alone (e : Env) (pid o : Nat) (k : Code B) (w : World B) : (writeOutC e pid o k).alone w = k.alone (w.writeOut e pid o) := by
  unfold writeOutC World.writeOut
  simp only [alone_lock, alone_look, alone_unlock]
  cases h : w.objs[o]? with
  | none => rfl
  | some p => by_cases he : e.writes <;> simp [he]

theorem forget_alone (f pid : Nat) (k : Code B) (w : World B) : (forget f pid k).alone w = k.alone { w with table := w.table.erase pid, frames := w.frames.set f none } := rfl

theorem evictOldC_alone (e : Env) (f pid : Nat) (k : Code B) (w : World B) : (evictOldC e f pid k).alone w = k.alone (w.evictOld e f pid) := by
  unfold evictOldC World.evictOld World.pageAt
  simp only [alone_lock, alone_look]
  cases h : w.frame f with
  | none => rfl
  | some o =>
    simp only [alone_lock, alone_look, alone_unlock, Option.bind_some]
    cases h' : w.objs[o]? with
    | none => rfl
    | some p =>
      by_cases hd : p.dirty
      · simp only [hd, if_true, writeOutC_alone, forget_alone]
      · simp only [hd, if_false, forget_alone]
        rfl

theorem evictIfNecessaryC_alone (e : Env) (f : Nat) (k : Code B) (w : World B) : (evictIfNecessaryC e f k).alone w = k.alone (w.evictIfNecessary e f) := by
  unfold evictIfNecessaryC World.evictIfNecessary World.pageAt
  simp only [alone_lock, alone_look]
  cases h : w.frame f with
  | none => rfl
  | some o =>
    simp only [alone_lock, alone_look, alone_unlock, Option.bind_some]
    cases h' : w.objs[o]? with
    | none => rfl
    | some p =>
      by_cases hd : p.pin = 0
      · simp only [hd, if_true, evictOldC_alone]
      · simp only [hd, if_false]

theorem markUnpinned_rep (w : World B) (r' : Replacer.Rep) : ∀ (fs : List Nat) (r : Replacer.Rep), markUnpinned { w with rep := r' } fs r = markUnpinned w fs r
  | [], _ => rfl
  | f :: fs, r => by
    unfold markUnpinned
    have : ({ w with rep := r' } : World B).pageAt f = w.pageAt f := rfl
    rw [this]
    cases w.pageAt f with
    | none => exact markUnpinned_rep w r' fs r
    | some p =>
      simp only
      split
      · cases Replacer.setEvictable r f true with
        | none => rfl
        | some x => exact markUnpinned_rep w r' fs x.1
      · exact markUnpinned_rep w r' fs r

theorem markUnpinnedC_alone (k : Code B) : ∀ (fs : List Nat) (w : World B) (r : Replacer.Rep), markUnpinned w fs w.rep = some r →
    (markUnpinnedC fs k).alone w = k.alone { w with rep := r }
  | [], w, r, h => by
    simp only [markUnpinned, Option.some.injEq] at h
    subst h
    rfl
  | f :: fs, w, r, h => by
    unfold markUnpinnedC
    unfold markUnpinned World.pageAt at h
    simp only [alone_look]
    cases hf : w.frame f with
    | none =>
      rw [hf] at h
      exact markUnpinnedC_alone k fs w r h
    | some o =>
      rw [hf] at h
      simp only [Option.bind_some] at h
      simp only [alone_lock, alone_look, alone_unlock]
      cases ho : w.objs[o]? with
      | none =>
        rw [ho] at h
        exact markUnpinnedC_alone k fs w r h
      | some p =>
        rw [ho] at h
        simp only at h
        simp only
        by_cases hp : p.pin = 0
        · simp only [hp, if_true] at h ⊢
          simp only [alone_look]
          cases hs : Replacer.setEvictable w.rep f true with
          | none => simp [hs] at h
          | some x =>
            rw [hs] at h
            simp only at h
            simp only [alone_act]
            have := markUnpinnedC_alone k fs { w with rep := x.1 } r (by rw [markUnpinned_rep]; exact h)
            rw [this]
        · simp only [hp, if_false] at h ⊢
          exact markUnpinnedC_alone k fs w r h

theorem tryEvictC_alone (e : Env) (k : Option Nat → Code B) : ∀ (n : Nat) (w w' : World B) (f : Option Nat), tryEvict e n w = some (w', f) →
    (tryEvictC e k n).alone w = (k f).alone w'
  | 0, w, w', f, h => by
    simp only [tryEvict, Option.some.injEq, Prod.mk.injEq] at h
    obtain ⟨rfl, rfl⟩ := h
    rfl
  | n + 1, w, w', f, h => by
    unfold tryEvictC
    unfold tryEvict at h
    simp only [alone_look]
    cases he : Replacer.evict w.rep with
    | none => simp [he] at h
    | some x =>
      obtain ⟨r, v⟩ := x
      rw [he] at h
      cases v with
      | some v =>
        simp only at h
        simp only [alone_act, alone_lock, alone_look, alone_unlock]
        cases hf : w.table.find? (fun x => x.2 == v) with
        | none =>
          simp only [hf, Option.some.injEq, Prod.mk.injEq] at h
          obtain ⟨rfl, rfl⟩ := h
          rfl
        | some x =>
          simp only [hf, Option.some.injEq, Prod.mk.injEq] at h
          obtain ⟨rfl, rfl⟩ := h
          simp only [evictOldC_alone, alone_unlock]
      | none =>
        simp only at h
        simp only [alone_act, alone_lock, alone_look]
        cases hm : markUnpinned w (List.range w.frames.length) r with
        | none => simp [hm] at h
        | some r' =>
          rw [hm] at h
          simp only at h
          rw [markUnpinnedC_alone _ _ { w with rep := r } r' (by rw [markUnpinned_rep]; exact hm)]
          exact tryEvictC_alone e k n { w with rep := r' } w' f h

theorem getFrameC_alone (e : Env) (k : Option Nat → Code B) (w w' : World B) (f : Option Nat) (h : w.getFrame e = some (w', f)) : (getFrameC e k).alone w = (k f).alone w' := by
  unfold getFrameC
  unfold World.getFrame at h
  simp only [alone_lock, alone_act, alone_unlock]
  cases hl : w.free.getLast? with
  | some v =>
    simp only [hl, Option.some.injEq, Prod.mk.injEq] at h
    obtain ⟨rfl, rfl⟩ := h
    rfl
  | none =>
    rw [hl] at h
    simp only at h
    simp only [alone_lock]
    have hfree : ({ w with free := w.free.dropLast } : World B) = w := by
      rw [List.getLast?_eq_none_iff] at hl
      simp [hl]
      rw [← hl]
    rw [hfree]
    exact tryEvictC_alone e k _ w w' f h

theorem touchC_alone (e : Env) (f : Nat) (ev : Bool) (held : List (Lock × Mode)) (k : Code B) (w w' : World B) (h : w.touch e f ev = some w') :
    (touchC e f ev held k).alone w = k.alone w' := by
  unfold touchC
  simp only [alone_lock, alone_look, h, alone_act, alone_unlock]
  unfold World.touch at h
  split at h
  · cases h
  · simp only [Option.some.injEq] at h
    subst h
    rfl

/-- Everything that happens to the state besides the replacer, when a page is installed. -/
theorem metadataC_alone (e : Env) (f pid o : Nat) (k : Code B) (w w' : World B) (hf : f < w.frames.length)
    (h : ({ w with frames := w.frames.set f (some o), table := w.table.set pid f } : World B).touch e f false = some w') : (metadataC e f pid o k).alone w = k.alone w' := by
  unfold metadataC
  simp only [alone_lock, alone_look, hf, if_true, alone_act, alone_unlock]
  exact touchC_alone e f false [] k _ w' h

theorem install_some {w w' : World B} {e : Env} {f : Nat} {p : Page B} {g : Option Nat} (h : w.install e f p = some (w', g)) :
    f < w.frames.length ∧ ∃ w1, ({ w with objs := w.objs ++ [p], frames := w.frames.set f (some w.objs.length), table := w.table.set p.id f } : World B).touch e f false = some w1 ∧
      w' = { w1 with guards := w1.guards ++ [some ⟨p.id, w.objs.length, false⟩] } ∧ g = some w1.guards.length := by
  unfold World.install at h
  split at h
  · rename_i hf
    simp only at h
    split at h
    · cases h
    · rename_i w1 hw
      simp only [Option.some.injEq, Prod.mk.injEq] at h
      exact ⟨hf, w1, hw, h.1.symm, h.2.symm⟩
  · cases h

theorem newPageC_alone (e : Env) (c : Content B) (k : Code B) (w w' : World B) (g : Option Nat) (h : w.newPage e c = some (w', g)) : (newPageC e c k).alone w = k.alone w' := by
  unfold World.newPage at h
  unfold newPageC
  cases hg : w.getFrame e with
  | none => simp [hg] at h
  | some x =>
    obtain ⟨w1, f⟩ := x
    rw [hg] at h
    rw [getFrameC_alone e _ w w1 f hg]
    cases f with
    | none =>
      simp only [Option.some.injEq, Prod.mk.injEq] at h
      rw [← h.1]
    | some f =>
      simp only at h
      obtain ⟨hf, w2, ht, rfl, _⟩ := install_some h
      simp only [evictIfNecessaryC_alone, alone_act]
      refine Eq.trans (metadataC_alone e f _ _ _ _ w2 ?_ ?_) ?_
      · exact hf
      · exact ht
      · rfl

theorem loadC_alone (e : Env) (ty pid : Nat) (k : Code B) (w w' : World B) (g : Option Nat) (h : w.load e ty pid = some (w', g)) : (loadC e ty pid k).alone w = k.alone w' := by
  unfold World.load at h
  unfold loadC
  cases hg : w.getFrame e with
  | none => simp [hg] at h
  | some x =>
    obtain ⟨w1, f⟩ := x
    rw [hg] at h
    rw [getFrameC_alone e _ w w1 f hg]
    cases f with
    | none =>
      simp only [Option.some.injEq, Prod.mk.injEq] at h
      rw [← h.1]
    | some f =>
      simp only at h
      simp only [evictIfNecessaryC_alone, alone_look]
      split at h
      · rename_i hd
        simp only [Option.some.injEq, Prod.mk.injEq] at h
        simp only [hd]
        rw [← h.1]
      · rename_i c hd
        simp only [hd]
        by_cases hc : c.ty = ty
        · simp only [hc, if_true] at h ⊢
          obtain ⟨hf, w2, ht, rfl, _⟩ := install_some h
          simp only [alone_act, alone_lock, alone_unlock]
          refine Eq.trans (metadataC_alone e f _ _ _ _ w2 ?_ ?_) ?_
          · exact hf
          · exact ht
          · rfl
        · simp only [hc, if_false, Option.some.injEq, Prod.mk.injEq] at h ⊢
          rw [← h.1]

theorem touch_fields {w w' : World B} {e : Env} {f : Nat} {ev : Bool} (h : w.touch e f ev = some w') : w' = { w with rep := w'.rep } := by
  unfold World.touch at h
  split at h
  · cases h
  · simp only [Option.some.injEq] at h
    subst h
    rfl

theorem fetchPageC_alone (e : Env) (ty pid : Nat) (k : Code B) (w w' : World B) (g : Option Nat) (h : w.fetchPage e ty pid = some (w', g)) :
    (fetchPageC e ty pid k).alone w = k.alone w' := by
  unfold World.fetchPage at h
  unfold fetchPageC
  simp only [alone_look]
  by_cases hp : pid ≥ w.next
  · simp only [hp, if_true, Option.some.injEq, Prod.mk.injEq] at h ⊢
    rw [h.1]
  · simp only [hp, if_false] at h ⊢
    simp only [alone_lock, alone_look]
    unfold World.resident at h
    cases ht : w.table.get pid with
    | none =>
      rw [ht] at h
      simp only at h
      simp only [alone_unlock]
      exact loadC_alone e ty pid k w w' g h
    | some f =>
      rw [ht] at h
      simp only at h
      simp only [alone_lock, alone_look]
      by_cases hf : f < w.frames.length
      · simp only [hf, if_true] at h ⊢
        simp only [alone_unlock]
        cases hfr : w.frame f with
        | none =>
          rw [hfr] at h
          exact loadC_alone e ty pid k w w' g h
        | some o =>
          rw [hfr] at h
          simp only at h
          cases ho : w.objs[o]? with
          | none => simp [ho] at h
          | some p =>
            rw [ho] at h
            simp only at h
            simp only [fetchResidentC, alone_lock, alone_look, alone_unlock, ho]
            by_cases hty : p.data.ty = ty
            · simp only [hty, ne_eq, not_true_eq_false, if_false] at h ⊢
              simp only [alone_lock, alone_look, ht]
              split at h
              · cases h
              · rename_i w1 hw
                simp only [Option.some.injEq, Prod.mk.injEq] at h
                rw [touchC_alone e f false _ _ w w1 hw]
                simp only [alone_lock, alone_act, alone_unlock, handOut]
                rw [← h.1]
            · simp only [hty, ne_eq, not_false_eq_true, if_true, Option.some.injEq, Prod.mk.injEq] at h ⊢
              rw [h.1]
      · simp [hf] at h

theorem unpinC_alone (e : Env) (pid : Nat) (d : Bool) (k : Code B) (w w' : World B) (b : Bool) (h : w.unpin e pid d = some (w', b)) : (unpinC e pid d k).alone w = k.alone w' := by
  unfold World.unpin at h
  unfold unpinC
  simp only [alone_lock, alone_look, alone_unlock]
  cases ht : w.table.get pid with
  | none =>
    simp only [ht, Option.some.injEq, Prod.mk.injEq] at h
    rw [h.1]
  | some f =>
    rw [ht] at h
    simp only at h
    simp only [alone_lock, alone_look]
    cases hf : w.frame f with
    | none =>
      simp only [hf, Option.some.injEq, Prod.mk.injEq] at h
      simp only [alone_unlock]
      rw [h.1]
    | some o =>
      rw [hf] at h
      simp only at h
      simp only [alone_lock, alone_act]
      cases ho : w.objs[o]? with
      | none => simp [ho] at h
      | some p =>
        rw [ho] at h
        simp only at h
        simp only
        by_cases hp : p.pin > 0
        · simp only [hp, if_true] at h ⊢
          simp only [alone_act]
          by_cases h1 : p.pin = 1
          · simp only [h1, if_true] at h ⊢
            split at h
            · cases h
            · rename_i w1 hw
              simp only [Option.some.injEq, Prod.mk.injEq] at h
              rw [touchC_alone e f true _ _ _ w1 hw]
              simp only [alone_unlock]
              rw [h.1]
          · simp only [h1, if_false, Option.some.injEq, Prod.mk.injEq] at h ⊢
            simp only [alone_unlock]
            rw [← h.1]
        · simp only [hp, if_false, Option.some.injEq, Prod.mk.injEq] at h ⊢
          simp only [alone_unlock]
          rw [← h.1]

theorem set_none_join {w : World B} {g : Nat} (h : (w.guards[g]?).join = none) : ({ w with guards := w.guards.set g none } : World B) = w := by
  have : w.guards.set g none = w.guards := by
    apply List.ext_getElem?
    intro i
    rw [List.getElem?_set]
    split
    · rename_i hi
      subst hi
      cases hg : w.guards[g]? with
      | none => simp [List.getElem?_eq_none_iff] at hg; simp; omega
      | some x =>
        rw [hg] at h
        simp only [Option.join_some] at h
        subst h
        obtain ⟨hlt, _⟩ := List.getElem?_eq_some_iff.mp hg
        simp [hlt]
    · rfl
  rw [this]

theorem dropC_alone (e : Env) (g : Nat) (k : Code B) (w w' : World B) (h : w.dropGuard e g = some w') : (dropC e g k).alone w = k.alone w' := by
  unfold World.dropGuard at h
  unfold dropC
  simp only [alone_act]
  cases hg : (w.guards[g]?).join with
  | none =>
    simp only [hg, Option.some.injEq] at h
    simp only
    rw [set_none_join hg, h]
  | some gd =>
    rw [hg] at h
    simp only at h
    split at h
    · cases h
    · rename_i w1 b hu
      simp only [Option.some.injEq] at h
      subst h
      exact unpinC_alone e _ _ k _ _ b hu

theorem writeC_alone (g : Nat) (b : B) (k : Code B) (w : World B) : (writeC g b k).alone w = k.alone (w.write g b) := by
  unfold writeC World.write
  simp only [Prog.alone, World.noteWrite]
  cases (w.guards[g]?).join <;> rfl

theorem readC_alone (g : Nat) (k : Code B) (w : World B) : (readC g k).alone w = k.alone w := by
  unfold readC
  simp only [alone_look]
  cases (w.guards[g]?).join <;> rfl

theorem searchC_alone (pid : Nat) (k : Option Nat → Code B) (w : World B) : ∀ fs, (searchC pid k fs).alone w =
    (k ((fs.find? fun f => match w.pageAt f with | some p => p.id == pid | none => false).bind w.frame)).alone w
  | [] => rfl
  | f :: fs => by
    unfold searchC
    simp only [alone_look, List.find?_cons]
    have ih := searchC_alone pid k w fs
    unfold World.pageAt at ih ⊢
    cases hf : w.frame f with
    | none => simpa using ih
    | some o =>
      simp only [alone_lock, alone_look, alone_unlock, Option.bind_some]
      cases ho : w.objs[o]? with
      | none => simpa using ih
      | some p =>
        by_cases hp : p.id = pid
        · simp [hp, hf]
        · have : (p.id == pid) = false := by simpa using hp
          simp only [hp, if_false, this]
          exact ih

theorem writePageC_alone (pid : Nat) (b : B) (k : Code B) (w : World B) : (writePageC pid b k).alone w = k.alone (w.writePage pid b) := by
  unfold writePageC World.writePage World.findFrame
  simp only [alone_lock, alone_look, searchC_alone]
  cases (List.range w.frames.length).find? fun f => match w.pageAt f with | some p => p.id == pid | none => false with
  | none => rfl
  | some f =>
    simp only [Option.bind_some]
    cases w.frame f <;> rfl

theorem flushC_alone (e : Env) (pid : Nat) (k : Code B) (w : World B) : (flushC e pid k).alone w = k.alone (w.flushPage e pid).1 := by
  unfold flushC World.flushPage
  simp only [alone_lock, alone_look, alone_unlock]
  cases w.table.get pid with
  | none => rfl
  | some f =>
    simp only [alone_lock, alone_look, alone_unlock]
    cases w.frame f with
    | none => rfl
    | some o => exact writeOutC_alone e pid o k w

theorem deleteFrameC_alone (f pid : Nat) (k : Code B) (w : World B) : (deleteFrameC f pid k).alone w = k.alone (if f < w.frames.length then
    { w with frames := w.frames.set f none, table := w.table.erase pid, free := w.free ++ [f], rep := Replacer.remove w.rep f } else w) := by
  unfold deleteFrameC
  simp only [alone_lock, alone_look]
  by_cases hf : f < w.frames.length
  · simp [hf]
  · simp [hf]

theorem deleteC_alone (pid : Nat) (k : Code B) (w : World B) : (deleteC pid k).alone w = k.alone (w.deletePage pid).1 := by
  unfold deleteC World.deletePage World.pageAt
  simp only [alone_lock, alone_look, alone_unlock]
  cases w.table.get pid with
  | none => rfl
  | some f =>
    simp only [alone_lock, alone_look]
    cases hf : w.frame f with
    | none =>
      simp only [alone_unlock, deleteFrameC_alone, Option.bind_none]
      by_cases h : f < w.frames.length <;> simp [h]
    | some o =>
      simp only [alone_lock, alone_look, alone_unlock, Option.bind_some]
      cases ho : w.objs[o]? with
      | none =>
        simp only [deleteFrameC_alone]
        by_cases h : f < w.frames.length <;> simp [h]
      | some p =>
        simp only
        by_cases hp : p.pin > 0
        · simp [hp]
        · simp only [hp, if_false, deleteFrameC_alone]
          by_cases h : f < w.frames.length <;> simp [h]

/-- A call that runs alone and does not panic does what the model of the pool says. -/
theorem opC_alone (e : Env) (op : Op B) (k : Code B) (w w' : World B) (out : Out B) (h : step w e op = some (w', out)) : (opC e op k).alone w = k.alone w' := by
  cases op with
  | new c =>
    simp only [step, Option.map_eq_some_iff] at h
    obtain ⟨⟨w1, g⟩, h1, h2⟩ := h
    simp only [Prod.mk.injEq] at h2
    rw [← h2.1]
    exact newPageC_alone e c k w w1 g h1
  | fetch ty pid =>
    simp only [step, Option.map_eq_some_iff] at h
    obtain ⟨⟨w1, g⟩, h1, h2⟩ := h
    simp only [Prod.mk.injEq] at h2
    rw [← h2.1]
    exact fetchPageC_alone e ty pid k w w1 g h1
  | drop g =>
    simp only [step, Option.map_eq_some_iff] at h
    obtain ⟨w1, h1, h2⟩ := h
    simp only [Prod.mk.injEq] at h2
    rw [← h2.1]
    exact dropC_alone e g k w w1 h1
  | write g b =>
    simp only [step, Option.some.injEq, Prod.mk.injEq] at h
    rw [← h.1]
    exact writeC_alone g b k w
  | read g =>
    simp only [step, Option.some.injEq, Prod.mk.injEq] at h
    rw [← h.1]
    exact readC_alone g k w
  | writePage pid b =>
    simp only [step, Option.some.injEq, Prod.mk.injEq] at h
    rw [← h.1]
    exact writePageC_alone pid b k w
  | flush pid =>
    simp only [step, Option.some.injEq, Prod.mk.injEq] at h
    rw [← h.1]
    exact flushC_alone e pid k w
  | delete pid =>
    simp only [step, Option.some.injEq, Prod.mk.injEq] at h
    rw [← h.1]
    exact deleteC_alone pid k w

end Verif.Pool
