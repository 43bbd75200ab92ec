import Verif.Pool.Spec

/-! # Lemmas about the buffer pool -/

namespace Verif.Pool

open Verif.Replacer (Rep Rel)
open Verif.Replacer.Spec (Evictable upd State)

variable {B : Type}

/-! ### Replacer calls, seen through their specification -/

/-- Frame `f` and only it changes: it becomes `b`. -/
def EvChange (s s' : State) (f : Nat) (b : Prop) : Prop := ∀ g, Evictable s' g ↔ if g = f then b else Evictable s g

theorem evictable_upd (s : State) (f : Nat) (x : Option (List Nat × Bool)) (g : Nat) :
    Evictable (upd s f x) g ↔ if g = f then (∃ h, x = some (h, true)) else Evictable s g := by
  unfold Evictable upd
  by_cases h : g = f <;> simp [h]

theorem not_evictable_of {s : State} {f : Nat} {h : List Nat} (hs : s f = some (h, false)) : ¬ Evictable s f := by
  rintro ⟨h', h2⟩; rw [hs] at h2; cases h2

theorem rep_access {r : Rep} {s : State} (hk : 1 ≤ r.k) (hk2 : r.k ≤ Replacer.u64Max) (h : Rel r s) (f now : Nat) :
    ∃ s', Rel (Replacer.recordAccess r f now) s' ∧ (Replacer.recordAccess r f now).k = r.k ∧
      (∀ g, Evictable s' g ↔ Evictable s g) ∧ (s' f).isSome := by
  obtain ⟨r', out, s', h1, h2, h3, h4⟩ := Replacer.step_sim hk hk2 h (.recordAccess f now)
  simp only [Replacer.step, Option.some.injEq, Prod.mk.injEq] at h1
  obtain ⟨rfl, rfl⟩ := h1
  refine ⟨s', h3, h4, ?_, ?_⟩
  · cases h2
    intro g
    rw [evictable_upd]
    by_cases hg : g = f
    · subst hg
      rw [if_pos rfl]
      unfold Evictable
      cases hs : s g with
      | none => simp
      | some x => obtain ⟨a, b⟩ := x; simp
    · rw [if_neg hg]
  · cases h2
    simp [upd]

theorem rep_set {r : Rep} {s : State} (hk : 1 ≤ r.k) (hk2 : r.k ≤ Replacer.u64Max) (h : Rel r s) (f : Nat) (b : Bool)
    (ht : (s f).isSome) :
    ∃ r' x s', Replacer.setEvictable r f b = some (r', x) ∧ Rel r' s' ∧ r'.k = r.k ∧ EvChange s s' f (b = true) := by
  obtain ⟨r', out, s', h1, h2, h3, h4⟩ := Replacer.step_sim hk hk2 h (.setEvictable f b)
  simp only [Replacer.step, Option.map_eq_some_iff] at h1
  obtain ⟨⟨a, x⟩, h5, h6⟩ := h1
  cases h6
  refine ⟨a, x, s', h5, h3, h4, ?_⟩
  intro g
  cases h2 with
  | setUntracked _ _ hn => rw [hn] at ht; cases ht
  | setSame _ _ hh hs =>
    by_cases hg : g = f
    · subst hg; rw [if_pos rfl]; unfold Evictable; simp [hs]
    · rw [if_neg hg]
  | setFlip _ _ hh hs =>
    rw [evictable_upd]
    by_cases hg : g = f <;> simp [hg]

/-- Marking a frame that may be untracked. -/
theorem rep_mark {r : Rep} {s : State} (hk : 1 ≤ r.k) (hk2 : r.k ≤ Replacer.u64Max) (h : Rel r s) (f : Nat) (b : Bool)
    (ht : ∀ g, Evictable s g ↔ if g = f then b = true else Evictable s g) :
    ∃ r' x s', Replacer.setEvictable r f b = some (r', x) ∧ Rel r' s' ∧ r'.k = r.k ∧ ∀ g, Evictable s' g ↔ Evictable s g := by
  obtain ⟨r', out, s', h1, h2, h3, h4⟩ := Replacer.step_sim hk hk2 h (.setEvictable f b)
  simp only [Replacer.step, Option.map_eq_some_iff] at h1
  obtain ⟨⟨a, x⟩, h5, h6⟩ := h1
  cases h6
  refine ⟨a, x, s', h5, h3, h4, ?_⟩
  intro g
  cases h2 with
  | setUntracked _ _ hn => rfl
  | setSame _ _ hh hs => rfl
  | setFlip _ _ hh hs =>
    rw [evictable_upd, ht g]
    by_cases hg : g = f <;> simp [hg]

theorem rep_touch {r : Rep} {s : State} (hk : 1 ≤ r.k) (hk2 : r.k ≤ Replacer.u64Max) (h : Rel r s) (f now : Nat) (b : Bool) :
    ∃ r' x s', Replacer.setEvictable (Replacer.recordAccess r f now) f b = some (r', x) ∧ Rel r' s' ∧ r'.k = r.k ∧
      EvChange s s' f (b = true) := by
  obtain ⟨s1, h1, h2, h3, h4⟩ := rep_access hk hk2 h f now
  obtain ⟨r', x, s', h5, h6, h7, h8⟩ := rep_set (by omega) (by omega) h1 f b h4
  refine ⟨r', x, s', h5, h6, by omega, ?_⟩
  intro g
  rw [h8 g]
  by_cases hg : g = f <;> simp [hg, h3]

theorem rep_remove {r : Rep} {s : State} (hk : 1 ≤ r.k) (hk2 : r.k ≤ Replacer.u64Max) (h : Rel r s) (f : Nat) :
    ∃ s', Rel (Replacer.remove r f) s' ∧ (Replacer.remove r f).k = r.k ∧ EvChange s s' f False := by
  obtain ⟨r', out, s', h1, h2, h3, h4⟩ := Replacer.step_sim hk hk2 h (.remove f)
  simp only [Replacer.step, Option.some.injEq, Prod.mk.injEq] at h1
  obtain ⟨rfl, rfl⟩ := h1
  refine ⟨s', h3, h4, ?_⟩
  intro g
  cases h2 with
  | removeEvictable _ he =>
    rw [evictable_upd]
    by_cases hg : g = f <;> simp [hg]
  | removeOther _ he =>
    by_cases hg : g = f
    · subst hg; simp [he]
    · simp [hg]

theorem rep_evict {r : Rep} {s : State} (hk : 1 ≤ r.k) (hk2 : r.k ≤ Replacer.u64Max) (h : Rel r s) :
    ∃ r' x s', Replacer.evict r = some (r', x) ∧ Rel r' s' ∧ r'.k = r.k ∧
      match x with
      | none => (∀ f, ¬ Evictable s f) ∧ (∀ f, Evictable s' f ↔ Evictable s f)
      | some f => Evictable s f ∧ EvChange s s' f False := by
  obtain ⟨r', out, s', h1, h2, h3, h4⟩ := Replacer.step_sim hk hk2 h .evict
  simp only [Replacer.step, Option.map_eq_some_iff] at h1
  obtain ⟨⟨a, x⟩, h5, h6⟩ := h1
  cases h6
  refine ⟨a, x, s', h5, h3, h4, ?_⟩
  cases h2 with
  | evictNone hn => exact ⟨hn, fun _ => Iff.rfl⟩
  | evictSome f hh hs hv =>
    refine ⟨⟨hh, hs⟩, ?_⟩
    intro g
    rw [evictable_upd]
    by_cases hg : g = f <;> simp [hg]

/-! ### The invariant -/

/-- The number of guards on object `o`. -/
def pinsOn (gs : List (Option Guard)) (o : Nat) : Nat := gs.countP (fun g => g.any (·.obj == o))

structure Inv (w : World B) (s : State) : Prop where
  len : w.frames.length = w.size
  rel : Rel w.rep s
  k1 : 1 ≤ w.rep.k
  k2 : w.rep.k ≤ Replacer.u64Max
  wf : w.table.WF
  tbl : ∀ pid f, w.table.get pid = some f ↔ ∃ o p, w.Holds f o p ∧ p.id = pid
  heap : ∀ (f o : Nat), w.frames[f]? = some (some o) → ∃ p, w.objs[o]? = some p
  freeOk : ∀ f ∈ w.free, w.frames[f]? = some none
  freeNd : w.free.Nodup
  ev : ∀ f, Evictable s f ↔ ∃ o p, w.Holds f o p ∧ p.pin = 0
  gd : ∀ g gd, w.Live g gd → ∃ f p, w.Holds f gd.obj p ∧ p.id = gd.pid
  pin : ∀ f o p, w.Holds f o p → p.pin = pinsOn w.guards o
  old : ∀ f o p, w.Holds f o p → p.id < w.next

theorem Inv.inj {w : World B} {s : State} (h : Inv w s) {f f' o o' : Nat} {p p' : Page B} (h1 : w.Holds f o p) (h2 : w.Holds f' o' p')
    (h3 : p.id = p'.id) : f = f' := by
  have a := (h.tbl p.id f).2 ⟨o, p, h1, rfl⟩
  have b := (h.tbl p.id f').2 ⟨o', p', h2, h3.symm⟩
  rw [a] at b
  exact Option.some.inj b

theorem Inv.inj_obj {w : World B} {s : State} (h : Inv w s) {f f' o : Nat} {p p' : Page B} (h1 : w.Holds f o p) (h2 : w.Holds f' o p') :
    f = f' ∧ p = p' := by
  have : p = p' := Option.some.inj (h1.2.symm.trans h2.2)
  subst this
  exact ⟨h.inj h1 h2 rfl, rfl⟩

theorem frame_eq {w : World B} {f o : Nat} : w.frame f = some o ↔ w.frames[f]? = some (some o) := by
  unfold World.frame
  cases w.frames[f]? with
  | none => simp
  | some x => simp

theorem pageAt_eq {w : World B} {f : Nat} {p : Page B} : w.pageAt f = some p ↔ ∃ o, w.Holds f o p := by
  unfold World.pageAt World.Holds
  rw [Option.bind_eq_some_iff]
  simp only [frame_eq]

theorem pageAt_none {w : World B} {s : State} (h : Inv w s) {f : Nat} : w.pageAt f = none ↔ ∀ o, w.frames[f]? ≠ some (some o) := by
  constructor
  · intro h1 o ho
    obtain ⟨p, hp⟩ := h.heap f o ho
    rw [pageAt_eq.2 ⟨o, ho, hp⟩] at h1
    cases h1
  · intro h1
    cases hp : w.pageAt f with
    | none => rfl
    | some p =>
      obtain ⟨o, ho⟩ := pageAt_eq.1 hp
      exact absurd ho.1 (h1 o)

theorem pinsOn_pos {gs : List (Option Guard)} {o : Nat} : 0 < pinsOn gs o ↔ ∃ (g : Nat) (gd : Guard), gs[g]? = some (some gd) ∧ gd.obj = o := by
  unfold pinsOn
  rw [List.countP_pos_iff]
  constructor
  · rintro ⟨x, hx, h⟩
    obtain ⟨g, hg⟩ := List.getElem?_of_mem hx
    cases x with
    | none => simp at h
    | some gd => exact ⟨g, gd, hg, by simpa using h⟩
  · rintro ⟨g, gd, h1, h2⟩
    exact ⟨some gd, List.mem_of_getElem? h1, by simp [h2]⟩

theorem pinsOn_append (gs : List (Option Guard)) (gd : Guard) (o : Nat) :
    pinsOn (gs ++ [some gd]) o = pinsOn gs o + if gd.obj = o then 1 else 0 := by
  unfold pinsOn
  rw [List.countP_append]
  simp [List.countP_cons]

theorem countP_set_getElem {α : Type} (p : α → Bool) : ∀ (l : List α) (i : Nat) (x y : α), l[i]? = some y →
    (l.set i x).countP p + (if p y then 1 else 0) = l.countP p + if p x then 1 else 0
  | [], i, x, y, h => by simp at h
  | a :: l, 0, x, y, h => by
    simp only [List.getElem?_cons_zero, Option.some.injEq] at h
    subst h
    simp only [List.set_cons_zero, List.countP_cons]
    omega
  | a :: l, i + 1, x, y, h => by
    simp only [List.getElem?_cons_succ] at h
    have := countP_set_getElem p l i x y h
    simp only [List.set_cons_succ, List.countP_cons]
    omega

theorem pinsOn_drop {gs : List (Option Guard)} {g : Nat} {gd : Guard} (h : gs[g]? = some (some gd)) (o : Nat) :
    pinsOn (gs.set g none) o + (if gd.obj = o then 1 else 0) = pinsOn gs o := by
  have := countP_set_getElem (fun g : Option Guard => g.any (·.obj == o)) gs g none (some gd) h
  unfold pinsOn
  simpa using this

theorem pinsOn_dirty {gs : List (Option Guard)} {g : Nat} {gd : Guard} (h : gs[g]? = some (some gd)) (b : Bool) (o : Nat) :
    pinsOn (gs.set g (some { gd with dirty := b })) o = pinsOn gs o := by
  have := countP_set_getElem (fun g : Option Guard => g.any (·.obj == o)) gs g (some { gd with dirty := b }) (some gd) h
  unfold pinsOn
  simpa using this

/-! ### Changes to a page object -/

theorem holds_modify {w : World B} {o : Nat} {g : Page B → Page B} {f o' : Nat} {p : Page B} :
    (w.modifyObj o g).Holds f o' p ↔ ∃ q, w.Holds f o' q ∧ p = if o' = o then g q else q := by
  unfold World.Holds World.modifyObj
  simp only [List.getElem?_modify]
  cases hq : w.objs[o']? with
  | none => simp
  | some q =>
    simp only [Option.map_eq_map, Option.map_some, Option.some.injEq]
    constructor
    · rintro ⟨h1, h2⟩
      refine ⟨q, ⟨h1, rfl⟩, ?_⟩
      rw [← h2]
      by_cases h : o = o'
      · rw [if_pos h, if_pos h.symm]
      · rw [if_neg h, if_neg (fun e => h e.symm)]
    · rintro ⟨_, ⟨h1, rfl⟩, h3⟩
      refine ⟨h1, ?_⟩
      rw [h3]
      by_cases h : o = o'
      · rw [if_pos h, if_pos h.symm]
      · rw [if_neg h, if_neg (fun e => h e.symm)]

/-- Changing bytes or the dirty flag. -/
theorem inv_modify {w : World B} {s : State} (h : Inv w s) (o : Nat) (g : Page B → Page B) (h1 : ∀ p, (g p).id = p.id)
    (h2 : ∀ p, (g p).pin = p.pin) : Inv (w.modifyObj o g) s := by
  have key : ∀ f o' p, (w.modifyObj o g).Holds f o' p → ∃ q, w.Holds f o' q ∧ q.id = p.id ∧ q.pin = p.pin := by
    intro f o' p hp
    obtain ⟨q, hq, e⟩ := holds_modify.1 hp
    refine ⟨q, hq, ?_⟩
    by_cases ho : o' = o <;> simp [ho] at e <;> subst e <;> simp [h1, h2]
  have key' : ∀ f o' q, w.Holds f o' q → ∃ p, (w.modifyObj o g).Holds f o' p ∧ q.id = p.id ∧ q.pin = p.pin := by
    intro f o' q hq
    refine ⟨_, holds_modify.2 ⟨q, hq, rfl⟩, ?_⟩
    by_cases ho : o' = o <;> simp [ho, h1, h2]
  constructor
  · exact h.len
  · exact h.rel
  · exact h.k1
  · exact h.k2
  · exact h.wf
  · intro pid f
    rw [show (w.modifyObj o g).table = w.table from rfl, h.tbl]
    constructor
    · rintro ⟨o', p, hp, rfl⟩
      obtain ⟨q, hq, e, _⟩ := key' f o' p hp
      exact ⟨o', q, hq, e.symm⟩
    · rintro ⟨o', p, hp, rfl⟩
      obtain ⟨q, hq, e, _⟩ := key f o' p hp
      exact ⟨o', q, hq, e⟩
  · intro f o' ho
    obtain ⟨p, hp⟩ := h.heap f o' ho
    obtain ⟨q, hq, _⟩ := key' f o' p ⟨ho, hp⟩
    exact ⟨q, hq.2⟩
  · exact h.freeOk
  · exact h.freeNd
  · intro f
    rw [h.ev]
    constructor
    · rintro ⟨o', p, hp, e0⟩
      obtain ⟨q, hq, _, e⟩ := key' f o' p hp
      exact ⟨o', q, hq, by omega⟩
    · rintro ⟨o', p, hp, e0⟩
      obtain ⟨q, hq, _, e⟩ := key f o' p hp
      exact ⟨o', q, hq, by omega⟩
  · intro g' gd hg
    obtain ⟨f, p, hp, e⟩ := h.gd g' gd hg
    obtain ⟨q, hq, e2, _⟩ := key' f _ p hp
    exact ⟨f, q, hq, by rw [← e2, e]⟩
  · intro f o' p hp
    obtain ⟨q, hq, _, e⟩ := key f o' p hp
    rw [← e]
    exact h.pin f o' q hq
  · intro f o' p hp
    obtain ⟨q, hq, e, _⟩ := key f o' p hp
    rw [← e]
    exact h.old f o' q hq

/-- What is on the disk does not matter. -/
theorem inv_store {w : World B} {s : State} (h : Inv w s) (pid : Nat) (c : Content B) : Inv (w.store pid c) s :=
  ⟨h.len, h.rel, h.k1, h.k2, h.wf, h.tbl, h.heap, h.freeOk, h.freeNd, h.ev, h.gd, h.pin, h.old⟩

theorem inv_writeOut {w : World B} {s : State} (h : Inv w s) (e : Env) (pid o : Nat) : Inv (w.writeOut e pid o) s := by
  unfold World.writeOut
  split
  · exact h
  · split
    · exact inv_modify (inv_store h _ _) _ _ (fun _ => rfl) (fun _ => rfl)
    · exact h

/-- The guard remembers that it wrote. -/
theorem inv_guardDirty {w : World B} {s : State} (h : Inv w s) {g : Nat} {gd : Guard} (hg : w.Live g gd) (b : Bool) :
    Inv { w with guards := w.guards.set g (some { gd with dirty := b }) } s := by
  refine ⟨h.len, h.rel, h.k1, h.k2, h.wf, h.tbl, h.heap, h.freeOk, h.freeNd, h.ev, ?_, ?_, h.old⟩
  · intro g' gd' hg'
    unfold World.Live at hg'
    simp only [List.getElem?_set] at hg'
    by_cases e : g = g'
    · subst e
      have hlt : g < w.guards.length := (List.getElem?_eq_some_iff.1 hg).1
      simp only [if_true, hlt, Option.some.injEq] at hg'
      subst hg'
      exact h.gd g gd hg
    · rw [if_neg e] at hg'
      exact h.gd g' gd' hg'
  · intro f o p hp
    rw [h.pin f o p hp]
    exact (pinsOn_dirty hg b o).symm

/-! ### Removing a page from its frame -/

theorem holds_clear {w : World B} {fr : Nat} {t : AMap Nat Nat} {r : Rep} {fs : List Nat} {f o : Nat} {p : Page B} :
    World.Holds { w with frames := w.frames.set fr none, table := t, rep := r, free := fs } f o p ↔ f ≠ fr ∧ w.Holds f o p := by
  unfold World.Holds
  simp only [List.getElem?_set]
  by_cases h : fr = f
  · subst h
    simp only [if_true]
    constructor
    · rintro ⟨h1, h2⟩; split at h1 <;> simp at h1
    · rintro ⟨h1, _⟩; exact absurd rfl h1
  · rw [if_neg h]
    constructor
    · intro h1; exact ⟨fun e => h e.symm, h1⟩
    · intro h1; exact h1.2

theorem inv_clear {w : World B} {s s' : State} (h : Inv w s) {r : Rep} (hr : Rel r s') (hk : r.k = w.rep.k) {f o : Nat} {p : Page B}
    (hp : w.Holds f o p) (h0 : p.pin = 0) (hev : EvChange s s' f False) (fs : List Nat) (hfs : fs = w.free ∨ fs = w.free ++ [f]) :
    Inv { w with frames := w.frames.set f none, table := w.table.erase p.id, rep := r, free := fs } s' := by
  have hlt : f < w.frames.length := (List.getElem?_eq_some_iff.1 hp.1).1
  have hff : f ∉ w.free := by
    intro hm
    have := h.freeOk f hm
    rw [hp.1] at this
    cases this
  refine ⟨?_, hr, by rw [hk]; exact h.k1, by rw [hk]; exact h.k2, AMap.wf_erase h.wf _, ?_, ?_, ?_, ?_, ?_, ?_, ?_, ?_⟩
  · simp [h.len]
  · intro pid f'
    simp only [AMap.get_erase]
    constructor
    · intro hg
      by_cases e : p.id = pid
      · rw [if_pos e] at hg; cases hg
      · rw [if_neg e] at hg
        obtain ⟨o', p', hp', e'⟩ := (h.tbl pid f').1 hg
        refine ⟨o', p', holds_clear.2 ⟨?_, hp'⟩, e'⟩
        rintro rfl
        have := Option.some.inj (hp.1.symm.trans hp'.1)
        cases this
        have := Option.some.inj (hp.2.symm.trans hp'.2)
        subst this
        exact e e'
    · rintro ⟨o', p', hp', e'⟩
      obtain ⟨h1, h2⟩ := holds_clear.1 hp'
      rw [if_neg]
      · exact (h.tbl pid f').2 ⟨o', p', h2, e'⟩
      · intro e
        exact h1 (h.inj h2 hp (by rw [e', e]))
  · intro f' o' ho
    simp only [List.getElem?_set] at ho
    by_cases e : f = f'
    · rw [if_pos e] at ho; split at ho <;> simp at ho
    · rw [if_neg e] at ho; exact h.heap f' o' ho
  · intro f' hf'
    simp only [List.getElem?_set]
    by_cases e : f = f'
    · rw [if_pos e, if_pos hlt]
    · rw [if_neg e]
      apply h.freeOk
      rcases hfs with rfl | rfl
      · exact hf'
      · rcases List.mem_append.1 hf' with h1 | h1
        · exact h1
        · exact absurd (List.mem_singleton.1 h1).symm e
  · rcases hfs with rfl | rfl
    · exact h.freeNd
    · rw [List.nodup_append]
      refine ⟨h.freeNd, by simp, ?_⟩
      intro a ha b hb
      rw [List.mem_singleton] at hb
      subst hb
      rintro rfl
      exact hff ha
  · intro f'
    rw [hev f']
    by_cases e : f' = f
    · rw [if_pos e]
      constructor
      · intro hh; exact hh.elim
      · rintro ⟨o', p', hp', _⟩
        exact (holds_clear.1 hp').1 e
    · rw [if_neg e, h.ev]
      constructor
      · rintro ⟨o', p', hp', h1⟩; exact ⟨o', p', holds_clear.2 ⟨e, hp'⟩, h1⟩
      · rintro ⟨o', p', hp', h1⟩; exact ⟨o', p', (holds_clear.1 hp').2, h1⟩
  · intro g gd hg
    obtain ⟨f', p', hp', e'⟩ := h.gd g gd hg
    refine ⟨f', p', holds_clear.2 ⟨?_, hp'⟩, e'⟩
    rintro rfl
    have e2 := Option.some.inj (hp.1.symm.trans hp'.1)
    cases e2
    have h3 := h.pin f' gd.obj p hp
    rw [h0] at h3
    have : 0 < pinsOn w.guards gd.obj := pinsOn_pos.2 ⟨g, gd, hg, rfl⟩
    omega
  · intro f' o' p' hp'
    exact h.pin f' o' p' (holds_clear.1 hp').2
  · intro f' o' p' hp'
    exact h.old f' o' p' (holds_clear.1 hp').2

/-! ### Eviction -/

/-- The world after the write that eviction may do first. -/
def World.cleaned (w : World B) (e : Env) (f pid : Nat) : World B :=
  match w.frame f, w.pageAt f with
  | some o, some p => if p.dirty then w.writeOut e pid o else w
  | _, _ => w

theorem evictOld_eq (w : World B) (e : Env) (f pid : Nat) : w.evictOld e f pid =
    { w.cleaned e f pid with table := (w.cleaned e f pid).table.erase pid, frames := (w.cleaned e f pid).frames.set f none } := rfl

theorem inv_cleaned {w : World B} {s : State} (h : Inv w s) (e : Env) (f pid : Nat) : Inv (w.cleaned e f pid) s := by
  unfold World.cleaned
  split
  · split
    · exact inv_writeOut h _ _ _
    · exact h
  · exact h

theorem writeOut_frame (w : World B) (e : Env) (pid o : Nat) : (w.writeOut e pid o).table = w.table ∧ (w.writeOut e pid o).frames = w.frames ∧
    (w.writeOut e pid o).rep = w.rep ∧ (w.writeOut e pid o).free = w.free ∧ (w.writeOut e pid o).guards = w.guards ∧
    (w.writeOut e pid o).next = w.next ∧ (w.writeOut e pid o).size = w.size ∧ (w.writeOut e pid o).objs.length = w.objs.length := by
  unfold World.writeOut
  split
  · simp
  · split <;> simp [World.store, World.modifyObj]

theorem cleaned_frame (w : World B) (e : Env) (f pid : Nat) : (w.cleaned e f pid).table = w.table ∧ (w.cleaned e f pid).frames = w.frames ∧
    (w.cleaned e f pid).rep = w.rep ∧ (w.cleaned e f pid).free = w.free ∧ (w.cleaned e f pid).guards = w.guards ∧
    (w.cleaned e f pid).next = w.next ∧ (w.cleaned e f pid).size = w.size ∧ (w.cleaned e f pid).objs.length = w.objs.length := by
  unfold World.cleaned
  split
  · split
    · exact writeOut_frame _ _ _ _
    · simp
  · simp

theorem holds_writeOut {w : World B} {e : Env} {pid o : Nat} {f o' : Nat} {p : Page B} :
    (w.writeOut e pid o).Holds f o' p → ∃ q, w.Holds f o' q ∧ q.id = p.id ∧ q.pin = p.pin ∧ q.data = p.data := by
  unfold World.writeOut
  split
  · intro h; exact ⟨p, h, rfl, rfl, rfl⟩
  · split
    · intro h
      obtain ⟨q, hq, e⟩ := holds_modify.1 h
      refine ⟨q, hq, ?_⟩
      by_cases ho : o' = o <;> simp [ho] at e <;> subst e <;> simp
    · intro h; exact ⟨p, h, rfl, rfl, rfl⟩

theorem holds_writeOut' {w : World B} {e : Env} {pid o : Nat} {f o' : Nat} {q : Page B} (h : w.Holds f o' q) :
    ∃ p, (w.writeOut e pid o).Holds f o' p ∧ q.id = p.id ∧ q.pin = p.pin ∧ q.data = p.data := by
  unfold World.writeOut
  split
  · exact ⟨q, h, rfl, rfl, rfl⟩
  · split
    · refine ⟨_, holds_modify.2 ⟨q, h, rfl⟩, ?_⟩
      by_cases ho : o' = o <;> simp [ho]
    · exact ⟨q, h, rfl, rfl, rfl⟩

theorem holds_cleaned {w : World B} {e : Env} {fr pid : Nat} {f o' : Nat} {p : Page B} :
    (w.cleaned e fr pid).Holds f o' p → ∃ q, w.Holds f o' q ∧ q.id = p.id ∧ q.pin = p.pin ∧ q.data = p.data := by
  unfold World.cleaned
  split
  · split
    · exact holds_writeOut
    · intro h; exact ⟨p, h, rfl, rfl, rfl⟩
  · intro h; exact ⟨p, h, rfl, rfl, rfl⟩

theorem holds_cleaned' {w : World B} {e : Env} {fr pid : Nat} {f o' : Nat} {q : Page B} (h : w.Holds f o' q) :
    ∃ p, (w.cleaned e fr pid).Holds f o' p ∧ q.id = p.id ∧ q.pin = p.pin ∧ q.data = p.data := by
  unfold World.cleaned
  split
  · split
    · exact holds_writeOut' h
    · exact ⟨q, h, rfl, rfl, rfl⟩
  · exact ⟨q, h, rfl, rfl, rfl⟩

/-- Evicting an unpinned page. -/
theorem inv_evictOld {w : World B} {s s' : State} (h : Inv w s) (e : Env) {r : Rep} (hr : Rel r s') (hk : r.k = w.rep.k) {f o : Nat}
    {p : Page B} (hp : w.Holds f o p) (h0 : p.pin = 0) (hev : EvChange s s' f False) :
    Inv (World.evictOld { w with rep := r } e f p.id) s' := by
  obtain ⟨q, hq, e1, e2, _⟩ := holds_cleaned' (e := e) (fr := f) (pid := p.id) hp
  have h1 := inv_cleaned h e f p.id
  have hkk : r.k = (w.cleaned e f p.id).rep.k := by rw [hk, (cleaned_frame w e f p.id).2.2.1]
  have := inv_clear h1 hr hkk hq (by omega) hev _ (.inl rfl)
  rw [← e1] at this
  have he : World.evictOld { w with rep := r } e f p.id =
      { w.cleaned e f p.id with frames := (w.cleaned e f p.id).frames.set f none, table := (w.cleaned e f p.id).table.erase p.id, rep := r } := by
    rw [evictOld_eq]
    have hc : World.cleaned { w with rep := r } e f p.id = { w.cleaned e f p.id with rep := r } := by
      unfold World.cleaned
      rw [show World.frame { w with rep := r } f = w.frame f from rfl, show World.pageAt { w with rep := r } f = w.pageAt f from rfl]
      split
      · split
        · unfold World.writeOut
          simp only
          split
          · rfl
          · split <;> rfl
        · rfl
      · rfl
    rw [hc]
  rw [he]
  exact this

theorem evictOld_frame (w : World B) (e : Env) (f pid : Nat) : (w.evictOld e f pid).frames = w.frames.set f none ∧
    (w.evictOld e f pid).free = w.free ∧ (w.evictOld e f pid).table = w.table.erase pid ∧ (w.evictOld e f pid).next = w.next ∧
    (w.evictOld e f pid).guards = w.guards ∧ (w.evictOld e f pid).size = w.size := by
  have h := cleaned_frame w e f pid
  rw [evictOld_eq]
  simp [h]

/-- Marking the unpinned pages evictable changes nothing, they are already. -/
theorem markUnpinned_ok {w : World B} {s0 : State} (h : Inv w s0) : ∀ (fs : List Nat) (r : Rep) (s : State), Rel r s → r.k = w.rep.k →
    (∀ g, Evictable s g ↔ Evictable s0 g) → ∃ r' s', markUnpinned w fs r = some r' ∧ Rel r' s' ∧ r'.k = w.rep.k ∧
      ∀ g, Evictable s' g ↔ Evictable s0 g := by
  intro fs
  induction fs with
  | nil => intro r s h1 h2 h3; exact ⟨r, s, rfl, h1, h2, h3⟩
  | cons f fs ih =>
    intro r s h1 h2 h3
    unfold markUnpinned
    cases hp : w.pageAt f with
    | none => exact ih r s h1 h2 h3
    | some p =>
      simp only
      by_cases h0 : p.pin = 0
      · rw [if_pos h0]
        obtain ⟨o, ho⟩ := pageAt_eq.1 hp
        have hev : Evictable s f := (h3 f).2 ((h.ev f).2 ⟨o, p, ho, h0⟩)
        obtain ⟨r', x, s', h5, h6, h7, h8⟩ := rep_mark (by have := h.k1; omega) (by have := h.k2; omega) h1 f true (by
          intro g
          by_cases e : g = f
          · subst e; simp [hev]
          · simp [e])
        rw [h5]
        exact ih r' s' h6 (by omega) (fun g => (h8 g).trans (h3 g))
      · rw [if_neg h0]
        exact ih r s h1 h2 h3

/-- A free frame has been reserved: nobody holds it and it is on no list. -/
structure Got (w w' : World B) (s' : State) (f : Nat) : Prop where
  inv : Inv w' s'
  empty : w'.frames[f]? = some none
  notFree : f ∉ w'.free
  next : w'.next = w.next
  guards : w'.guards = w.guards
  size : w'.size = w.size

/-- How `get_available_frame` found its frame. -/
inductive Frees (w w' : World B) (e : Env) (f : Nat) : Prop where
  | free : w'.frames = w.frames → w.free = w'.free ++ [f] → w'.table = w.table → w'.objs = w.objs → w'.disk = w.disk → Frees w w' e f
  | evict (o p r) : w.free = [] → w.Holds f o p → p.pin = 0 → w' = World.evictOld { w with rep := r } e f p.id → Frees w w' e f

theorem tryEvict_ok (e : Env) : ∀ (n : Nat) (w : World B) (s : State), Inv w s →
    ∃ w' x s', tryEvict e n w = some (w', x) ∧
      match x with
      | none => Inv w' s' ∧ (∃ r, w' = { w with rep := r }) ∧ (0 < n → ∀ f o p, w.Holds f o p → p.pin ≠ 0)
      | some f => Got w w' s' f ∧ ∃ o p r, w.Holds f o p ∧ p.pin = 0 ∧ w' = World.evictOld { w with rep := r } e f p.id := by
  intro n
  induction n with
  | zero => intro w s h; exact ⟨w, none, s, rfl, h, ⟨w.rep, rfl⟩, fun h => absurd h (by omega)⟩
  | succ n ih =>
    intro w s h
    unfold tryEvict
    obtain ⟨r, x, s1, h1, h2, h3, h4⟩ := rep_evict h.k1 h.k2 h.rel
    rw [h1]
    cases x with
    | none =>
      simp only at h4 ⊢
      obtain ⟨hno, hsame⟩ := h4
      obtain ⟨r', s2, h5, h6, h7, h8⟩ := markUnpinned_ok h (List.range w.frames.length) r s1 h2 h3 hsame
      rw [h5]
      have hi : Inv { w with rep := r' } s2 :=
        ⟨h.len, h6, by rw [h7]; exact h.k1, by rw [h7]; exact h.k2, h.wf, h.tbl, h.heap, h.freeOk, h.freeNd,
          fun f => (h8 f).trans (h.ev f), h.gd, h.pin, h.old⟩
      obtain ⟨w', x, s', h9, h10⟩ := ih { w with rep := r' } s2 hi
      simp only
      have hpin : ∀ f o p, w.Holds f o p → p.pin ≠ 0 := by
        intro f o p hp h0
        exact hno f ((h.ev f).2 ⟨o, p, hp, h0⟩)
      refine ⟨w', x, s', h9, ?_⟩
      cases x with
      | none =>
        obtain ⟨h11, ⟨r2, h12⟩, _⟩ := h10
        exact ⟨h11, ⟨r2, h12⟩, fun _ => hpin⟩
      | some f =>
        obtain ⟨h11, o, p, r2, h12, h13, h14⟩ := h10
        exact absurd h13 (hpin f o p h12)
    | some f =>
      simp only at h4 ⊢
      obtain ⟨hev, hch⟩ := h4
      obtain ⟨o, p, hp, h0⟩ := (h.ev f).1 hev
      have hlt : f < w.frames.length := (List.getElem?_eq_some_iff.1 hp.1).1
      have hin : (p.id, f) ∈ w.table := AMap.mem_of_get ((h.tbl p.id f).2 ⟨o, p, hp, rfl⟩)
      cases hf : w.table.find? (fun x => x.2 == f) with
      | none =>
        have := List.find?_eq_none.1 hf _ hin
        simp at this
      | some x =>
        have hx1 : x ∈ w.table := List.mem_of_find?_eq_some hf
        have hx2 : x.2 = f := by simpa using List.find?_some hf
        have hx3 : w.table.get x.1 = some f := by
          apply AMap.get_of_mem h.wf
          rw [← hx2]; exact hx1
        obtain ⟨o', p', hp', e'⟩ := (h.tbl x.1 f).1 hx3
        have hxid : x.1 = p.id := by
          have := Option.some.inj (hp.1.symm.trans hp'.1)
          cases this
          have := Option.some.inj (hp.2.symm.trans hp'.2)
          subst this
          exact e'.symm
        simp only
        rw [hxid]
        have hi := inv_evictOld h e h2 h3 hp h0 hch
        have hfr := evictOld_frame { w with rep := r } e f p.id
        refine ⟨_, some f, s1, rfl, ⟨hi, ?_, ?_, hfr.2.2.2.1, hfr.2.2.2.2.1, hfr.2.2.2.2.2⟩, o, p, r, hp, h0, rfl⟩
        · rw [hfr.1]; simp [hlt]
        · rw [hfr.2.1]
          intro hm
          have := h.freeOk f hm
          rw [hp.1] at this
          cases this

theorem getFrame_ok {w : World B} {s : State} (h : Inv w s) (e : Env) :
    ∃ w' x s', w.getFrame e = some (w', x) ∧
      match x with
      | none => Inv w' s' ∧ (∃ r, w' = { w with rep := r }) ∧ w.free = [] ∧ (∀ f o p, w.Holds f o p → p.pin ≠ 0)
      | some f => Got w w' s' f ∧ Frees w w' e f := by
  unfold World.getFrame
  rcases List.eq_nil_or_concat w.free with hnil | ⟨l, f, hl⟩
  · rw [show w.free.getLast? = none by rw [hnil]; rfl]
    obtain ⟨w', x, s', h1, h2⟩ := tryEvict_ok e w.size w s h
    refine ⟨w', x, s', h1, ?_⟩
    cases x with
    | none =>
      refine ⟨h2.1, h2.2.1, hnil, ?_⟩
      intro f o p hp
      have hlt : f < w.frames.length := (List.getElem?_eq_some_iff.1 hp.1).1
      have := h.len
      exact h2.2.2 (by omega) f o p hp
    | some f =>
      obtain ⟨h3, o, p, r, h4, h5, h6⟩ := h2
      exact ⟨h3, .evict o p r hnil h4 h5 h6⟩
  · rw [List.concat_eq_append] at hl
    rw [hl]
    simp only [List.getLast?_append, List.getLast?_singleton, Option.some_or, List.dropLast_concat]
    have hnd := h.freeNd
    rw [hl, List.nodup_append] at hnd
    refine ⟨_, some f, s, rfl, ⟨⟨h.len, h.rel, h.k1, h.k2, h.wf, h.tbl, h.heap, ?_, hnd.1, h.ev, h.gd, h.pin, h.old⟩, ?_, ?_, rfl, rfl, rfl⟩,
      .free rfl hl rfl rfl rfl⟩
    · intro f' hf'
      exact h.freeOk f' (by rw [hl]; exact List.mem_append_left _ hf')
    · exact h.freeOk f (by rw [hl]; simp)
    · intro hm
      exact hnd.2.2 f hm f (by simp) rfl

theorem evictIfNecessary_none {w : World B} {e : Env} {f : Nat} (h : w.frames[f]? = some none) : w.evictIfNecessary e f = w := by
  have : w.pageAt f = none := by
    unfold World.pageAt World.frame
    simp [h]
  unfold World.evictIfNecessary
  rw [this]

/-! ### Putting a new page object into a reserved frame -/

/-- The world with page `p` in frame `f` and a guard for it. -/
def World.withPage (w : World B) (f : Nat) (p : Page B) (r : Rep) : World B :=
  { w with objs := w.objs ++ [p], frames := w.frames.set f (some w.objs.length), table := w.table.set p.id f, rep := r,
           guards := w.guards ++ [some ⟨p.id, w.objs.length, false⟩] }

theorem install_ok {w : World B} {s : State} (h : Inv w s) (e : Env) {f : Nat} (hf : w.frames[f]? = some none) (hnf : f ∉ w.free)
    (pid : Nat) (c : Content B) (d : Bool) (hpid : w.table.get pid = none) (hlt : pid < w.next) :
    ∃ r s', Inv (w.withPage f ⟨pid, c, 1, d⟩ r) s' ∧
      w.install e f ⟨pid, c, 1, d⟩ = some (w.withPage f ⟨pid, c, 1, d⟩ r, some w.guards.length) := by
  have hfl : f < w.frames.length := (List.getElem?_eq_some_iff.1 hf).1
  obtain ⟨r, x, s', h1, h2, h3, h4⟩ := rep_touch h.k1 h.k2 h.rel f e.now false
  refine ⟨r, s', ?_, ?_⟩
  · generalize hw' : w.withPage f ⟨pid, c, 1, d⟩ r = w'
    unfold World.withPage at hw'
    have hho : ∀ f' o p, w'.Holds f' o p ↔ (f' = f ∧ o = w.objs.length ∧ p = ⟨pid, c, 1, d⟩) ∨ (f' ≠ f ∧ w.Holds f' o p) := by
      intro f' o p
      subst hw'
      unfold World.Holds
      simp only [List.getElem?_set]
      by_cases e1 : f = f'
      · subst e1
        simp only [if_true, hfl, Option.some.injEq]
        constructor
        · rintro ⟨h5, h6⟩
          subst h5
          simp at h6
          exact .inl ⟨trivial, rfl, h6.symm⟩
        · rintro (⟨_, rfl, rfl⟩ | ⟨h5, _⟩)
          · simp
          · exact absurd rfl h5
      · rw [if_neg e1]
        constructor
        · rintro ⟨h5, h6⟩
          obtain ⟨q, hq⟩ := h.heap f' o h5
          have hol : o < w.objs.length := (List.getElem?_eq_some_iff.1 hq).1
          rw [List.getElem?_append_left hol] at h6
          exact .inr ⟨fun e2 => e1 e2.symm, h5, h6⟩
        · rintro (⟨h5, _⟩ | ⟨_, h6, h7⟩)
          · exact absurd h5.symm e1
          · have hol : o < w.objs.length := (List.getElem?_eq_some_iff.1 h7).1
            exact ⟨h6, by rw [List.getElem?_append_left hol]; exact h7⟩
    have hfno : ∀ o p, ¬ w.Holds f o p := by
      intro o p hp
      have := hp.1
      rw [hf] at this
      cases this
    have hpins : ∀ o, pinsOn w'.guards o = pinsOn w.guards o + if w.objs.length = o then 1 else 0 := by
      intro o
      subst hw'
      exact pinsOn_append _ _ _
    have hp0 : pinsOn w.guards w.objs.length = 0 := by
      apply Nat.eq_zero_of_not_pos
      intro hpos
      obtain ⟨g, gd, hg, e1⟩ := pinsOn_pos.1 hpos
      obtain ⟨f', p', hp', _⟩ := h.gd g gd hg
      have hol := (List.getElem?_eq_some_iff.1 hp'.2).1
      omega
    have hne : ∀ f' o p, w.Holds f' o p → o ≠ w.objs.length := by
      intro f' o p hp e1
      have hol := (List.getElem?_eq_some_iff.1 hp.2).1
      omega
    constructor
    · subst hw'; simp [h.len]
    · subst hw'; exact h2
    · subst hw'; simp only; rw [h3]; exact h.k1
    · subst hw'; simp only; rw [h3]; exact h.k2
    · subst hw'; exact AMap.wf_set h.wf _ _
    · intro pid' f'
      have : w'.table.get pid' = if pid = pid' then some f else w.table.get pid' := by subst hw'; exact AMap.get_set _ _ _ _
      rw [this]
      by_cases e1 : pid = pid'
      · subst e1
        rw [if_pos rfl]
        constructor
        · intro h5; cases h5
          exact ⟨_, _, (hho _ _ _).2 (.inl ⟨rfl, rfl, rfl⟩), rfl⟩
        · rintro ⟨o, p, hp, e2⟩
          rcases (hho _ _ _).1 hp with ⟨rfl, _⟩ | ⟨_, h5⟩
          · rfl
          · have := (h.tbl pid f').2 ⟨o, p, h5, e2⟩
            rw [hpid] at this; cases this
      · rw [if_neg e1, h.tbl]
        constructor
        · rintro ⟨o, p, hp, e2⟩
          exact ⟨o, p, (hho _ _ _).2 (.inr ⟨fun e3 => hfno o p (e3 ▸ hp), hp⟩), e2⟩
        · rintro ⟨o, p, hp, e2⟩
          rcases (hho _ _ _).1 hp with ⟨_, _, rfl⟩ | ⟨_, h5⟩
          · exact absurd e2 e1
          · exact ⟨o, p, h5, e2⟩
    · intro f' o ho
      by_cases e1 : f' = f
      · subst e1
        have : o = w.objs.length := by
          subst hw'
          simp [hfl] at ho
          exact ho.symm
        subst this
        exact ⟨_, ((hho f' _ _).2 (.inl ⟨rfl, rfl, rfl⟩)).2⟩
      · have ho' : w.frames[f']? = some (some o) := by
          subst hw'
          simp only [List.getElem?_set] at ho
          rw [if_neg (fun e2 => e1 e2.symm)] at ho
          exact ho
        obtain ⟨p, hp⟩ := h.heap f' o ho'
        exact ⟨p, ((hho f' o p).2 (.inr ⟨e1, ho', hp⟩)).2⟩
    · intro f' hf'
      have hf'' : f' ∈ w.free := by subst hw'; exact hf'
      subst hw'
      simp only [List.getElem?_set]
      have hne2 : f ≠ f' := by rintro rfl; exact hnf hf''
      rw [if_neg hne2]
      exact h.freeOk f' hf''
    · subst hw'; exact h.freeNd
    · intro f'
      rw [h4 f']
      by_cases e1 : f' = f
      · rw [if_pos e1]
        constructor
        · intro h5; cases h5
        · rintro ⟨o, p, hp, h0⟩
          rcases (hho _ _ _).1 hp with ⟨_, _, rfl⟩ | ⟨h5, _⟩
          · cases h0
          · exact absurd e1 h5
      · rw [if_neg e1, h.ev]
        constructor
        · rintro ⟨o, p, hp, h0⟩; exact ⟨o, p, (hho _ _ _).2 (.inr ⟨e1, hp⟩), h0⟩
        · rintro ⟨o, p, hp, h0⟩
          rcases (hho _ _ _).1 hp with ⟨h5, _⟩ | ⟨_, h5⟩
          · exact absurd h5 e1
          · exact ⟨o, p, h5, h0⟩
    · intro g gd hg
      have hg' : (w.guards ++ [some ⟨pid, w.objs.length, false⟩])[g]? = some (some gd) := by subst hw'; exact hg
      rw [List.getElem?_append] at hg'
      split at hg'
      · obtain ⟨f', p', hp', e'⟩ := h.gd g gd hg'
        exact ⟨f', p', (hho _ _ _).2 (.inr ⟨fun e3 => hfno _ p' (e3 ▸ hp'), hp'⟩), e'⟩
      · have : gd = ⟨pid, w.objs.length, false⟩ := by
          cases hn : g - w.guards.length with
          | zero => rw [hn] at hg'; simp at hg'; exact hg'.symm
          | succ m => rw [hn] at hg'; simp at hg'
        subst this
        exact ⟨f, _, (hho _ _ _).2 (.inl ⟨rfl, rfl, rfl⟩), rfl⟩
    · intro f' o p hp
      rw [hpins]
      rcases (hho _ _ _).1 hp with ⟨_, rfl, rfl⟩ | ⟨_, h5⟩
      · simp [hp0]
      · have := hne _ _ _ h5
        rw [if_neg (fun e1 => this e1.symm)]
        exact h.pin f' o p h5
    · intro f' o p hp
      have hn : w'.next = w.next := by subst hw'; rfl
      rw [hn]
      rcases (hho _ _ _).1 hp with ⟨_, _, rfl⟩ | ⟨_, h5⟩
      · exact hlt
      · exact h.old f' o p h5
  · unfold World.install
    rw [if_pos hfl]
    simp only [World.touch, h1, World.withPage]

/-! ### Pinning and unpinning -/

/-- Changing pin counts and guards together. -/
theorem inv_repin {w : World B} {s s' : State} (h : Inv w s) {r : Rep} (hr : Rel r s') (hk : r.k = w.rep.k) {f o : Nat} {p : Page B}
    (hp : w.Holds f o p) (g : Page B → Page B) (gs : List (Option Guard)) (h1 : ∀ q, (g q).id = q.id)
    (hev : EvChange s s' f ((g p).pin = 0)) (hpin : (g p).pin = pinsOn gs o) (hother : ∀ o', o' ≠ o → pinsOn gs o' = pinsOn w.guards o')
    (hgs : ∀ (i : Nat) (gd : Guard), gs[i]? = some (some gd) → (gd.obj = o ∧ gd.pid = p.id) ∨ ∃ j, w.Live j gd) :
    Inv { w.modifyObj o g with rep := r, guards := gs } s' := by
  have hho : ∀ f' o' q, World.Holds { w.modifyObj o g with rep := r, guards := gs } f' o' q ↔ (w.modifyObj o g).Holds f' o' q := by
    intro _ _ _; rfl
  have hm : ∀ f' o' q, World.Holds { w.modifyObj o g with rep := r, guards := gs } f' o' q →
      (f' = f ∧ o' = o ∧ q = g p) ∨ (f' ≠ f ∧ o' ≠ o ∧ w.Holds f' o' q) := by
    intro f' o' q hq
    obtain ⟨q', hq', e⟩ := holds_modify.1 ((hho _ _ _).1 hq)
    by_cases eo : o' = o
    · subst eo
      obtain ⟨rfl, rfl⟩ := h.inj_obj hp hq'
      simp at e
      exact .inl ⟨rfl, rfl, e⟩
    · simp [eo] at e
      subst e
      refine .inr ⟨?_, eo, hq'⟩
      rintro rfl
      exact eo (Option.some.inj (Option.some.inj (hq'.1.symm.trans hp.1)))
  have hm1 : World.Holds { w.modifyObj o g with rep := r, guards := gs } f o (g p) :=
    (hho _ _ _).2 (holds_modify.2 ⟨p, hp, by simp⟩)
  have hm2 : ∀ f' o' q, w.Holds f' o' q → o' ≠ o → World.Holds { w.modifyObj o g with rep := r, guards := gs } f' o' q := by
    intro f' o' q hq eo
    exact (hho _ _ _).2 (holds_modify.2 ⟨q, hq, by simp [eo]⟩)
  refine ⟨h.len, hr, by rw [hk]; exact h.k1, by rw [hk]; exact h.k2, h.wf, ?_, ?_, h.freeOk, h.freeNd, ?_, ?_, ?_, ?_⟩
  · intro pid f'
    rw [show World.table { w.modifyObj o g with rep := r, guards := gs } = w.table from rfl, h.tbl]
    constructor
    · rintro ⟨o', q, hq, e⟩
      by_cases eo : o' = o
      · subst eo
        obtain ⟨rfl, rfl⟩ := h.inj_obj hp hq
        exact ⟨_, _, hm1, by rw [h1]; exact e⟩
      · exact ⟨o', q, hm2 _ _ _ hq eo, e⟩
    · rintro ⟨o', q, hq, e⟩
      rcases hm _ _ _ hq with ⟨rfl, rfl, rfl⟩ | ⟨_, _, h5⟩
      · exact ⟨_, _, hp, by rw [← h1]; exact e⟩
      · exact ⟨_, _, h5, e⟩
  · intro f' o' ho
    obtain ⟨q, hq⟩ := h.heap f' o' ho
    by_cases eo : o' = o
    · subst eo; exact ⟨_, hm1.2⟩
    · exact ⟨q, (hm2 _ _ _ ⟨ho, hq⟩ eo).2⟩
  · intro f'
    rw [hev f']
    by_cases e1 : f' = f
    · rw [if_pos e1]
      subst e1
      constructor
      · intro h0; exact ⟨_, _, hm1, h0⟩
      · rintro ⟨o', q, hq, h0⟩
        rcases hm _ _ _ hq with ⟨_, _, rfl⟩ | ⟨h5, _⟩
        · exact h0
        · exact absurd rfl h5
    · rw [if_neg e1, h.ev]
      constructor
      · rintro ⟨o', q, hq, h0⟩
        refine ⟨o', q, hm2 _ _ _ hq ?_, h0⟩
        rintro rfl
        exact e1 (h.inj_obj hq hp).1
      · rintro ⟨o', q, hq, h0⟩
        rcases hm _ _ _ hq with ⟨h5, _⟩ | ⟨_, _, h5⟩
        · exact absurd h5 e1
        · exact ⟨_, _, h5, h0⟩
  · intro i gd hg
    rcases hgs i gd hg with ⟨e1, e2⟩ | ⟨j, hj⟩
    · exact ⟨f, g p, by rw [e1]; exact hm1, by rw [h1, e2]⟩
    · obtain ⟨f', q, hq, e⟩ := h.gd j gd hj
      by_cases eo : gd.obj = o
      · rw [eo] at hq
        obtain ⟨rfl, rfl⟩ := h.inj_obj hp hq
        exact ⟨f, g p, by rw [eo]; exact hm1, by rw [h1, e]⟩
      · exact ⟨f', q, hm2 _ _ _ hq eo, e⟩
  · intro f' o' q hq
    rcases hm _ _ _ hq with ⟨rfl, rfl, rfl⟩ | ⟨_, eo, h5⟩
    · exact hpin
    · rw [show World.guards { w.modifyObj o g with rep := r, guards := gs } = gs from rfl, hother o' eo]
      exact h.pin _ _ _ h5
  · intro f' o' q hq
    rcases hm _ _ _ hq with ⟨rfl, rfl, rfl⟩ | ⟨_, eo, h5⟩
    · rw [h1]; exact h.old _ _ _ hp
    · exact h.old _ _ _ h5

end Verif.Pool
