import Verif.Pool.Steps

/-! # Properties of the buffer pool (C26, C27, C28, C60, C61, C62) -/

namespace Verif.Pool

open Verif.Replacer (Rep Rel)
open Verif.Replacer.Spec (Evictable upd State)

variable {B : Type}

/-! ### The start -/

theorem inv_init (size k : Nat) (hk : 1 ≤ k) (hk2 : k ≤ Replacer.u64Max) (disk : Nat → Option (Content B)) :
    Inv (init size k disk) Replacer.Spec.empty := by
  have hno : ∀ f o p, ¬ (init size k disk).Holds f o p := by
    intro f o p hp
    have := hp.2
    simp [init] at this
  refine ⟨by simp [init], Replacer.rel_new size k, hk, hk2, by simp [init, AMap.WF, AMap.keys], ?_, ?_, ?_, ?_, ?_, ?_, ?_, ?_⟩
  · intro pid f
    constructor
    · intro h; simp [init] at h
    · rintro ⟨o, p, hp, _⟩; exact absurd hp (hno f o p)
  · intro f o h
    simp [init, List.getElem?_replicate] at h
  · intro f hf
    simp [init] at hf
    simp [init, hf]
  · simp [init, List.nodup_range]
  · intro f
    constructor
    · rintro ⟨h, h1⟩; simp [Replacer.Spec.empty] at h1
    · rintro ⟨o, p, hp, _⟩; exact absurd hp (hno f o p)
  · intro g gd hg; simp [World.Live, init] at hg
  · intro f o p hp; exact absurd hp (hno f o p)
  · intro f o p hp; exact absurd hp (hno f o p)

theorem cinv_init (size k : Nat) : CInv (init (B := B) size k (fun _ => none)) Known.start := by
  have hno : ∀ f o p, ¬ (init (B := B) size k (fun _ => none)).Holds f o p := by
    intro f o p hp
    have := hp.2
    simp [init] at this
  refine ⟨by simp [init, Known.start], ?_, fun _ _ => rfl, ?_, ?_, ?_, ?_⟩
  · intro pid; simp [Known.start, init]
  · intro f o p hp; exact absurd hp (hno f o p)
  · intro f o p hp; exact absurd hp (hno f o p)
  · intro pid c _ _; exact .inl rfl
  · intro pid hw; cases hw

theorem isCount_pins (gs : List (Option Guard)) (o : Nat) :
    IsCount (fun g : Nat => ∃ gd : Guard, gs[g]? = some (some gd) ∧ gd.obj = o) (pinsOn gs o) := by
  refine ⟨(List.range gs.length).filter (fun g => ((gs[g]?).join).any (·.obj == o)), List.nodup_range.filter _, ?_, ?_⟩
  · intro g
    rw [List.mem_filter, List.mem_range]
    constructor
    · rintro ⟨_, h⟩
      cases hj : (gs[g]?).join with
      | none => rw [hj] at h; cases h
      | some gd =>
        rw [hj] at h
        exact ⟨gd, join_eq_some.1 hj, by simpa using h⟩
    · rintro ⟨gd, h1, h2⟩
      exact ⟨(List.getElem?_eq_some_iff.1 h1).1, by simp [h1, h2]⟩
  · unfold pinsOn
    rw [← List.countP_eq_length_filter]
    have h1 : gs = (List.range gs.length).map (fun g => (gs[g]?).join) := by
      apply List.ext_getElem?
      intro i
      rw [List.getElem?_map]
      by_cases hi : i < gs.length
      · simp [hi]
      · simp [hi]
    conv => rhs; rw [h1, List.countP_map]
    rfl

theorem inv_consistent {w : World B} {s : State} (h : Inv w s) : Consistent w :=
  ⟨h.tbl, fun _ _ _ _ _ _ h1 h2 e => h.inj h1 h2 e, h.freeOk, h.freeNd, h.gd,
    fun f o p hp => by rw [h.pin f o p hp]; exact isCount_pins w.guards o⟩

/-! ### C26 -/

/-- **C26.** Whatever calls are made, with whatever guards held and whatever the disk does, no call panics and the books agree:
a page is in one frame only, a free frame holds no page, a page somebody holds a guard for stays in its frame (and so was neither
evicted nor deleted), and pin counts are numbers of guards. -/
theorem C26_books_agree (size k : Nat) (hk : 1 ≤ k) (hk2 : k ≤ Replacer.u64Max) (disk : Nat → Option (Content B))
    (ops : List (Env × Op B)) : ∃ w outs, run (init size k disk) ops = some (w, outs) ∧ Consistent w := by
  obtain ⟨w, outs, s, h1, h2, _⟩ := run_ok ops _ _ (inv_init size k hk hk2 disk)
  exact ⟨w, outs, h1, inv_consistent h2⟩

/-- **C26.** `new_page` fails only when every frame that can be used holds a page somebody has a guard for. -/
theorem C26_new_fails_only_when_full (size k : Nat) (hk : 1 ≤ k) (hk2 : k ≤ Replacer.u64Max) (disk : Nat → Option (Content B))
    (ops : List (Env × Op B)) (w : World B) (outs : List (Out B)) (hrun : run (init size k disk) ops = some (w, outs))
    (e : Env) (c : Content B) (w' : World B) (hnew : step w e (.new c) = some (w', .guard none)) :
    w.free = [] ∧ ∀ f o p, w.Holds f o p → ∃ g gd, w.Live g gd ∧ gd.obj = o := by
  obtain ⟨w1, outs1, s, h1, h2, _⟩ := run_ok ops _ _ (inv_init size k hk hk2 disk)
  rw [hrun] at h1
  cases h1
  simp only [step, World.newPage] at hnew
  obtain ⟨w1, x, s1, h3, h4⟩ := getFrame_ok h2 e
  rw [h3] at hnew
  cases x with
  | none =>
    obtain ⟨_, _, h5, h6⟩ := h4
    refine ⟨h5, fun f o p hp => ?_⟩
    have := h6 f o p hp
    rw [h2.pin f o p hp] at this
    exact pinsOn_pos.1 (by omega)
  | some f =>
    exfalso
    obtain ⟨hg, hfr⟩ := h4
    simp only [evictIfNecessary_none hg.empty] at hnew
    have hi : Inv { w1 with next := w1.next + 1 } s1 := by
      have := hg.inv
      exact ⟨this.len, this.rel, this.k1, this.k2, this.wf, this.tbl, this.heap, this.freeOk, this.freeNd, this.ev, this.gd, this.pin,
        fun f o p hp => Nat.lt_succ_of_lt (this.old f o p hp)⟩
    have hnt : w1.table.get w1.next = none := by
      cases ht : w1.table.get w1.next with
      | none => rfl
      | some f' =>
        obtain ⟨o, p, hp, e1⟩ := (hg.inv.tbl _ _).1 ht
        have := hg.inv.old f' o p hp
        omega
    obtain ⟨r, s2, h5, h6⟩ := install_ok hi e hg.empty hg.notFree w1.next c false hnt (Nat.lt_succ_self _)
    rw [h6] at hnew
    simp [guardOut, World.withPage] at hnew

/-! ### C27 -/

/-- **C27 (partial).** Starting with an empty disk and as long as disk writes succeed, every guard shows what was last written to its
page, however often the page was evicted and loaded again in between; the answers of all calls are those of the specification. And
a page that was written to or flushed since it was created can be fetched again whenever a frame is free or holds an unpinned page
and the read succeeds. -/
theorem C27_read_back_partial (size k : Nat) (hk : 1 ≤ k) (hk2 : k ≤ Replacer.u64Max) (ops : List (Env × Op B))
    (hw : ∀ x ∈ ops, x.1.writes = true) : ∃ w outs κ, run (init size k (fun _ => none)) ops = some (w, outs) ∧
      SRun Known.start (ops.map Prod.snd) outs κ ∧
      ∀ pid c, κ.data pid = .holds c → κ.written pid = true →
        ((∃ f o p, w.Holds f o p ∧ p.id = pid) ∨ w.free ≠ [] ∨ ∃ f o p, w.Holds f o p ∧ ∀ g gd, w.Live g gd → gd.obj ≠ o) →
        ∀ e : Env, e.reads = true → e.writes = true → ∃ w', step w e (.fetch c.ty pid) = some (w', .guard (some (κ.guards.length, pid))) := by
  obtain ⟨w, outs, s, h1, h2, h3⟩ := run_ok ops _ _ (inv_init (B := B) size k hk hk2 (fun _ => none))
  obtain ⟨κ, h4, hc⟩ := h3 hw _ (cinv_init size k)
  refine ⟨w, outs, κ, h1, h4, ?_⟩
  intro pid c hk' hwr hroom e hre hwe
  have hglen : κ.guards.length = w.guards.length := by rw [hc.gs]; simp
  have hlt : ¬ pid ≥ w.next := by
    intro hge
    have := (hc.unused pid).2 hge
    rw [hk'] at this
    cases this
  simp only [step, World.fetchPage, if_neg hlt]
  rcases resident_cases h2 pid with ⟨h5, h6⟩ | ⟨f, o, p, hp, e1, h6⟩
  · rw [h6]
    simp only [World.load]
    obtain ⟨w1, x, s1, h7, h8⟩ := getFrame_ok h2 e
    rw [h7]
    cases x with
    | none =>
      exfalso
      obtain ⟨_, _, h9, h10⟩ := h8
      rcases hroom with ⟨f, o, p, hp, e1⟩ | hf | ⟨f, o, p, hp, hg⟩
      · have := (h2.tbl pid f).2 ⟨o, p, hp, e1⟩
        rw [h5] at this; cases this
      · exact hf h9
      · have h11 := h10 f o p hp
        rw [h2.pin f o p hp] at h11
        obtain ⟨g, gd, hg1, hg2⟩ := pinsOn_pos.1 (show 0 < pinsOn w.guards o by omega)
        exact hg g gd hg1 hg2
    | some f =>
      obtain ⟨hg, hfr⟩ := h8
      have hc1 := cinv_getFrame h2 hc hwe hfr hg.next hg.guards
      simp only [evictIfNecessary_none hg.empty, hre, if_true]
      have hnt : w1.table.get pid = none := by
        cases hfr with
        | free _ _ h3 _ _ => rw [h3]; exact h5
        | evict o p r _ _ _ h4 =>
          rw [h4, (evictOld_frame _ _ _ _).2.2.1, AMap.get_erase]
          split
          · rfl
          · exact h5
      have hd : w1.disk pid = some c := by
        rcases hc1.out pid c hnt hk' with h9 | h9
        · rcases hc1.wr pid hwr with h10 | ⟨f', o', q, hq, e2, _⟩
          · exact absurd h9 h10
          · have := (hg.inv.tbl pid f').2 ⟨o', q, hq, e2⟩
            rw [hnt] at this; cases this
        · exact h9
      obtain ⟨r, s2, h10, h11⟩ := install_ok hg.inv e hg.empty hg.notFree pid c true hnt (by rw [hg.next]; omega)
      simp only [hd, if_true, h11]
      refine ⟨w1.withPage f ⟨pid, c, 1, true⟩ r, ?_⟩
      · simp [guardOut, World.withPage, hg.guards, hglen]
  · rw [h6]
    have hd := hc.res f o p hp
    rw [e1, hk'] at hd
    cases hd
    obtain ⟨r, x, s', h7, _⟩ := rep_touch h2.k1 h2.k2 h2.rel f e.now false
    simp only [World.touch, h7, ne_eq, not_true_eq_false, if_false, Option.map_some]
    refine ⟨{ w.modifyObj o (fun p => { p with pin := p.pin + 1 }) with rep := r, guards := w.guards ++ [some ⟨pid, o, false⟩] }, ?_⟩
    · simp [guardOut, World.modifyObj, hglen]

/-! ### C28 -/

theorem cap_def (w : World B) : w.capacity = w.free.length + w.frames.countP (·.isSome) := by
  unfold World.capacity
  rw [List.countP_eq_length_filter]

theorem cap_same {w w' : World B} (h1 : w'.frames = w.frames) (h2 : w'.free = w.free) : w'.capacity = w.capacity := by
  rw [cap_def, cap_def, h1, h2]

theorem cap_set_none {w w' : World B} {f o : Nat} (hf : w.frames[f]? = some (some o)) (h1 : w'.frames = w.frames.set f none)
    (h2 : w'.free = w.free) : w'.capacity + 1 = w.capacity := by
  rw [cap_def, cap_def, h1, h2]
  have := countP_set_getElem (fun x : Option Nat => x.isSome) w.frames f none (some o) hf
  simp at this
  omega

theorem cap_withPage {w : World B} {f : Nat} (hf : w.frames[f]? = some none) (p : Page B) (r : Rep) :
    (w.withPage f p r).capacity = w.capacity + 1 := by
  rw [cap_def, cap_def]
  have := countP_set_getElem (fun x : Option Nat => x.isSome) w.frames f (some w.objs.length) none hf
  simp at this
  simp only [World.withPage]
  omega

theorem cap_getFrame {w w' : World B} {e : Env} {f : Nat} (h : Frees w w' e f) : w'.capacity + 1 = w.capacity := by
  cases h with
  | free h1 h2 _ _ _ => rw [cap_def, cap_def, h1, h2]; simp; omega
  | evict o p r _ hp _ h4 =>
    subst h4
    exact cap_set_none (w := w) hp.1 (evictOld_frame _ _ _ _).1 (evictOld_frame _ _ _ _).2.1

theorem touch_same {w w' : World B} {e : Env} {f : Nat} {b : Bool} (h : w.touch e f b = some w') : w'.frames = w.frames ∧ w'.free = w.free := by
  unfold World.touch at h
  split at h
  · cases h
  · cases h; exact ⟨rfl, rfl⟩

theorem unpin_same {w w' : World B} {e : Env} {pid : Nat} {d b : Bool} (h : w.unpin e pid d = some (w', b)) :
    w'.frames = w.frames ∧ w'.free = w.free := by
  unfold World.unpin at h
  split at h
  · cases h; exact ⟨rfl, rfl⟩
  · split at h
    · cases h; exact ⟨rfl, rfl⟩
    · split at h
      · cases h
      · cases d <;> simp only [if_true, if_false, Bool.false_eq_true] at h
        all_goals
          split at h
          · split at h
            · split at h
              · cases h
              · next ht =>
                cases h
                have := touch_same ht
                exact ⟨this.1, this.2⟩
            · cases h; exact ⟨rfl, rfl⟩
          · cases h; exact ⟨rfl, rfl⟩

theorem step_cap {w w' : World B} {s : State} (h : Inv w s) {e : Env} {op : Op B} {out : Out B} (hs : step w e op = some (w', out)) :
    w'.capacity = w.capacity ∨ (∃ ty pid, op = .fetch ty pid ∧ out = .guard none ∧ w'.capacity + 1 = w.capacity) := by
  cases op with
  | new c =>
    left
    simp only [step, World.newPage] at hs
    obtain ⟨w1, x, s1, h3, h4⟩ := getFrame_ok h e
    rw [h3] at hs
    cases x with
    | none =>
      obtain ⟨_, ⟨r, hr⟩, _, _⟩ := h4
      cases hs; subst hr; exact cap_same rfl rfl
    | some f =>
      obtain ⟨hg, hfr⟩ := h4
      simp only [evictIfNecessary_none hg.empty] at hs
      have hi : Inv { w1 with next := w1.next + 1 } s1 := by
        have := hg.inv
        exact ⟨this.len, this.rel, this.k1, this.k2, this.wf, this.tbl, this.heap, this.freeOk, this.freeNd, this.ev, this.gd, this.pin,
          fun f o p hp => Nat.lt_succ_of_lt (this.old f o p hp)⟩
      have hnt : w1.table.get w1.next = none := by
        cases ht : w1.table.get w1.next with
        | none => rfl
        | some f' =>
          obtain ⟨o, p, hp, e1⟩ := (hg.inv.tbl _ _).1 ht
          have := hg.inv.old f' o p hp
          omega
      obtain ⟨r, s2, h5, h6⟩ := install_ok hi e hg.empty hg.notFree w1.next c false hnt (Nat.lt_succ_self _)
      rw [h6] at hs
      cases hs
      have h7 := cap_withPage (w := { w1 with next := w1.next + 1 }) hg.empty ⟨w1.next, c, 1, false⟩ r
      have h8 := cap_getFrame hfr
      have h9 : World.capacity { w1 with next := w1.next + 1 } = w1.capacity := cap_same rfl rfl
      show World.capacity (World.withPage { w1 with next := w1.next + 1 } f ⟨w1.next, c, 1, false⟩ r) = _
      omega
  | fetch ty pid =>
    simp only [step, World.fetchPage] at hs
    by_cases hge : pid ≥ w.next
    · rw [if_pos hge] at hs; cases hs; exact .inl rfl
    · rw [if_neg hge] at hs
      rcases resident_cases h pid with ⟨h1, h2⟩ | ⟨f, o, p, hp, e1, h2⟩
      · rw [h2] at hs
        simp only [World.load] at hs
        obtain ⟨w1, x, s1, h3, h4⟩ := getFrame_ok h e
        rw [h3] at hs
        cases x with
        | none =>
          obtain ⟨_, ⟨r, hr⟩, _, _⟩ := h4
          cases hs; subst hr; exact .inl (cap_same rfl rfl)
        | some f =>
          obtain ⟨hg, hfr⟩ := h4
          have h8 := cap_getFrame hfr
          simp only [evictIfNecessary_none hg.empty] at hs
          cases hd : (if e.reads = true then w1.disk pid else none) with
          | none => rw [hd] at hs; cases hs; exact .inr ⟨ty, pid, rfl, rfl, h8⟩
          | some c =>
            rw [hd] at hs
            simp only at hs
            by_cases hty : c.ty = ty
            · rw [if_pos hty] at hs
              have hnt : w1.table.get pid = none := by
                cases hfr with
                | free _ _ h3 _ _ => rw [h3]; exact h1
                | evict o p r _ _ _ h4 =>
                  rw [h4, (evictOld_frame _ _ _ _).2.2.1, AMap.get_erase]
                  split
                  · rfl
                  · exact h1
              obtain ⟨r, s2, h5, h6⟩ := install_ok hg.inv e hg.empty hg.notFree pid c true hnt (by rw [hg.next]; omega)
              rw [h6] at hs
              cases hs
              have h7 := cap_withPage (w := w1) hg.empty ⟨pid, c, 1, true⟩ r
              left
              show World.capacity (World.withPage w1 f ⟨pid, c, 1, true⟩ r) = _
              omega
            · rw [if_neg hty] at hs; cases hs; exact .inr ⟨ty, pid, rfl, rfl, h8⟩
      · rw [h2] at hs
        left
        simp only at hs
        split at hs
        · cases hs; rfl
        · split at hs
          · cases hs
          · next ht => cases hs; exact cap_same (touch_same ht).1 (touch_same ht).2
  | drop g =>
    left
    simp only [step, World.dropGuard] at hs
    split at hs
    · cases hs; rfl
    · split at hs
      · cases hs
      · next hu =>
        cases hs
        have := unpin_same hu
        exact cap_same this.1 this.2
  | write g b =>
    left
    simp only [step, World.write] at hs
    cases hs
    split <;> exact cap_same rfl rfl
  | read g => cases hs; exact .inl rfl
  | writePage pid b =>
    left
    simp only [step, World.writePage] at hs
    cases hs
    split
    · rfl
    · split
      · rfl
      · exact cap_same rfl rfl
  | flush pid =>
    left
    simp only [step, World.flushPage] at hs
    cases hs
    split
    · rfl
    · split
      · rfl
      · refine cap_same ?_ ?_ <;> simp only [World.writeOut] <;> split <;> (try rfl) <;> split <;> rfl
  | delete pid =>
    left
    simp only [step, World.deletePage] at hs
    cases ht : w.table.get pid with
    | none => rw [ht] at hs; cases hs; rfl
    | some f =>
      obtain ⟨o, p, hp, e1⟩ := (h.tbl pid f).1 ht
      have hlt : f < w.frames.length := (List.getElem?_eq_some_iff.1 hp.1).1
      simp only [ht, pageAt_eq.2 ⟨o, hp⟩, hlt, if_true] at hs
      by_cases hpin : p.pin > 0
      · simp only [hpin, if_true] at hs; cases hs; rfl
      · simp only [hpin, if_false] at hs
        cases hs
        rw [cap_def, cap_def]
        have := countP_set_getElem (fun x : Option Nat => x.isSome) w.frames f none (some o) hp.1
        simp at this
        simp
        omega

theorem run_cap : ∀ (ops : List (Env × Op B)) (w w' : World B) (s : State) (outs : List (Out B)), Inv w s → run w ops = some (w', outs) →
    w'.capacity ≤ w.capacity ∧ w.capacity ≤ w'.capacity + ((ops.map Prod.snd).zip outs).countP (fun x => match x with
      | (.fetch _ _, .guard none) => true
      | _ => false) := by
  intro ops
  induction ops with
  | nil => intro w w' s outs _ h; cases h; simp
  | cons x ops ih =>
    intro w w' s outs h hr
    obtain ⟨e, op⟩ := x
    obtain ⟨w1, out, s1, h1, h2, _⟩ := step_ok h e op
    obtain ⟨w2, outs2, s2, h4, h5, _⟩ := run_ok ops w1 s1 h2
    simp only [run, h1, h4] at hr
    cases hr
    obtain ⟨h6, h7⟩ := ih w1 _ s1 outs2 h2 h4
    simp only [List.map_cons, List.zip_cons_cons, List.countP_cons]
    rcases step_cap h h1 with h8 | ⟨ty, pid, rfl, rfl, h8⟩
    · constructor
      · omega
      · rw [← h8]; exact Nat.le_trans h7 (by omega)
    · constructor
      · omega
      · simp only [if_true]; omega

theorem nodup_some : ∀ (l : List (Option Nat)), (∀ (i j o : Nat), l[i]? = some (some o) → l[j]? = some (some o) → i = j) →
    (l.filterMap id).Nodup := by
  intro l
  induction l with
  | nil => intro _; simp
  | cons x l ih =>
    intro h
    have h1 := ih (fun i j o hi hj => by
      have := h (i + 1) (j + 1) o (by simpa using hi) (by simpa using hj)
      omega)
    cases x with
    | none => simpa using h1
    | some o =>
      simp only [List.filterMap_cons, id]
      refine List.nodup_cons.2 ⟨?_, h1⟩
      intro hm
      obtain ⟨y, hy, e⟩ := List.mem_filterMap.1 hm
      simp at e
      subst e
      obtain ⟨i, hlt, hi⟩ := List.getElem_of_mem hy
      have := h 0 (i + 1) o (by simp) (by simp [hlt, hi])
      omega

/-- Distinct pages with guards need distinct guards. -/
theorem held_le : ∀ (os : List Nat) (gs : List (Option Guard)), os.Nodup → (∀ o ∈ os, 0 < pinsOn gs o) →
    os.length ≤ gs.countP (fun g => g.any (fun gd => os.contains gd.obj)) := by
  intro os
  induction os with
  | nil => intros; simp
  | cons o os ih =>
    intro gs nd hp
    have h1 := ih gs (List.nodup_cons.1 nd).2 (fun o' ho' => hp o' (List.mem_cons_of_mem _ ho'))
    have h2 := hp o List.mem_cons_self
    have h3 : gs.countP (fun g => g.any (fun gd => (o :: os).contains gd.obj)) =
        pinsOn gs o + gs.countP (fun g => g.any (fun gd => os.contains gd.obj)) := by
      unfold pinsOn
      have hno := (List.nodup_cons.1 nd).1
      clear h1 h2 hp ih
      induction gs with
      | nil => rfl
      | cons g gs ih =>
        simp only [List.countP_cons, ih]
        cases g with
        | none => simp
        | some gd =>
          by_cases e1 : gd.obj = o
          · subst e1
            simp [hno]
            omega
          · simp [e1]
            omega
    simp only [List.length_cons]
    omega

/-- **C28 (partial).** The pool keeps all its frames as long as no `fetch_page` fails: if fewer guards are held than the pool has
frames, `new_page` succeeds. The property asks for this also after failed fetches. -/
theorem C28_frames_kept_partial (size k : Nat) (hk : 1 ≤ k) (hk2 : k ≤ Replacer.u64Max) (disk : Nat → Option (Content B))
    (ops : List (Env × Op B)) (w : World B) (outs : List (Out B)) (hrun : run (init size k disk) ops = some (w, outs))
    (hok : ∀ x ∈ (ops.map Prod.snd).zip outs, ∀ ty pid, x.1 = .fetch ty pid → x.2 ≠ .guard none)
    (hheld : w.guards.countP (·.isSome) < size) (e : Env) (c : Content B) :
    ∃ w' x, step w e (.new c) = some (w', .guard (some x)) := by
  obtain ⟨w1, outs1, s, h1, h2, _⟩ := run_ok ops _ _ (inv_init size k hk hk2 disk)
  rw [hrun] at h1
  cases h1
  have hcap := (run_cap ops _ _ _ _ (inv_init size k hk hk2 disk) hrun).2
  have h0 : ((ops.map Prod.snd).zip outs).countP (fun x => match x with
      | (.fetch _ _, .guard none) => true
      | _ => false) = 0 := by
    rw [List.countP_eq_zero]
    rintro ⟨op, out⟩ hx
    have := hok _ hx
    split
    · next ty pid heq => cases heq; exact absurd rfl (this ty pid rfl)
    · simp
  rw [h0, cap_def] at hcap
  have hi0 : (init size k disk).free.length + (init size k disk).frames.countP (·.isSome) = size := by
    simp [init]
  obtain ⟨w', out, s', h3, h4, _⟩ := step_ok h2 e (.new c)
  have hout : ∃ x, out = .guard x := by
    simp only [step] at h3
    cases hn : w.newPage e c with
    | none => rw [hn] at h3; cases h3
    | some y => rw [hn] at h3; cases h3; exact ⟨_, rfl⟩
  obtain ⟨x, rfl⟩ := hout
  cases x with
  | some x => exact ⟨w', x, h3⟩
  | none =>
    exfalso
    obtain ⟨h5, h6⟩ := C26_new_fails_only_when_full size k hk hk2 disk ops w outs hrun e c w' h3
    -- all frames hold pages with guards
    have hos := held_le (w.frames.filterMap id) w.guards ?_ ?_
    · have h7 : (w.frames.filterMap id).length = w.frames.countP (·.isSome) := by
        rw [List.length_filterMap_eq_countP]; rfl
      have h8 : w.guards.countP (fun g => g.any (fun gd => (w.frames.filterMap id).contains gd.obj)) ≤ w.guards.countP (·.isSome) := by
        apply List.countP_mono_left
        intro g _ hg
        cases g with
        | none => cases hg
        | some _ => rfl
      rw [cap_def, h5] at hcap
      simp only [List.length_nil] at hcap
      omega
    · refine nodup_some _ fun i j o hi hj => ?_
      obtain ⟨p, hp⟩ := h2.heap i o hi
      exact (h2.inj_obj ⟨hi, hp⟩ ⟨hj, hp⟩).1
    · intro o ho
      obtain ⟨x, hx, e1⟩ := List.mem_filterMap.1 ho
      simp at e1
      subst e1
      obtain ⟨f, hlt, hf⟩ := List.getElem_of_mem hx
      have hf' : w.frames[f]? = some (some o) := List.getElem?_eq_some_iff.2 ⟨hlt, hf⟩
      obtain ⟨p, hp⟩ := h2.heap f o hf'
      obtain ⟨g, gd, h9, h10⟩ := h6 f o p ⟨hf', hp⟩
      exact pinsOn_pos.2 ⟨g, gd, h9, h10⟩

/-- **C28 (partial).** Failed fetches are the only calls that lose frames, and each loses one at most. -/
theorem C28_one_frame_per_failed_fetch_partial (size k : Nat) (hk : 1 ≤ k) (hk2 : k ≤ Replacer.u64Max) (disk : Nat → Option (Content B))
    (ops : List (Env × Op B)) (w : World B) (outs : List (Out B)) (hrun : run (init size k disk) ops = some (w, outs)) :
    size ≤ w.capacity + ((ops.map Prod.snd).zip outs).countP (fun x => match x with
      | (.fetch _ _, .guard none) => true
      | _ => false) := by
  have h := (run_cap ops _ _ _ _ (inv_init size k hk hk2 disk) hrun).2
  have hi0 : (init size k disk).capacity = size := by
    rw [cap_def]; simp [init]
  rw [hi0] at h
  exact h

/-- **C28 (what the code does).** When a page is not in memory and a frame is available, a failing disk read loses that frame, in
every state of the pool. -/
theorem C28_failed_load_loses_frame_fails (size k : Nat) (hk : 1 ≤ k) (hk2 : k ≤ Replacer.u64Max) (disk : Nat → Option (Content B))
    (ops : List (Env × Op B)) (w : World B) (outs : List (Out B)) (hrun : run (init size k disk) ops = some (w, outs))
    (e : Env) (hre : e.reads = false) (ty pid : Nat) (hlt : pid < w.next) (hout : w.table.get pid = none)
    (hroom : w.free ≠ [] ∨ ∃ f o p, w.Holds f o p ∧ ∀ g gd, w.Live g gd → gd.obj ≠ o) :
    ∃ w', step w e (.fetch ty pid) = some (w', .guard none) ∧ w'.capacity + 1 = w.capacity := by
  obtain ⟨w1, outs1, s, h1, h2, _⟩ := run_ok ops _ _ (inv_init size k hk hk2 disk)
  rw [hrun] at h1
  cases h1
  rcases resident_cases h2 pid with ⟨h5, h6⟩ | ⟨f, o, p, hp, e1, h6⟩
  · obtain ⟨w1, x, s1, h7, h8⟩ := getFrame_ok h2 e
    cases x with
    | none =>
      exfalso
      obtain ⟨_, _, h9, h10⟩ := h8
      rcases hroom with hf | ⟨f, o, p, hp, hg⟩
      · exact hf h9
      · have h11 := h10 f o p hp
        rw [h2.pin f o p hp] at h11
        obtain ⟨g, gd, hg1, hg2⟩ := pinsOn_pos.1 (show 0 < pinsOn w.guards o by omega)
        exact hg g gd hg1 hg2
    | some f =>
      obtain ⟨hg, hfr⟩ := h8
      refine ⟨w1, ?_, cap_getFrame hfr⟩
      simp only [step, World.fetchPage, if_neg (show ¬ pid ≥ w.next by omega), h6, World.load, h7, evictIfNecessary_none hg.empty, hre]
      rfl
  · have := (h2.tbl pid f).2 ⟨o, p, hp, e1⟩
    rw [hout] at this; cases this

/-! ### C60, C61: writing out -/

/-- **C60 (partial).** A `flush_page` whose disk write fails changes nothing in the pool: the page stays in memory and stays dirty. -/
theorem C60_failed_flush_keeps_page_partial (w : World B) (e : Env) (he : e.writes = false) (pid : Nat) :
    step w e (.flush pid) = some (w, .bool false) := by
  simp only [step, World.flushPage, World.writeOut, he]
  split
  · rfl
  · split
    · rfl
    · split <;> rfl

/-- What is in memory is also on the disk. -/
def World.OnDisk (w : World B) (pid : Nat) : Prop := ∀ f o p, w.Holds f o p → p.id = pid → w.disk pid = some p.data ∧ p.dirty = false

theorem flush_onDisk {w : World B} {s : State} (h : Inv w s) (e : Env) (he : e.writes = true) (pid : Nat) :
    Inv (w.flushPage e pid).1 s ∧ (w.flushPage e pid).1.OnDisk pid ∧ (∀ pid', w.OnDisk pid' → (w.flushPage e pid).1.OnDisk pid') ∧
    (w.flushPage e pid).1.table = w.table ∧
    (∀ f o p, (w.flushPage e pid).1.Holds f o p → ∃ q, w.Holds f o q ∧ q.id = p.id ∧ q.data = p.data) := by
  unfold World.flushPage
  cases ht : w.table.get pid with
  | none =>
    refine ⟨h, ?_, fun _ h1 => h1, rfl, fun f o p hp => ⟨p, hp, rfl, rfl⟩⟩
    intro f o p hp e1
    have := (h.tbl pid f).2 ⟨o, p, hp, e1⟩
    simp only at *
    rw [ht] at this; cases this
  | some f =>
    obtain ⟨o, p, hp, e1⟩ := (h.tbl pid f).1 ht
    simp only [frame_eq.2 hp.1]
    have hi := inv_writeOut h e pid o
    have hw : w.writeOut e pid o = (w.store pid p.data).modifyObj o (fun p => { p with dirty := false }) := by
      unfold World.writeOut
      rw [hp.2]
      simp [he]
    have hh : ∀ f' o' q, World.Holds (w.writeOut e pid o) f' o' q →
        (f' = f ∧ o' = o ∧ q = { p with dirty := false }) ∨ (q.id ≠ pid ∧ w.Holds f' o' q) := by
      intro f' o' q hq
      rw [hw] at hq
      obtain ⟨q', hq', e2⟩ := holds_modify.1 hq
      have hq'' : w.Holds f' o' q' := hq'
      by_cases eo : o' = o
      · subst eo
        obtain ⟨rfl, rfl⟩ := h.inj_obj hp hq''
        simp at e2
        exact .inl ⟨rfl, rfl, e2⟩
      · simp [eo] at e2
        subst e2
        refine .inr ⟨?_, hq''⟩
        intro e3
        have := h.inj hq'' hp (e3.trans e1.symm)
        subst this
        exact eo (Option.some.inj (Option.some.inj (hq''.1.symm.trans hp.1)))
    have hd : ∀ pid', (w.writeOut e pid o).disk pid' = if pid' = pid then some p.data else w.disk pid' := by
      intro pid'; rw [hw]; rfl
    have hd1 : (w.writeOut e pid o).OnDisk pid := by
      intro f' o' q hq e2
      rw [hd, if_pos rfl]
      rcases hh _ _ _ hq with ⟨_, _, rfl⟩ | ⟨h1, _⟩
      · exact ⟨rfl, rfl⟩
      · exact absurd e2 h1
    refine ⟨hi, hd1, ?_, by rw [hw]; rfl, ?_⟩
    · intro pid' h1
      by_cases e2 : pid' = pid
      · subst e2; exact hd1
      · intro f' o' q hq e3
        rw [hd, if_neg e2]
        rcases hh _ _ _ hq with ⟨_, _, rfl⟩ | ⟨_, h3⟩
        · exact absurd (e3.symm.trans e1) e2
        · exact h1 f' o' q h3 e3
    · intro f' o' q hq
      rcases hh _ _ _ hq with ⟨rfl, rfl, rfl⟩ | ⟨_, h3⟩
      · exact ⟨p, hp, rfl, rfl⟩
      · exact ⟨q, h3, rfl, rfl⟩

theorem flushList_onDisk (es : Nat → Env) (hes : ∀ pid, (es pid).writes = true) : ∀ (l : List Nat) (w : World B) (s : State), Inv w s →
    let w' := l.foldl (fun w pid => (w.flushPage (es pid) pid).1) w
    Inv w' s ∧ (∀ pid, pid ∈ l ∨ w.OnDisk pid → w'.OnDisk pid) ∧ w'.table = w.table ∧
    (∀ f o p, w'.Holds f o p → ∃ q, w.Holds f o q ∧ q.id = p.id ∧ q.data = p.data) := by
  intro l
  induction l with
  | nil => intro w s h; exact ⟨h, fun pid h1 => h1.resolve_left (by simp), rfl, fun f o p hp => ⟨p, hp, rfl, rfl⟩⟩
  | cons x l ih =>
    intro w s h
    obtain ⟨h1, h2, h3, h4, h5⟩ := flush_onDisk h (es x) (hes x) x
    obtain ⟨h6, h7, h8, h9⟩ := ih _ s h1
    refine ⟨h6, ?_, h8.trans h4, ?_⟩
    · rintro pid (h10 | h10)
      · rcases List.mem_cons.1 h10 with rfl | h10
        · exact h7 _ (.inr h2)
        · exact h7 _ (.inl h10)
      · exact h7 _ (.inr (h3 _ h10))
    · intro f o p hp
      obtain ⟨q, hq, e1, e2⟩ := h9 f o p hp
      obtain ⟨q', hq', e3, e4⟩ := h5 f o q hq
      exact ⟨q', hq', e3.trans e1, e4.trans e2⟩

/-- **C61.** After any history and a `flush_all_pages` whose disk writes succeed, the disk holds the content of every page in memory,
and the content is what it was before. -/
theorem C61_flush_all (size k : Nat) (hk : 1 ≤ k) (hk2 : k ≤ Replacer.u64Max) (disk : Nat → Option (Content B))
    (ops : List (Env × Op B)) (w : World B) (outs : List (Out B)) (hrun : run (init size k disk) ops = some (w, outs))
    (es : Nat → Env) (hes : ∀ pid, (es pid).writes = true) :
    ∀ f o p, (w.flushAll es).Holds f o p → (w.flushAll es).disk p.id = some p.data ∧ p.dirty = false ∧
      ∃ q, w.Holds f o q ∧ q.id = p.id ∧ q.data = p.data := by
  obtain ⟨w1, outs1, s, h1, h2, _⟩ := run_ok ops _ _ (inv_init size k hk hk2 disk)
  rw [hrun] at h1
  cases h1
  obtain ⟨h3, h4, h5, h6⟩ := flushList_onDisk es hes w.table.keys w s h2
  intro f o p hp
  have hm : p.id ∈ w.table.keys := by
    rw [AMap.mem_keys_iff]
    have := (h3.tbl p.id f).2 ⟨o, p, hp, rfl⟩
    rw [h5] at this
    rw [this]; simp
  obtain ⟨h7, h8⟩ := h4 p.id (.inl hm) f o p hp rfl
  exact ⟨h7, h8, h6 f o p hp⟩

/-! ### C62: two guards of one page -/

/-- **C62 (partial).** When calls do not overlap, two guards of the same page point to the same page object, so what is written through
one is read through the other. -/
theorem C62_same_object_partial (size k : Nat) (hk : 1 ≤ k) (hk2 : k ≤ Replacer.u64Max) (disk : Nat → Option (Content B))
    (ops : List (Env × Op B)) (w : World B) (outs : List (Out B)) (hrun : run (init size k disk) ops = some (w, outs))
    (g g' : Nat) (gd gd' : Guard) (hg : w.Live g gd) (hg' : w.Live g' gd') (he : gd.pid = gd'.pid) : gd.obj = gd'.obj := by
  obtain ⟨w1, outs1, s, h1, h2, _⟩ := run_ok ops _ _ (inv_init size k hk hk2 disk)
  rw [hrun] at h1
  cases h1
  obtain ⟨f, p, hp, e1⟩ := h2.gd g gd hg
  obtain ⟨f', p', hp', e2⟩ := h2.gd g' gd' hg'
  have := h2.inj hp hp' (by rw [e1, e2, he])
  subst this
  exact Option.some.inj (Option.some.inj (hp.1.symm.trans hp'.1))

/-! ### Concrete runs -/

section Examples

def ok (now : Nat) : Env := { now, writes := true, reads := true }

def outsOf (r : Option (World B × List (Out B))) : Option (List (Out B)) := r.map Prod.snd

/-- Two pages in a pool of one frame: page 0 is written, evicted by page 1 and fetched again. -/
def evictAndBack : List (Env × Op Nat) :=
  [(ok 0, .new ⟨1, 10⟩), (ok 1, .write 0 11), (ok 2, .drop 0), (ok 3, .new ⟨1, 20⟩), (ok 4, .drop 1), (ok 5, .fetch 1 0), (ok 6, .read 2)]

example : outsOf (run (init 1 2 (fun _ => none)) evictAndBack) = some [.guard (some (0, 0)), .unit, .unit, .guard (some (1, 1)), .unit,
    .guard (some (2, 0)), .content (some ⟨1, 11⟩)] := by decide +kernel

/-- The hypotheses of C27 hold of this run. -/
example : ∀ x ∈ evictAndBack, x.1.writes = true := by decide

/-- **C27 (what the code does).** A page that was created and never written to is lost when it is evicted: new pages are clean, and
clean pages are not written out. -/
theorem C27_fresh_page_lost_fails (c c' : Content Nat) (ty : Nat) : outsOf (run (init 1 2 (fun _ => none))
    [(ok 0, .new c), (ok 1, .drop 0), (ok 2, .new c'), (ok 3, .drop 1), (ok 4, .fetch ty 0)]) =
    some [.guard (some (0, 0)), .unit, .guard (some (1, 1)), .unit, .guard none] := by
  rfl

/-- **C27 (what the code does).** After a restart page numbers start again at 0 while the disk still has the old pages: a new page,
once evicted, comes back with the content of the old page of that number. -/
theorem C27_restart_fails : outsOf (run (init 1 2 (fun p => if p = 0 then some ⟨1, 99⟩ else none))
    [(ok 0, .new ⟨1, 10⟩), (ok 1, .read 0), (ok 2, .drop 0), (ok 3, .new ⟨1, 20⟩), (ok 4, .drop 1), (ok 5, .fetch 1 0), (ok 6, .read 2)]) =
    some [.guard (some (0, 0)), .content (some ⟨1, 10⟩), .unit, .guard (some (1, 1)), .unit, .guard (some (2, 0)), .content (some ⟨1, 99⟩)] := by
  decide +kernel

/-- **C28 (what the code does).** In a pool of two frames two fetches with failing reads make `new_page` fail although nobody holds
a guard. -/
theorem C28_pool_exhausted_fails : outsOf (run (init 2 2 (fun _ => none))
    [(ok 0, .new ⟨1, 10⟩), (ok 1, .drop 0), (ok 2, .new ⟨1, 20⟩), (ok 3, .drop 1), (ok 4, .new ⟨1, 30⟩), (ok 5, .drop 2),
     (⟨6, true, false⟩, .fetch 1 0), (⟨7, true, false⟩, .fetch 1 0), (ok 8, .new ⟨1, 40⟩)]) =
    some [.guard (some (0, 0)), .unit, .guard (some (1, 1)), .unit, .guard (some (2, 2)), .unit,
      .guard none, .guard none, .guard (none : Option (Nat × Nat))] := by
  decide +kernel

/-- **C60 (what the code does).** When writing out a dirty page fails during eviction, the page is dropped all the same: what was
written is gone. -/
theorem C60_eviction_loses_write_fails : outsOf (run (init 1 2 (fun _ => none))
    [(ok 0, .new ⟨1, 10⟩), (ok 1, .flush 0), (ok 2, .write 0 11), (ok 3, .drop 0), (⟨4, false, true⟩, .new ⟨1, 20⟩), (ok 5, .drop 1),
     (ok 6, .fetch 1 0), (ok 7, .read 2)]) =
    some [.guard (some (0, 0)), .bool true, .unit, .unit, .guard (some (1, 1)), .unit, .guard (some (2, 0)), .content (some ⟨1, 10⟩)] := by
  decide +kernel

/-- The pages of the guards of a world. -/
def objsOf (w : World B) : List (Option (Nat × Nat)) := w.guards.map (Option.map fun g => (g.pid, g.obj))

/-- Two threads fetch page 0, and both look it up in the page table before either loads it; then both load it
(buffer_pool_manager_async.rs:551-595: nothing is locked between the look-up and the load, and the load does not look again). -/
def twoLoads : Option (List (Option (Nat × Nat)) × Option (Content Nat) × Option (Content Nat)) :=
  (run (init 2 2 (fun _ => none)) [(ok 0, .new ⟨1, 10⟩), (ok 1, .write 0 11), (ok 2, .drop 0), (ok 3, .new ⟨1, 20⟩), (ok 4, .drop 1),
      (ok 5, .new ⟨1, 30⟩), (ok 6, .drop 2)]).bind fun (w, _) =>
    (w.resident 0).bind fun seenByBoth => if seenByBoth.isNone then
      (w.load (ok 7) 1 0).bind fun (w, _) => (w.load (ok 8) 1 0).bind fun (w, _) =>
        let w := w.write 3 12
        some (objsOf w, w.read 3, w.read 4)
    else none

/-- **C62 (what the code does).** With two overlapping fetches the two guards are of different objects of the same page: what is
written through one is not seen through the other. -/
theorem C62_overlapping_fetches_fails : twoLoads =
    some ([none, none, none, some (0, 3), some (0, 4)], some ⟨1, 12⟩, some ⟨1, 11⟩) := by
  decide +kernel

/-- C26: a run with an eviction, a failed write and a failed read, to which the theorem applies. -/
example : (run (init 2 2 (fun _ => none)) ([(ok 0, .new ⟨1, 10⟩), (ok 1, .write 0 11), (ok 2, .new ⟨1, 20⟩), (ok 3, .drop 0),
    (⟨4, false, true⟩, .new ⟨2, 30⟩), (⟨5, true, false⟩, .fetch 1 0), (ok 6, .delete 1), (ok 7, .drop 1), (ok 8, .delete 1)] : List (Env × Op Nat))).map
      (fun r => (r.1.table, r.1.free, r.2)) =
    some ([(2, 1)], [0], [.guard (some (0, 0)), .unit, .guard (some (1, 1)), .unit, .guard (some (2, 2)), .guard none, .bool false, .unit,
      .bool true]) := by
  decide +kernel

/-- C28: the hypotheses of the partial theorem hold of this run with one guard held in a pool of two frames. -/
example : ∃ w outs, run (init 2 2 (fun _ => none)) evictAndBack = some (w, outs) ∧ w.guards.countP (·.isSome) < 2 ∧
    ∀ x ∈ (evictAndBack.map Prod.snd).zip outs, ∀ ty pid, x.1 = .fetch ty pid → x.2 ≠ .guard none := by
  refine ⟨_, _, rfl, by decide +kernel, ?_⟩
  intro x hx ty pid he hn
  revert hx
  obtain ⟨a, b⟩ := x
  subst he hn
  simp only [evictAndBack, List.map_cons, List.map_nil]
  intro hx
  revert hx
  have : ∀ x ∈ ([Op.new ⟨1, 10⟩, .write 0 11, .drop 0, .new ⟨1, 20⟩, .drop 1, .fetch 1 0, .read 2] : List (Op Nat)).zip
      ((outsOf (run (init 2 2 (fun _ => none)) evictAndBack)).getD []), x.2 ≠ .guard none := by decide +kernel
  intro hx
  exact this _ hx rfl

end Examples

end Verif.Pool
