import Verif.Pool.Lemmas

/-! # Each call keeps the invariants -/

namespace Verif.Pool

open Verif.Replacer (Rep Rel)
open Verif.Replacer.Spec (Evictable upd State)

variable {B : Type}

/-- The pool and the disk together hold what users know. -/
structure CInv (w : World B) (κ : Known B) : Prop where
  gs : κ.guards = w.guards.map (Option.map Guard.pid)
  unused : ∀ pid, κ.data pid = .unused ↔ w.next ≤ pid
  nodisk : ∀ pid, w.next ≤ pid → w.disk pid = none
  res : ∀ f o p, w.Holds f o p → κ.data p.id = .holds p.data
  clean : ∀ f o p, w.Holds f o p → p.dirty = false → w.disk p.id = none ∨ w.disk p.id = some p.data
  out : ∀ pid c, w.table.get pid = none → κ.data pid = .holds c → w.disk pid = none ∨ w.disk pid = some c
  wr : ∀ pid, κ.written pid = true → w.disk pid ≠ none ∨ ∃ f o p, w.Holds f o p ∧ p.id = pid ∧ p.dirty = true

theorem cinv_writeOut {w : World B} {s : State} (h : Inv w s) {κ : Known B} (hc : CInv w κ) {e : Env} (he : e.writes = true) {f o : Nat}
    {p : Page B} (hp : w.Holds f o p) : CInv (w.writeOut e p.id o) κ ∧ (w.writeOut e p.id o).disk p.id = some p.data ∧
      (w.writeOut e p.id o).Holds f o { p with dirty := false } := by
  have hw : w.writeOut e p.id o = (w.store p.id p.data).modifyObj o (fun p => { p with dirty := false }) := by
    unfold World.writeOut
    rw [hp.2]
    simp [he]
  rw [hw]
  have hh : ∀ f' o' q, World.Holds ((w.store p.id p.data).modifyObj o (fun p => { p with dirty := false })) f' o' q →
      (f' = f ∧ o' = o ∧ q = { p with dirty := false }) ∨ (q.id ≠ p.id ∧ w.Holds f' o' q) := by
    intro f' o' q hq
    obtain ⟨q', hq', e1⟩ := holds_modify.1 hq
    have hq'' : w.Holds f' o' q' := hq'
    by_cases eo : o' = o
    · subst eo
      obtain ⟨rfl, rfl⟩ := h.inj_obj hp hq''
      simp at e1
      exact .inl ⟨rfl, rfl, e1⟩
    · simp [eo] at e1
      subst e1
      refine .inr ⟨?_, hq''⟩
      intro e2
      have := h.inj hq'' hp e2
      subst this
      exact eo (Option.some.inj (Option.some.inj (hq''.1.symm.trans hp.1)))
  have hh1 : World.Holds ((w.store p.id p.data).modifyObj o (fun p => { p with dirty := false })) f o { p with dirty := false } :=
    holds_modify.2 ⟨p, hp, by simp⟩
  have hd : ∀ pid, World.disk ((w.store p.id p.data).modifyObj o (fun p => { p with dirty := false })) pid =
      if pid = p.id then some p.data else w.disk pid := fun _ => rfl
  refine ⟨⟨hc.gs, hc.unused, ?_, ?_, ?_, ?_, ?_⟩, ?_, hh1⟩
  · intro pid hpid
    have := h.old f o p hp
    rw [hd, if_neg (by rintro rfl; have : w.next ≤ p.id := hpid; omega)]
    exact hc.nodisk pid hpid
  · intro f' o' q hq
    rcases hh _ _ _ hq with ⟨_, _, rfl⟩ | ⟨_, h5⟩
    · exact hc.res f o p hp
    · exact hc.res _ _ _ h5
  · intro f' o' q hq hdq
    rcases hh _ _ _ hq with ⟨_, _, rfl⟩ | ⟨h4, h5⟩
    · right; rw [hd]; simp
    · rw [hd, if_neg h4]
      exact hc.clean _ _ _ h5 hdq
  · intro pid c hpid hcc
    have ht : w.table.get p.id = some f := (h.tbl p.id f).2 ⟨o, p, hp, rfl⟩
    have hpid' : w.table.get pid = none := hpid
    rw [hd, if_neg (by rintro rfl; rw [ht] at hpid'; cases hpid')]
    exact hc.out pid c hpid' hcc
  · intro pid hw'
    by_cases e1 : pid = p.id
    · left; rw [hd, if_pos e1]; simp
    · rcases hc.wr pid hw' with h5 | ⟨f', o', q, hq, e2, e3⟩
      · left; rw [hd, if_neg e1]; exact h5
      · right
        refine ⟨f', o', q, holds_modify.2 ⟨q, hq, ?_⟩, e2, e3⟩
        rw [if_neg]
        rintro rfl
        have := (h.inj_obj hq hp).2
        subst this
        exact e1 e2.symm
  · rw [hd]; simp

theorem cinv_evictOld {w : World B} {s : State} (h : Inv w s) {κ : Known B} (hc : CInv w κ) {e : Env} (he : e.writes = true) {f o : Nat}
    {p : Page B} (hp : w.Holds f o p) (r : Rep) : CInv (World.evictOld { w with rep := r } e f p.id) κ := by
  -- first the write
  have hfr : w.frame f = some o := frame_eq.2 hp.1
  have hpa : w.pageAt f = some p := pageAt_eq.2 ⟨o, hp⟩
  obtain ⟨w1, hw1, hc1, hi1, hp1, hd1⟩ : ∃ w1, World.cleaned { w with rep := r } e f p.id = { w1 with rep := r } ∧ CInv w1 κ ∧ Inv w1 s ∧
      (∃ q, w1.Holds f o q ∧ q.id = p.id ∧ q.data = p.data) ∧ (w1.disk p.id = none ∨ w1.disk p.id = some p.data) ∧
      (w1.disk p.id = none → ∃ q, w1.Holds f o q ∧ q.dirty = false) := by
    by_cases hd : p.dirty = true
    · obtain ⟨h1, h2, h3⟩ := cinv_writeOut h hc he hp
      refine ⟨w.writeOut e p.id o, ?_, h1, inv_writeOut h _ _ _, ⟨_, h3, rfl, rfl⟩, .inr h2, ?_⟩
      · unfold World.cleaned
        rw [show World.frame { w with rep := r } f = w.frame f from rfl, show World.pageAt { w with rep := r } f = w.pageAt f from rfl,
          hfr, hpa]
        simp only [hd, if_true]
        unfold World.writeOut
        simp only
        rw [hp.2]
        simp only [he, if_true]
        rfl
      · intro h4; rw [h2] at h4; cases h4
    · have hd' : p.dirty = false := by simpa using hd
      refine ⟨w, ?_, hc, h, ⟨p, hp, rfl, rfl⟩, hc.clean f o p hp hd', fun _ => ⟨p, hp, hd'⟩⟩
      unfold World.cleaned
      rw [show World.frame { w with rep := r } f = w.frame f from rfl, show World.pageAt { w with rep := r } f = w.pageAt f from rfl,
          hfr, hpa]
      simp [hd']
  obtain ⟨q, hq, eq1, eq2⟩ := hp1
  rw [evictOld_eq, hw1]
  have hho : ∀ f' o' q', World.Holds { w1 with rep := r, table := w1.table.erase p.id, frames := w1.frames.set f none } f' o' q' ↔
      f' ≠ f ∧ w1.Holds f' o' q' := by
    intro f' o' q'
    exact holds_clear (w := w1) (fr := f) (t := w1.table.erase p.id) (r := r) (fs := w1.free)
  refine ⟨hc1.gs, hc1.unused, hc1.nodisk, ?_, ?_, ?_, ?_⟩
  · intro f' o' q' hq'
    exact hc1.res _ _ _ ((hho _ _ _).1 hq').2
  · intro f' o' q' hq'
    exact hc1.clean _ _ _ ((hho _ _ _).1 hq').2
  · intro pid c hpid hcc
    simp only [AMap.get_erase] at hpid
    by_cases e1 : p.id = pid
    · subst e1
      have h5 := hc1.res f o q hq
      rw [eq1, hcc, eq2] at h5
      cases h5
      exact hd1.1
    · rw [if_neg e1] at hpid
      exact hc1.out pid c hpid hcc
  · intro pid hw'
    rcases hc1.wr pid hw' with h5 | ⟨f', o', q', hq', e2, e3⟩
    · exact .inl h5
    · by_cases e1 : f' = f
      · left
        subst e1
        intro h6
        have e4 := Option.some.inj (Option.some.inj (hq'.1.symm.trans hq.1))
        subst e4
        have e5 := (hi1.inj_obj hq' hq).2
        subst e5
        rw [eq1] at e2
        subst e2
        obtain ⟨q2, h7, h8⟩ := hd1.2 h6
        have := (hi1.inj_obj hq' h7).2
        subst this
        rw [e3] at h8; cases h8
      · exact .inr ⟨f', o', q', (hho _ _ _).2 ⟨e1, hq'⟩, e2, e3⟩

theorem cinv_getFrame {w w' : World B} {s : State} (h : Inv w s) {κ : Known B} (hc : CInv w κ) {e : Env} (he : e.writes = true) {f : Nat}
    (hf : Frees w w' e f) (hn : w'.next = w.next) (hg : w'.guards = w.guards) : CInv w' κ := by
  cases hf with
  | free h1 h2 h3 h4 h5 =>
    have hho : ∀ f' o q, w'.Holds f' o q ↔ w.Holds f' o q := by
      intro f' o q; unfold World.Holds; rw [h1, h4]
    refine ⟨by rw [hg]; exact hc.gs, by rw [hn]; exact hc.unused, by rw [hn, h5]; exact hc.nodisk, ?_, ?_, ?_, ?_⟩
    · intro f' o q hq; exact hc.res _ _ _ ((hho _ _ _).1 hq)
    · rw [h5]; intro f' o q hq; exact hc.clean _ _ _ ((hho _ _ _).1 hq)
    · rw [h3, h5]; exact hc.out
    · intro pid hw
      rw [h5]
      rcases hc.wr pid hw with h6 | ⟨f', o, q, hq, h7⟩
      · exact .inl h6
      · exact .inr ⟨f', o, q, (hho _ _ _).2 hq, h7⟩
  | evict o p r h1 h2 h3 h4 =>
    rw [h4]
    exact cinv_evictOld h hc he h2 r

/-- A page on a live guard is known to be what its object says. -/
theorem guards_lookup {w : World B} {κ : Known B} (hc : CInv w κ) (g : Nat) : (κ.guards[g]?).join = ((w.guards[g]?).join).map Guard.pid := by
  rw [hc.gs, List.getElem?_map]
  cases w.guards[g]? with
  | none => rfl
  | some x => cases x <;> rfl

theorem join_eq_some {α : Type} {x : Option (Option α)} {a : α} : x.join = some a ↔ x = some (some a) := by
  cases x with
  | none => simp
  | some y => simp

theorem holds_withPage {w : World B} {s : State} (h : Inv w s) {f : Nat} (hf : w.frames[f]? = some none) (p : Page B) (r : Rep) {f' o : Nat}
    {q : Page B} : (w.withPage f p r).Holds f' o q ↔ (f' = f ∧ o = w.objs.length ∧ q = p) ∨ (f' ≠ f ∧ w.Holds f' o q) := by
  have hfl : f < w.frames.length := (List.getElem?_eq_some_iff.1 hf).1
  unfold World.Holds World.withPage
  simp only [List.getElem?_set]
  by_cases e1 : f = f'
  · subst e1
    simp only [if_true, hfl, Option.some.injEq]
    constructor
    · rintro ⟨h5, h6⟩
      subst h5
      simp at h6
      exact .inl ⟨trivial, rfl, h6.symm⟩
    · rintro (⟨_, rfl, rfl⟩ | ⟨h5, _⟩)
      · simp
      · exact absurd rfl h5
  · rw [if_neg e1]
    constructor
    · rintro ⟨h5, h6⟩
      obtain ⟨q, hq⟩ := h.heap f' o h5
      have hol : o < w.objs.length := (List.getElem?_eq_some_iff.1 hq).1
      rw [List.getElem?_append_left hol] at h6
      exact .inr ⟨fun e2 => e1 e2.symm, h5, h6⟩
    · rintro (⟨h5, _⟩ | ⟨_, h6, h7⟩)
      · exact absurd h5.symm e1
      · have hol : o < w.objs.length := (List.getElem?_eq_some_iff.1 h7).1
        exact ⟨h6, by rw [List.getElem?_append_left hol]; exact h7⟩

/-- A page comes into memory, with what users know of it (or from now on know). -/
theorem cinv_withPage {w : World B} {s : State} (h : Inv w s) {κ κ' : Known B} {f : Nat} (hf : w.frames[f]? = some none) {n : Nat}
    (p : Page B) (r : Rep) (hp : w.table.get p.id = none)
    (hgs : κ'.guards = κ.guards ++ [some p.id]) (hcg : κ.guards = w.guards.map (Option.map Guard.pid))
    (hun : ∀ pid, κ'.data pid = .unused ↔ n ≤ pid) (hno : ∀ pid, n ≤ pid → w.disk pid = none)
    (hdata : κ'.data p.id = .holds p.data) (hother : ∀ pid, pid ≠ p.id → κ'.data pid = κ.data pid)
    (hres : ∀ f o p, w.Holds f o p → κ.data p.id = .holds p.data)
    (hclean : ∀ f o p, w.Holds f o p → p.dirty = false → w.disk p.id = none ∨ w.disk p.id = some p.data)
    (hout : ∀ pid c, w.table.get pid = none → κ.data pid = .holds c → w.disk pid = none ∨ w.disk pid = some c)
    (hdp : p.dirty = false → w.disk p.id = none ∨ w.disk p.id = some p.data)
    (hwr : ∀ pid, κ'.written pid = true → w.disk pid ≠ none ∨ (pid = p.id ∧ p.dirty = true) ∨
      ∃ f o p, w.Holds f o p ∧ p.id = pid ∧ p.dirty = true) :
    CInv { w.withPage f p r with next := n } κ' := by
  have hne : ∀ f' o q, w.Holds f' o q → q.id ≠ p.id := by
    intro f' o q hq e
    have := (h.tbl p.id f').2 ⟨o, q, hq, e⟩
    rw [hp] at this; cases this
  have hff : ∀ o q, ¬ w.Holds f o q := by
    intro o q hq
    have := hq.1
    rw [hf] at this; cases this
  have hho : ∀ f' o q, World.Holds { w.withPage f p r with next := n } f' o q ↔
      (f' = f ∧ o = w.objs.length ∧ q = p) ∨ (f' ≠ f ∧ w.Holds f' o q) := by
    intro f' o q
    exact holds_withPage h hf p r
  refine ⟨?_, hun, hno, ?_, ?_, ?_, ?_⟩
  · rw [hgs, hcg]; simp [World.withPage]
  · intro f' o q hq
    rcases (hho _ _ _).1 hq with ⟨_, _, rfl⟩ | ⟨_, h5⟩
    · exact hdata
    · rw [hother _ (hne _ _ _ h5)]; exact hres _ _ _ h5
  · intro f' o q hq hd
    rcases (hho _ _ _).1 hq with ⟨_, _, rfl⟩ | ⟨_, h5⟩
    · exact hdp hd
    · exact hclean _ _ _ h5 hd
  · intro pid c hpid hcc
    have : (w.table.set p.id f).get pid = none := hpid
    rw [AMap.get_set] at this
    by_cases e : p.id = pid
    · rw [if_pos e] at this; cases this
    · rw [if_neg e] at this
      rw [hother pid (fun e' => e e'.symm)] at hcc
      exact hout pid c this hcc
  · intro pid hw
    rcases hwr pid hw with h5 | ⟨rfl, h5⟩ | ⟨f', o, q, hq, h6⟩
    · exact .inl h5
    · exact .inr ⟨f, _, p, (hho _ _ _).2 (.inl ⟨rfl, rfl, rfl⟩), rfl, h5⟩
    · exact .inr ⟨f', o, q, (hho _ _ _).2 (.inr ⟨fun e => hff o q (e ▸ hq), hq⟩), h6⟩

/-- A change that only the page table's owner sees: pins, guards and the replacer. -/
theorem cinv_repin {w : World B} {κ κ' : Known B} (hc : CInv w κ) (o : Nat) (g : Page B → Page B) (r : Rep) (gs : List (Option Guard))
    (h1 : ∀ q, (g q).id = q.id) (h2 : ∀ q, (g q).data = q.data) (h3 : ∀ q, (g q).dirty = false → q.dirty = false)
    (h4 : ∀ q, q.dirty = true → (g q).dirty = true)
    (hgs : κ'.guards = gs.map (Option.map Guard.pid)) (hd : κ'.data = κ.data) (hw : κ'.written = κ.written) :
    CInv { w.modifyObj o g with rep := r, guards := gs } κ' := by
  have hh : ∀ f' o' q, World.Holds { w.modifyObj o g with rep := r, guards := gs } f' o' q →
      ∃ q', w.Holds f' o' q' ∧ q.id = q'.id ∧ q.data = q'.data ∧ (q.dirty = false → q'.dirty = false) := by
    intro f' o' q hq
    obtain ⟨q', hq', e⟩ := holds_modify.1 (show (w.modifyObj o g).Holds f' o' q from hq)
    refine ⟨q', hq', ?_⟩
    by_cases eo : o' = o <;> simp [eo] at e <;> subst e
    · exact ⟨h1 _, h2 _, h3 _⟩
    · exact ⟨rfl, rfl, id⟩
  refine ⟨hgs, by rw [hd]; exact hc.unused, hc.nodisk, ?_, ?_, by rw [hd]; exact hc.out, ?_⟩
  · intro f' o' q hq
    obtain ⟨q', h5, h6, h7, _⟩ := hh _ _ _ hq
    rw [hd, h6, h7]; exact hc.res _ _ _ h5
  · intro f' o' q hq hdq
    obtain ⟨q', h5, h6, h7, h8⟩ := hh _ _ _ hq
    rw [h6, h7]; exact hc.clean _ _ _ h5 (h8 hdq)
  · intro pid hp
    rw [hw] at hp
    rcases hc.wr pid hp with h5 | ⟨f', o', q, hq, h6, h7⟩
    · exact .inl h5
    · refine .inr ⟨f', o', _, holds_modify.2 ⟨q, hq, rfl⟩, ?_, ?_⟩
      · by_cases eo : o' = o <;> simp [eo, h1, h6]
      · by_cases eo : o' = o <;> simp [eo, h7]
        exact h4 q h7

/-! ### The calls -/

/-- What a call has to do. -/
def StepOk (w : World B) (e : Env) (op : Op B) : Prop := ∃ w' out s', step w e op = some (w', out) ∧ Inv w' s' ∧
  (e.writes = true → ∀ κ, CInv w κ → ∃ κ', SStep κ op out κ' ∧ CInv w' κ')

theorem new_ok {w : World B} {s : State} (h : Inv w s) (e : Env) (c : Content B) : StepOk w e (.new c) := by
  unfold StepOk
  simp only [step, World.newPage]
  obtain ⟨w1, x, s1, h1, h2⟩ := getFrame_ok h e
  rw [h1]
  cases x with
  | none =>
    obtain ⟨h3, ⟨r, rfl⟩, _⟩ := h2
    exact ⟨_, _, s1, rfl, h3, fun _ κ hc => ⟨κ, .newNone κ c, ⟨hc.gs, hc.unused, hc.nodisk, hc.res, hc.clean, hc.out, hc.wr⟩⟩⟩
  | some f =>
    obtain ⟨hg, hfr⟩ := h2
    simp only [evictIfNecessary_none hg.empty]
    have hi : Inv { w1 with next := w1.next + 1 } s1 := by
      have := hg.inv
      exact ⟨this.len, this.rel, this.k1, this.k2, this.wf, this.tbl, this.heap, this.freeOk, this.freeNd, this.ev, this.gd, this.pin,
        fun f o p hp => Nat.lt_succ_of_lt (this.old f o p hp)⟩
    have hnt : w1.table.get w1.next = none := by
      cases ht : w1.table.get w1.next with
      | none => rfl
      | some f' =>
        obtain ⟨o, p, hp, e1⟩ := (hg.inv.tbl _ _).1 ht
        have := hg.inv.old f' o p hp
        omega
    obtain ⟨r, s2, h3, h4⟩ := install_ok hi e hg.empty hg.notFree w1.next c false hnt (Nat.lt_succ_self _)
    rw [h4]
    refine ⟨_, _, s2, rfl, h3, ?_⟩
    intro he κ hc
    have hc1 := cinv_getFrame h hc he hfr hg.next hg.guards
    have hglen : κ.guards.length = w1.guards.length := by rw [hc1.gs]; simp
    refine ⟨{ κ.put w1.next (.holds c) false with guards := κ.guards ++ [some w1.next] }, ?_, ?_⟩
    · have := SStep.new κ c w1.next ((hc1.unused _).2 (Nat.le_refl _))
      rw [hglen] at this
      simpa [guardOut, World.withPage] using this
    · have := cinv_withPage (κ := κ) (κ' := { κ.put w1.next (.holds c) false with guards := κ.guards ++ [some w1.next] }) hg.inv hg.empty
        (n := w1.next + 1) ⟨w1.next, c, 1, false⟩ r hnt rfl hc1.gs ?_ ?_ ?_ ?_ hc1.res hc1.clean hc1.out ?_ ?_
      · exact this
      · intro pid
        simp only [Known.put]
        by_cases e1 : pid = w1.next
        · rw [if_pos e1]; simp; omega
        · rw [if_neg e1, hc1.unused]; omega
      · intro pid hpid; exact hc1.nodisk pid (by omega)
      · simp [Known.put]
      · intro pid hpid; simp only [Known.put]; rw [if_neg hpid]
      · intro _; exact .inl (hc1.nodisk _ (Nat.le_refl _))
      · intro pid hw
        simp only [Known.put] at hw
        by_cases e1 : pid = w1.next
        · rw [if_pos e1] at hw; cases hw
        · rw [if_neg e1] at hw
          rcases hc1.wr pid hw with h5 | h5
          · exact .inl h5
          · exact .inr (.inr h5)

theorem load_ok {w : World B} {s : State} (h : Inv w s) (e : Env) (ty pid : Nat) (hpid : w.table.get pid = none) (hlt : pid < w.next) :
    ∃ w' x s', w.load e ty pid = some (w', x) ∧ Inv w' s' ∧
      (e.writes = true → ∀ κ, CInv w κ → ∃ κ', SStep κ (.fetch ty pid) (guardOut w' x) κ' ∧ CInv w' κ') := by
  unfold World.load
  obtain ⟨w1, x, s1, h1, h2⟩ := getFrame_ok h e
  rw [h1]
  cases x with
  | none =>
    obtain ⟨h3, ⟨r, rfl⟩, _⟩ := h2
    exact ⟨_, _, s1, rfl, h3, fun _ κ hc => ⟨κ, .fetchNone κ _ _, ⟨hc.gs, hc.unused, hc.nodisk, hc.res, hc.clean, hc.out, hc.wr⟩⟩⟩
  | some f =>
    obtain ⟨hg, hfr⟩ := h2
    simp only [evictIfNecessary_none hg.empty]
    have hnt : w1.table.get pid = none := by
      cases hfr with
      | free _ _ h3 _ _ => rw [h3]; exact hpid
      | evict o p r _ _ _ h4 =>
        rw [h4, (evictOld_frame _ _ _ _).2.2.1, AMap.get_erase]
        split
        · rfl
        · exact hpid
    cases hd : (if e.reads = true then w1.disk pid else none) with
    | none =>
      exact ⟨_, _, s1, rfl, hg.inv, fun he κ hc => ⟨κ, .fetchNone κ _ _, cinv_getFrame h hc he hfr hg.next hg.guards⟩⟩
    | some c =>
      have hdisk : w1.disk pid = some c := by
        by_cases hr : e.reads = true
        · rw [if_pos hr] at hd; exact hd
        · rw [if_neg hr] at hd; cases hd
      simp only
      by_cases hty : c.ty = ty
      · rw [if_pos hty]
        obtain ⟨r, s2, h3, h4⟩ := install_ok hg.inv e hg.empty hg.notFree pid c true hnt (by rw [hg.next]; exact hlt)
        rw [h4]
        refine ⟨_, _, s2, rfl, h3, ?_⟩
        intro he κ hc
        have hc1 := cinv_getFrame h hc he hfr hg.next hg.guards
        have hglen : κ.guards.length = w1.guards.length := by rw [hc1.gs]; simp
        have hout : guardOut (w1.withPage f ⟨pid, c, 1, true⟩ r) (some w1.guards.length) = .guard (some (κ.guards.length, pid)) := by
          rw [hglen]; simp [guardOut, World.withPage]
        rw [hout]
        cases hk : κ.data pid with
        | unused =>
          have := (hc1.unused pid).1 hk
          rw [hg.next] at this
          omega
        | holds c' =>
          have hcc : c' = c := by
            rcases hc1.out pid c' hnt hk with h5 | h5
            · rw [hdisk] at h5; cases h5
            · rw [hdisk] at h5; cases h5; rfl
          subst hcc
          refine ⟨{ κ with guards := κ.guards ++ [some pid] }, .fetch κ ty pid c' hk hty, ?_⟩
          have := cinv_withPage (κ := κ) (κ' := { κ with guards := κ.guards ++ [some pid] }) hg.inv hg.empty
            (n := w1.next) ⟨pid, c', 1, true⟩ r hnt rfl hc1.gs hc1.unused hc1.nodisk hk (fun _ _ => rfl) hc1.res hc1.clean hc1.out
            (fun hh => by cases hh) ?_
          · exact this
          · intro pid' hw
            rcases hc1.wr pid' hw with h5 | h5
            · exact .inl h5
            · exact .inr (.inr h5)
        | deleted =>
          refine ⟨{ κ.put pid (.holds c) true with guards := κ.guards ++ [some pid] }, .fetchDeleted κ ty pid c hk hty, ?_⟩
          have := cinv_withPage (κ := κ) (κ' := { κ.put pid (.holds c) true with guards := κ.guards ++ [some pid] }) hg.inv hg.empty
            (n := w1.next) ⟨pid, c, 1, true⟩ r hnt rfl hc1.gs ?_ hc1.nodisk ?_ ?_ hc1.res hc1.clean hc1.out
            (fun hh => by cases hh) ?_
          · exact this
          · intro pid'
            simp only [Known.put]
            by_cases e1 : pid' = pid
            · rw [if_pos e1, hg.next]; simp; omega
            · rw [if_neg e1]; exact hc1.unused pid'
          · simp [Known.put]
          · intro pid' hp'; simp only [Known.put]; rw [if_neg hp']
          · intro pid' hw
            simp only [Known.put] at hw
            by_cases e1 : pid' = pid
            · exact .inr (.inl ⟨e1, rfl⟩)
            · rw [if_neg e1] at hw
              rcases hc1.wr pid' hw with h5 | h5
              · exact .inl h5
              · exact .inr (.inr h5)
      · rw [if_neg hty]
        exact ⟨_, _, s1, rfl, hg.inv, fun he κ hc => ⟨κ, .fetchNone κ _ _, cinv_getFrame h hc he hfr hg.next hg.guards⟩⟩

theorem resident_some {w : World B} {s : State} (h : Inv w s) {pid f o : Nat} {p : Page B} (hp : w.Holds f o p) (e : p.id = pid) :
    w.resident pid = some (some (f, o, p)) := by
  have ht := (h.tbl pid f).2 ⟨o, p, hp, e⟩
  have hlt : f < w.frames.length := (List.getElem?_eq_some_iff.1 hp.1).1
  unfold World.resident
  rw [ht]
  simp only [hlt, if_true, frame_eq.2 hp.1, hp.2]

theorem resident_cases {w : World B} {s : State} (h : Inv w s) (pid : Nat) :
    (w.table.get pid = none ∧ w.resident pid = some none) ∨ ∃ f o p, w.Holds f o p ∧ p.id = pid ∧ w.resident pid = some (some (f, o, p)) := by
  cases ht : w.table.get pid with
  | none => exact .inl ⟨rfl, by unfold World.resident; rw [ht]⟩
  | some f =>
    obtain ⟨o, p, hp, e⟩ := (h.tbl pid f).1 ht
    exact .inr ⟨f, o, p, hp, e, resident_some h hp e⟩

theorem fetch_ok {w : World B} {s : State} (h : Inv w s) (e : Env) (ty pid : Nat) : StepOk w e (.fetch ty pid) := by
  unfold StepOk
  simp only [step, World.fetchPage]
  by_cases hge : pid ≥ w.next
  · rw [if_pos hge]
    exact ⟨_, _, s, rfl, h, fun _ κ hc => ⟨κ, .fetchNone κ _ _, hc⟩⟩
  · rw [if_neg hge]
    rcases resident_cases h pid with ⟨h1, h2⟩ | ⟨f, o, p, hp, e1, h2⟩
    · rw [h2]
      obtain ⟨w', x, s', h3, h4, h5⟩ := load_ok h e ty pid h1 (by omega)
      simp only [h3, Option.map_some]
      exact ⟨_, _, s', rfl, h4, h5⟩
    · rw [h2]
      by_cases hty : p.data.ty = ty
      · simp only [World.touch]
        rw [if_neg (by simp [hty])]
        obtain ⟨r, x, s', h3, h4, h5, h6⟩ := rep_touch h.k1 h.k2 h.rel f e.now false
        rw [h3]
        simp only
        have hi : Inv { w.modifyObj o (fun p => { p with pin := p.pin + 1 }) with rep := r, guards := w.guards ++ [some ⟨pid, o, false⟩] } s' := by
          refine inv_repin h h4 h5 hp _ _ (fun _ => rfl) ?_ ?_ ?_ ?_
          · intro g; rw [h6 g]; simp
          · rw [pinsOn_append]; simp [h.pin f o p hp]
          · intro o' ho'; rw [pinsOn_append]; simp [Ne.symm ho']
          · intro i gd hg
            rw [List.getElem?_append] at hg
            split at hg
            · exact .inr ⟨i, hg⟩
            · cases hn : i - w.guards.length with
              | zero => rw [hn] at hg; simp at hg; subst hg; exact .inl ⟨rfl, e1.symm⟩
              | succ m => rw [hn] at hg; simp at hg
        refine ⟨_, _, s', rfl, hi, ?_⟩
        intro _ κ hc
        have hglen : κ.guards.length = w.guards.length := by rw [hc.gs]; simp
        refine ⟨{ κ with guards := κ.guards ++ [some pid] }, ?_, ?_⟩
        · have := SStep.fetch κ ty pid p.data (by rw [← e1]; exact hc.res f o p hp) hty
          rw [hglen] at this
          simpa [guardOut, World.modifyObj] using this
        · exact cinv_repin hc o _ r _ (fun _ => rfl) (fun _ => rfl) (fun _ hh => hh) (fun _ hh => hh) (by simp [hc.gs, World.modifyObj]) rfl rfl
      · simp only [if_pos (show p.data.ty ≠ ty from hty)]
        exact ⟨_, _, s, rfl, h, fun _ κ hc => ⟨κ, .fetchNone κ _ _, hc⟩⟩

theorem drop_ok {w : World B} {s : State} (h : Inv w s) (e : Env) (g : Nat) : StepOk w e (.drop g) := by
  unfold StepOk
  simp only [step, World.dropGuard]
  cases hg : (w.guards[g]?).join with
  | none =>
    refine ⟨_, _, s, rfl, h, fun _ κ hc => ⟨_, .drop κ g, ?_⟩⟩
    have : κ.guards.set g none = κ.guards := by
      have h1 := guards_lookup hc g
      rw [hg] at h1
      apply List.ext_getElem?
      intro i
      rw [List.getElem?_set]
      by_cases e1 : g = i
      · subst e1
        cases h2 : κ.guards[g]? with
        | none =>
          have := List.getElem?_eq_none_iff.1 h2
          rw [if_pos rfl, if_neg (by omega)]
        | some y =>
          have hlt := (List.getElem?_eq_some_iff.1 h2).1
          rw [h2] at h1
          simp at h1
          subst h1
          rw [if_pos rfl, if_pos hlt]
      · rw [if_neg e1]
    rw [this]
    exact hc
  | some gd =>
    have hlive : w.Live g gd := join_eq_some.1 hg
    obtain ⟨f, p, hp, e1⟩ := h.gd g gd hlive
    have ht := (h.tbl gd.pid f).2 ⟨gd.obj, p, hp, e1⟩
    have hpin := h.pin f _ p hp
    have hpos : 0 < pinsOn w.guards gd.obj := pinsOn_pos.2 ⟨g, gd, hlive, rfl⟩
    have hdrop := pinsOn_drop hlive
    have hds := hdrop gd.obj
    rw [if_pos rfl] at hds
    -- the new page
    have hkgs : ∀ κ : Known B, CInv w κ → κ.guards.set g none = (w.guards.set g none).map (Option.map Guard.pid) := by
      intro κ hc
      rw [hc.gs, List.map_set]; rfl
    have hgs : ∀ (i : Nat) (gd' : Guard), (w.guards.set g none)[i]? = some (some gd') → (gd'.obj = gd.obj ∧ gd'.pid = p.id) ∨ ∃ j, w.Live j gd' := by
      intro i gd' hi
      rw [List.getElem?_set] at hi
      by_cases e2 : g = i
      · rw [if_pos e2] at hi; split at hi <;> simp at hi
      · rw [if_neg e2] at hi; exact .inr ⟨i, hi⟩
    have hfr : World.frame { w with guards := w.guards.set g none } f = some gd.obj := frame_eq.2 hp.1
    obtain ⟨gp, hgp⟩ : ∃ gp : Page B → Page B, gp = fun q => { q with pin := q.pin - 1, dirty := q.dirty || gd.dirty } := ⟨_, rfl⟩
    have hobj : World.modifyObj (if gd.dirty = true then World.modifyObj { w with guards := w.guards.set g none } gd.obj (fun p => { p with dirty := true })
        else { w with guards := w.guards.set g none }) gd.obj (fun p => { p with pin := p.pin - 1 }) =
        { w.modifyObj gd.obj gp with guards := w.guards.set g none } := by
      subst hgp
      cases gd.dirty with
      | true =>
        simp only [if_true, World.modifyObj, List.modify_modify_eq]
        congr
        funext q; simp
      | false => simp [World.modifyObj]
    have hpinp : (gp p).pin = p.pin - 1 := by subst hgp; rfl
    simp only [World.unpin, ht, hfr, hp.2]
    rw [if_pos (by omega)]
    have hcinv : ∀ (r : Rep) (κ : Known B), CInv w κ → ∃ κ', SStep κ (.drop g) .unit κ' ∧
        CInv { w.modifyObj gd.obj gp with rep := r, guards := w.guards.set g none } κ' := by
      intro r κ hc
      refine ⟨_, .drop κ g, ?_⟩
      refine cinv_repin hc gd.obj gp r _ ?_ ?_ ?_ ?_ (hkgs κ hc) rfl rfl
      · subst hgp; intro _; rfl
      · subst hgp; intro _; rfl
      · subst hgp; intro q hq; simp at hq; exact hq.1
      · subst hgp; intro q hq; simp [hq]
    by_cases h1 : p.pin = 1
    · rw [if_pos h1]
      rw [hobj]
      obtain ⟨r, x, s', h3, h4, h5, h6⟩ := rep_touch h.k1 h.k2 h.rel f e.now true
      have htouch : World.touch { w.modifyObj gd.obj gp with guards := w.guards.set g none } e f true =
          some { w.modifyObj gd.obj gp with rep := r, guards := w.guards.set g none } := by
        unfold World.touch
        rw [show World.rep { w.modifyObj gd.obj gp with guards := w.guards.set g none } = w.rep from rfl, h3]
      rw [htouch]
      refine ⟨_, _, s', rfl, ?_, fun _ κ hc => hcinv r κ hc⟩
      refine inv_repin h h4 h5 hp gp _ (by subst hgp; intro _; rfl) ?_ ?_ ?_ hgs
      · intro g'; rw [h6 g']; simp [hpinp, h1]
      · rw [hpinp]; omega
      · intro o' ho'; have := hdrop o'; rw [if_neg (fun e2 => ho' e2.symm)] at this; exact this
    · rw [if_neg h1]
      rw [hobj]
      refine ⟨_, _, s, rfl, ?_, fun _ κ hc => hcinv w.rep κ hc⟩
      refine inv_repin (r := w.rep) h h.rel rfl hp gp _ (by subst hgp; intro _; rfl) ?_ ?_ ?_ hgs
      · intro g'
        by_cases e2 : g' = f
        · subst e2
          rw [if_pos rfl, hpinp, h.ev]
          constructor
          · rintro ⟨o', q, hq, h0⟩
            have : o' = gd.obj := Option.some.inj (Option.some.inj (hq.1.symm.trans hp.1))
            subst this
            have := (h.inj_obj hq hp).2
            subst this
            omega
          · intro h0; omega
        · rw [if_neg e2]
      · rw [hpinp]; omega
      · intro o' ho'; have := hdrop o'; rw [if_neg (fun e2 => ho' e2.symm)] at this; exact this

/-- Overwriting a page in memory. -/
theorem cinv_put {w : World B} {s : State} (h : Inv w s) {κ : Known B} (hc : CInv w κ) {f o : Nat} {p : Page B} (hp : w.Holds f o p) (b : B)
    (gs : List (Option Guard)) (hgs : gs.map (Option.map Guard.pid) = w.guards.map (Option.map Guard.pid)) :
    CInv (World.modifyObj { w with guards := gs } o (fun p => { p with dirty := true, data := { p.data with body := b } }))
      (κ.put p.id (.holds { p.data with body := b }) true) := by
  have hh : ∀ f' o' q, World.Holds (World.modifyObj { w with guards := gs } o
        (fun p => { p with dirty := true, data := { p.data with body := b } })) f' o' q →
      (f' = f ∧ o' = o ∧ q = { p with dirty := true, data := { p.data with body := b } }) ∨ (q.id ≠ p.id ∧ w.Holds f' o' q) := by
    intro f' o' q hq
    obtain ⟨q', hq', e1⟩ := holds_modify.1 hq
    have hq'' : w.Holds f' o' q' := hq'
    by_cases eo : o' = o
    · subst eo
      obtain ⟨rfl, rfl⟩ := h.inj_obj hp hq''
      simp at e1
      exact .inl ⟨rfl, rfl, e1⟩
    · simp [eo] at e1
      subst e1
      refine .inr ⟨?_, hq''⟩
      intro e2
      have := h.inj hq'' hp e2
      subst this
      exact eo (Option.some.inj (Option.some.inj (hq''.1.symm.trans hp.1)))
  have hh1 : World.Holds (World.modifyObj { w with guards := gs } o
      (fun p => { p with dirty := true, data := { p.data with body := b } })) f o { p with dirty := true, data := { p.data with body := b } } :=
    holds_modify.2 ⟨p, hp, by simp⟩
  have hold := h.old f o p hp
  refine ⟨?_, ?_, hc.nodisk, ?_, ?_, ?_, ?_⟩
  · show κ.guards = gs.map _
    rw [hgs]; exact hc.gs
  · intro pid
    show _ ↔ w.next ≤ pid
    simp only [Known.put]
    by_cases e1 : pid = p.id
    · rw [if_pos e1]; simp; omega
    · rw [if_neg e1]; exact hc.unused pid
  · intro f' o' q hq
    simp only [Known.put]
    rcases hh _ _ _ hq with ⟨_, _, rfl⟩ | ⟨h4, h5⟩
    · simp
    · rw [if_neg h4]; exact hc.res _ _ _ h5
  · intro f' o' q hq hdq
    rcases hh _ _ _ hq with ⟨_, _, rfl⟩ | ⟨h4, h5⟩
    · cases hdq
    · exact hc.clean _ _ _ h5 hdq
  · intro pid c hpid hcc
    simp only [Known.put] at hcc
    have hpid' : w.table.get pid = none := hpid
    rw [if_neg (by rintro rfl; rw [(h.tbl p.id f).2 ⟨o, p, hp, rfl⟩] at hpid'; cases hpid')] at hcc
    exact hc.out pid c hpid' hcc
  · intro pid hw'
    simp only [Known.put] at hw'
    by_cases e1 : pid = p.id
    · exact .inr ⟨f, o, _, hh1, e1.symm, rfl⟩
    · rw [if_neg e1] at hw'
      rcases hc.wr pid hw' with h5 | ⟨f', o', q, hq, e2, e3⟩
      · exact .inl h5
      · refine .inr ⟨f', o', q, holds_modify.2 ⟨q, hq, ?_⟩, e2, e3⟩
        rw [if_neg]
        rintro rfl
        have := (h.inj_obj hq hp).2
        subst this
        exact e1 e2.symm

theorem write_ok {w : World B} {s : State} (h : Inv w s) (e : Env) (g : Nat) (b : B) : StepOk w e (.write g b) := by
  unfold StepOk
  simp only [step, World.write]
  cases hg : (w.guards[g]?).join with
  | none => exact ⟨_, _, s, rfl, h, fun _ κ hc => ⟨κ, .writeNone κ g b (by rw [guards_lookup hc, hg]; rfl), hc⟩⟩
  | some gd =>
    have hlive : w.Live g gd := join_eq_some.1 hg
    obtain ⟨f, p, hp, e1⟩ := h.gd g gd hlive
    refine ⟨_, _, s, rfl, inv_modify (inv_guardDirty h hlive true) _ _ (fun _ => rfl) (fun _ => rfl), ?_⟩
    intro _ κ hc
    have hk := hc.res f _ p hp
    have hgl := guards_lookup hc g
    rw [hg] at hgl
    rw [e1] at hk
    refine ⟨_, .write κ g b gd.pid p.data (join_eq_some.1 hgl) hk, ?_⟩
    have := cinv_put h hc hp b (w.guards.set g (some { gd with dirty := true })) (by
      rw [List.map_set]
      apply List.ext_getElem?
      intro i
      rw [List.getElem?_set]
      by_cases e2 : g = i
      · subst e2
        have hlt := (List.getElem?_eq_some_iff.1 hlive).1
        have hl2 : w.guards[g]? = some (some gd) := hlive
        have hl3 : w.guards[g] = some gd := by rw [List.getElem?_eq_getElem hlt] at hl2; exact Option.some.inj hl2
        simp [hlt, hl3]
      · rw [if_neg e2])
    rw [e1] at this
    exact this

theorem read_ok {w : World B} {s : State} (h : Inv w s) (e : Env) (g : Nat) : StepOk w e (.read g) := by
  unfold StepOk
  simp only [step, World.read]
  cases hg : (w.guards[g]?).join with
  | none => exact ⟨_, _, s, rfl, h, fun _ κ hc => ⟨κ, .readNone κ g (by rw [guards_lookup hc, hg]; rfl), hc⟩⟩
  | some gd =>
    have hlive : w.Live g gd := join_eq_some.1 hg
    obtain ⟨f, p, hp, e1⟩ := h.gd g gd hlive
    refine ⟨_, _, s, rfl, h, ?_⟩
    intro _ κ hc
    have hk := hc.res f _ p hp
    have hgl := guards_lookup hc g
    rw [hg] at hgl
    rw [e1] at hk
    refine ⟨_, ?_, hc⟩
    have := SStep.read κ g gd.pid p.data (join_eq_some.1 hgl) hk
    simp only [Option.bind_some, hp.2, Option.map_some]
    exact this

theorem findFrame_some {w : World B} {pid f : Nat} (hf : w.findFrame pid = some f) : ∃ o p, w.Holds f o p ∧ p.id = pid := by
  unfold World.findFrame at hf
  have h1 := List.find?_some hf
  cases hp : w.pageAt f with
  | none => rw [hp] at h1; cases h1
  | some p =>
    rw [hp] at h1
    obtain ⟨o, ho⟩ := pageAt_eq.1 hp
    exact ⟨o, p, ho, by simpa using h1⟩

theorem findFrame_none {w : World B} {pid : Nat} (hf : w.findFrame pid = none) {f o : Nat} {p : Page B} (hp : w.Holds f o p) : p.id ≠ pid := by
  unfold World.findFrame at hf
  rw [List.find?_eq_none] at hf
  have hlt : f < w.frames.length := (List.getElem?_eq_some_iff.1 hp.1).1
  have := hf f (by simpa using hlt)
  rw [pageAt_eq.2 ⟨o, hp⟩] at this
  simpa using this

/-- A page that users hold a guard of is in memory. -/
theorem guarded_resident {w : World B} {s : State} (h : Inv w s) {κ : Known B} (hc : CInv w κ) {pid : Nat} (hp : some pid ∈ κ.guards) :
    ∃ f o p, w.Holds f o p ∧ p.id = pid ∧ p.pin > 0 := by
  rw [hc.gs] at hp
  obtain ⟨x, hx, e⟩ := List.mem_map.1 hp
  cases x with
  | none => cases e
  | some gd =>
    simp at e
    obtain ⟨g, hlt, hg⟩ := List.getElem_of_mem hx
    have hlive : w.Live g gd := List.getElem?_eq_some_iff.2 ⟨hlt, hg⟩
    obtain ⟨f, p, hp, e1⟩ := h.gd g gd hlive
    refine ⟨f, gd.obj, p, hp, e1.trans e, ?_⟩
    rw [h.pin _ _ _ hp]
    exact pinsOn_pos.2 ⟨g, gd, hlive, rfl⟩

theorem writePage_ok {w : World B} {s : State} (h : Inv w s) (e : Env) (pid : Nat) (b : B) : StepOk w e (.writePage pid b) := by
  unfold StepOk
  simp only [step, World.writePage]
  cases hf : w.findFrame pid with
  | none =>
    refine ⟨_, _, s, rfl, h, fun _ κ hc => ⟨κ, .writePageIgnored κ pid b ?_, hc⟩⟩
    intro hm
    obtain ⟨f, o, p, hp, e1, _⟩ := guarded_resident h hc hm
    exact findFrame_none hf hp e1
  | some f =>
    obtain ⟨o, p, hp, e1⟩ := findFrame_some hf
    simp only [frame_eq.2 hp.1]
    refine ⟨_, _, s, rfl, inv_modify h _ _ (fun _ => rfl) (fun _ => rfl), ?_⟩
    intro _ κ hc
    have hk := hc.res f _ p hp
    rw [e1] at hk
    refine ⟨_, .writePage κ pid b p.data hk, ?_⟩
    have := cinv_put h hc hp b w.guards rfl
    rw [e1] at this
    exact this

theorem flush_ok {w : World B} {s : State} (h : Inv w s) (e : Env) (pid : Nat) : StepOk w e (.flush pid) := by
  unfold StepOk
  simp only [step, World.flushPage]
  cases ht : w.table.get pid with
  | none => exact ⟨_, _, s, rfl, h, fun _ κ hc => ⟨κ, .flushNot κ pid, hc⟩⟩
  | some f =>
    obtain ⟨o, p, hp, e1⟩ := (h.tbl pid f).1 ht
    simp only [frame_eq.2 hp.1]
    refine ⟨_, _, s, rfl, inv_writeOut h _ _ _, ?_⟩
    intro he κ hc
    obtain ⟨h1, h2, h3⟩ := cinv_writeOut h hc he hp
    rw [e1] at h1 h2 h3
    refine ⟨{ κ with written := fun p => if p = pid then true else κ.written p }, ?_, ⟨h1.gs, h1.unused, h1.nodisk, h1.res, h1.clean, h1.out, ?_⟩⟩
    · rw [he]; exact .flush κ pid
    intro pid' hw
    simp only at hw
    by_cases e2 : pid' = pid
    · subst e2; left; rw [h2]; simp
    · rw [if_neg e2] at hw; exact h1.wr pid' hw

theorem delete_ok {w : World B} {s : State} (h : Inv w s) (e : Env) (pid : Nat) : StepOk w e (.delete pid) := by
  unfold StepOk
  simp only [step, World.deletePage]
  cases ht : w.table.get pid with
  | none => exact ⟨_, _, s, rfl, h, fun _ κ hc => ⟨κ, .deleteNot κ pid, hc⟩⟩
  | some f =>
    obtain ⟨o, p, hp, e1⟩ := (h.tbl pid f).1 ht
    simp only [pageAt_eq.2 ⟨o, hp⟩]
    by_cases hpin : p.pin > 0
    · rw [if_pos hpin]
      exact ⟨_, _, s, rfl, h, fun _ κ hc => ⟨κ, .deleteNot κ pid, hc⟩⟩
    · have hlt : f < w.frames.length := (List.getElem?_eq_some_iff.1 hp.1).1
      rw [if_neg hpin, if_pos hlt]
      obtain ⟨s', h3, h4, h5⟩ := rep_remove h.k1 h.k2 h.rel f
      have hi := inv_clear h h3 h4 hp (by omega) h5 _ (.inr rfl)
      rw [e1] at hi
      refine ⟨_, _, s', rfl, hi, ?_⟩
      intro _ κ hc
      refine ⟨_, .delete κ pid ?_, ?_⟩
      · intro hm
        obtain ⟨f', o', p', hp', e2, h6⟩ := guarded_resident h hc hm
        have := h.inj hp' hp (e2.trans e1.symm)
        subst this
        have := Option.some.inj (Option.some.inj (hp'.1.symm.trans hp.1))
        subst this
        have := (h.inj_obj hp' hp).2
        subst this
        omega
      · have hne : ∀ f' o' q, f' ≠ f → w.Holds f' o' q → q.id ≠ pid := by
          intro f' o' q hf' hq e2
          exact hf' (h.inj hq hp (e2.trans e1.symm))
        have hold := h.old f o p hp
        refine ⟨hc.gs, ?_, hc.nodisk, ?_, ?_, ?_, ?_⟩
        · intro pid'
          show _ ↔ w.next ≤ pid'
          simp only [Known.put]
          by_cases e2 : pid' = pid
          · rw [if_pos e2]; simp; omega
          · rw [if_neg e2]; exact hc.unused pid'
        · intro f' o' q hq
          obtain ⟨h6, h7⟩ := holds_clear.1 hq
          simp only [Known.put]
          rw [if_neg (hne _ _ _ h6 h7)]
          exact hc.res _ _ _ h7
        · intro f' o' q hq
          exact hc.clean _ _ _ (holds_clear.1 hq).2
        · intro pid' c hpid' hcc
          simp only [Known.put] at hcc
          by_cases e2 : pid' = pid
          · rw [if_pos e2] at hcc; cases hcc
          · rw [if_neg e2] at hcc
            have : (w.table.erase pid).get pid' = none := hpid'
            rw [AMap.get_erase, if_neg (fun e3 => e2 e3.symm)] at this
            exact hc.out pid' c this hcc
        · intro pid' hw
          simp only [Known.put] at hw
          by_cases e2 : pid' = pid
          · rw [if_pos e2] at hw; cases hw
          · rw [if_neg e2] at hw
            rcases hc.wr pid' hw with h6 | ⟨f', o', q, hq, e3, e4⟩
            · exact .inl h6
            · refine .inr ⟨f', o', q, holds_clear.2 ⟨?_, hq⟩, e3, e4⟩
              rintro rfl
              have := Option.some.inj (Option.some.inj (hq.1.symm.trans hp.1))
              subst this
              have := (h.inj_obj hq hp).2
              subst this
              exact e2 (e3.symm.trans e1)

theorem step_ok {w : World B} {s : State} (h : Inv w s) (e : Env) (op : Op B) : StepOk w e op := by
  cases op with
  | new c => exact new_ok h e c
  | fetch ty pid => exact fetch_ok h e ty pid
  | drop g => exact drop_ok h e g
  | write g b => exact write_ok h e g b
  | read g => exact read_ok h e g
  | writePage pid b => exact writePage_ok h e pid b
  | flush pid => exact flush_ok h e pid
  | delete pid => exact delete_ok h e pid

theorem run_ok : ∀ (ops : List (Env × Op B)) (w : World B) (s : State), Inv w s → ∃ w' outs s', run w ops = some (w', outs) ∧ Inv w' s' ∧
    ((∀ x ∈ ops, x.1.writes = true) → ∀ κ, CInv w κ → ∃ κ', SRun κ (ops.map Prod.snd) outs κ' ∧ CInv w' κ') := by
  intro ops
  induction ops with
  | nil => intro w s h; exact ⟨w, [], s, rfl, h, fun _ κ hc => ⟨κ, .nil κ, hc⟩⟩
  | cons x ops ih =>
    intro w s h
    obtain ⟨e, op⟩ := x
    obtain ⟨w1, out, s1, h1, h2, h3⟩ := step_ok h e op
    obtain ⟨w2, outs, s2, h4, h5, h6⟩ := ih w1 s1 h2
    refine ⟨w2, out :: outs, s2, by simp only [run, h1, h4], h5, ?_⟩
    intro hw κ hc
    obtain ⟨κ1, h7, h8⟩ := h3 (hw _ (List.mem_cons_self)) κ hc
    obtain ⟨κ2, h9, h10⟩ := h6 (fun x hx => hw x (List.mem_cons_of_mem _ hx)) κ1 h8
    exact ⟨κ2, .cons h7 h9, h10⟩

end Verif.Pool
