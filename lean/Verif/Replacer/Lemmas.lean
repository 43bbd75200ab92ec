import Verif.Replacer.Spec

namespace Verif.Replacer

open Spec

/-- The last `k` elements. -/
def lastK (k : Nat) (l : List Nat) : List Nat := l.drop (l.length - k)

/-- The concrete state represents the specification state. -/
structure Rel (r : Rep) (s : State) : Prop where
  none_iff : ∀ f, r.store.get f = none ↔ s f = none
  some_iff : ∀ f e, r.store.get f = some e →
    ∃ h, s f = some (h, e.evictable) ∧ e.history = lastK r.k h ∧ e.accessCount = h.length ∧ h ≠ []
  queue : ∀ f e, r.store.get f = some e → e.evictable = true → f ∈ r.deque
  count : r.deque.length = r.currSize
  wf : r.store.WF

theorem rel_new (size k : Nat) : Rel (new size k) empty := by
  constructor <;> simp [new, empty]

theorem lastK_snoc (k : Nat) (h : List Nat) (x : Nat) :
    lastK k (h ++ [x]) =
      (let l := lastK k h ++ [x]; if l.length > k then l.drop 1 else l) := by
  unfold lastK
  simp only [List.length_append, List.length_cons, List.length_nil, List.length_drop]
  by_cases hk : h.length < k
  · have e1 : h.length - k = 0 := by omega
    have e2 : h.length + (0 + 1) - k = 0 := by omega
    simp only [e1, e2, List.drop_zero]
    rw [if_neg (by omega)]
  · rw [if_pos (by omega)]
    by_cases hk0 : k = 0
    · subst hk0
      simp
    · rw [List.drop_append_of_le_length (by omega)]
      rw [List.drop_append_of_le_length (by simp; omega)]
      rw [List.drop_drop]
      congr 2
      omega

/-! ### The scan returns a victim of the specification -/

/-- Rank of an entry: smaller goes first. -/
def rank (k : Nat) (e : Entry) : Nat × Nat × Nat :=
  if e.history.length < k then (0, e.history.length, e.history.head?.getD u64Max)
  else (1, 0, (e.history[e.history.length - k]?).getD u64Max)

def le3 (a b : Nat × Nat × Nat) : Prop :=
  a.1 < b.1 ∨ (a.1 = b.1 ∧ (a.2.1 < b.2.1 ∨ (a.2.1 = b.2.1 ∧ a.2.2 ≤ b.2.2)))

theorem le3_refl (a) : le3 a a := by unfold le3; omega
theorem le3_trans {a b c} : le3 a b → le3 b c → le3 a c := by unfold le3; omega
theorem le3_total (a b) : le3 a b ∨ le3 b a := by unfold le3; omega

/-- Meaning of the scan's local variables after the frames `seen`. -/
structure AccOk (k : Nat) (store : AMap Nat Entry) (seen : List Nat) (acc : Acc) : Prop where
  none_ok : acc.victim = none →
    acc.minK = u64Max ∧ ∀ f ∈ seen, ∀ e, store.get f = some e → e.evictable = false
  some_ok : ∀ v, acc.victim = some v → ∃ e, store.get v = some e ∧ e.evictable = true ∧ v ∈ seen ∧
    (if acc.minK < k then rank k e = (0, acc.minK, acc.oldest)
      else acc.minK = k ∧ rank k e = (1, 0, acc.oldest)) ∧
    ∀ f ∈ seen, ∀ e', store.get f = some e' → e'.evictable = true → le3 (rank k e) (rank k e')

theorem accOk_keep {k : Nat} {store : AMap Nat Entry} {seen : List Nat} {acc : Acc} {f : Nat}
    (h : AccOk k store seen acc)
    (hf : ∀ e, store.get f = some e → e.evictable = true →
      ∃ v ev, acc.victim = some v ∧ store.get v = some ev ∧ le3 (rank k ev) (rank k e)) :
    AccOk k store (seen ++ [f]) acc := by
  constructor
  · intro hn
    refine ⟨(h.none_ok hn).1, ?_⟩
    intro g hg e he
    rcases List.mem_append.1 hg with hg | hg
    · exact (h.none_ok hn).2 g hg e he
    · simp at hg; subst hg
      cases hev : e.evictable with
      | false => rfl
      | true =>
        obtain ⟨v, ev, hv, _⟩ := hf e he hev
        rw [hn] at hv; cases hv
  · intro v hv
    obtain ⟨e, h1, h2, h3, h4, h5⟩ := h.some_ok v hv
    refine ⟨e, h1, h2, List.mem_append_left _ h3, h4, ?_⟩
    intro g hg e' he' hev
    rcases List.mem_append.1 hg with hg | hg
    · exact h5 g hg e' he' hev
    · simp at hg; subst hg
      obtain ⟨v', ev, hv', hget, hle⟩ := hf e' he' hev
      rw [hv] at hv'; cases hv'
      rw [h1] at hget; cases hget
      exact hle

theorem accOk_take {k : Nat} {store : AMap Nat Entry} {seen : List Nat} {acc acc' : Acc} {f : Nat}
    {e : Entry} (h : AccOk k store seen acc) (he : store.get f = some e) (hev : e.evictable = true)
    (hv : acc'.victim = some f)
    (hrank : if acc'.minK < k then rank k e = (0, acc'.minK, acc'.oldest)
      else acc'.minK = k ∧ rank k e = (1, 0, acc'.oldest))
    (hle : ∀ v ev, acc.victim = some v → store.get v = some ev → le3 (rank k e) (rank k ev)) :
    AccOk k store (seen ++ [f]) acc' := by
  constructor
  · intro hn; rw [hv] at hn; cases hn
  · intro v hv'
    rw [hv] at hv'; cases hv'
    refine ⟨e, he, hev, by simp, hrank, ?_⟩
    intro g hg e' he' hev'
    rcases List.mem_append.1 hg with hg | hg
    · cases hacc : acc.victim with
      | none => have := (h.none_ok hacc).2 g hg e' he'; rw [hev'] at this; cases this
      | some v =>
        obtain ⟨ev, h1, h2, h3, h4, h5⟩ := h.some_ok v hacc
        exact le3_trans (hle v ev hacc h1) (h5 g hg e' he' hev')
    · simp at hg; subst hg
      rw [he] at he'; cases he'
      exact le3_refl _

theorem scanStep_ok {k : Nat} (hk : k ≤ u64Max) {store : AMap Nat Entry} {seen : List Nat}
    {acc : Acc} (h : AccOk k store seen acc) (f : Nat) :
    AccOk k store (seen ++ [f]) (scanStep k store acc f) := by
  unfold scanStep
  cases he : store.get f with
  | none => exact accOk_keep h (by intro e he'; rw [he] at he'; cases he')
  | some e =>
    simp only
    cases hev : e.evictable with
    | false =>
      simp only [Bool.not_false, if_true]
      exact accOk_keep h (by intro e' he' hev'; rw [he] at he'; cases he'; rw [hev] at hev'; cases hev')
    | true =>
      simp only [Bool.not_true, Bool.false_eq_true, if_false]
      cases hacc : acc.victim with
      | none =>
        have hmin := (h.none_ok hacc).1
        simp only [Option.isNone_none, Bool.true_or, if_true]
        split
        · next hn =>
          exact accOk_take h he hev rfl (by simp only [if_pos hn, rank]) (by intro v ev hv; rw [hacc] at hv; cases hv)
        · next hn =>
          rw [if_pos (by omega)]
          exact accOk_take h he hev rfl (by simp [rank, hn]) (by intro v ev hv; rw [hacc] at hv; cases hv)
      | some v =>
        obtain ⟨ev, h1, h2, h3, h4, h5⟩ := h.some_ok v hacc
        simp only [Option.isNone_some, Bool.false_or, decide_eq_true_eq]
        have keep : le3 (rank k ev) (rank k e) → AccOk k store (seen ++ [f]) acc := fun hle =>
          accOk_keep h (by intro e' he' _; rw [he] at he'; cases he'; exact ⟨v, ev, hacc, h1, hle⟩)
        split
        · next hn =>
          have hre : rank k e = (0, e.history.length, e.history.head?.getD u64Max) := by
            simp only [rank, if_pos hn]
          split
          · next hlt =>
            refine accOk_take h he hev rfl (by simp only [if_pos hn]; exact hre) ?_
            intro v' ev' hv' hget
            rw [hacc] at hv'; cases hv'; rw [h1] at hget; cases hget
            rw [hre]
            split at h4
            · rw [h4]; unfold le3; simp; omega
            · rw [h4.2]; unfold le3; simp
          · next hlt =>
            split
            · next heq =>
              split
              · next hfirst =>
                refine accOk_take h he hev rfl ?_ ?_
                · simp only; rw [← heq, if_pos hn, hre]
                · intro v' ev' hv' hget
                  rw [hacc] at hv'; cases hv'; rw [h1] at hget; cases hget
                  rw [hre]
                  rw [if_pos (by omega)] at h4
                  rw [h4]; unfold le3; simp; omega
              · next hfirst =>
                apply keep
                rw [hre]
                rw [if_pos (by omega)] at h4
                rw [h4]; unfold le3; simp; omega
            · next hne =>
              apply keep
              rw [hre]
              rw [if_pos (by omega)] at h4
              rw [h4]; unfold le3; simp; omega
        · next hn =>
          have hre : rank k e = (1, 0, (e.history[e.history.length - k]?).getD u64Max) := by
            simp only [rank, if_neg hn]
          split
          · next hge =>
            rw [if_neg (by omega)] at h4
            split
            · next hlt =>
              refine accOk_take h he hev rfl (by simp [hre]) ?_
              intro v' ev' hv' hget
              rw [hacc] at hv'; cases hv'; rw [h1] at hget; cases hget
              rw [hre, h4.2]; unfold le3; simp; omega
            · next hlt =>
              apply keep
              rw [hre, h4.2]; unfold le3; simp; omega
          · next hge =>
            apply keep
            rw [if_pos (by omega)] at h4
            rw [hre, h4]; unfold le3; simp

theorem scan_ok {k : Nat} (hk : k ≤ u64Max) (store : AMap Nat Entry) (deque : List Nat) :
    AccOk k store deque (scan k store deque) := by
  unfold scan
  suffices h : ∀ (rest seen : List Nat) (acc : Acc), AccOk k store seen acc →
      AccOk k store (seen ++ rest) (rest.foldl (scanStep k store) acc) by
    have := h deque [] { victim := none, minK := u64Max, oldest := u64Max } (⟨by simp, by simp⟩)
    simpa using this
  intro rest
  induction rest with
  | nil => intro seen acc h; simpa using h
  | cons f rest ih =>
    intro seen acc h
    have := ih (seen ++ [f]) _ (scanStep_ok hk h f)
    simpa using this

/-! ### Rank order and specification order agree -/

theorem lastK_length (k : Nat) (h : List Nat) : (lastK k h).length = min h.length k := by
  unfold lastK; simp; omega

theorem noLater_of_le3 {k : Nat} (hk : 1 ≤ k) {ef eg : Entry} {hf hg : List Nat}
    (e1 : ef.history = lastK k hf) (e2 : eg.history = lastK k hg) (nf : hf ≠ []) (ng : hg ≠ [])
    (hle : le3 (rank k ef) (rank k eg)) : NoLater k hf hg := by
  have pos : ∀ {l : List Nat}, l ≠ [] → 0 < l.length := by
    intro l h; cases l with
    | nil => exact absurd rfl h
    | cons a l => simp
  have small : ∀ {h : List Nat}, h.length < k → lastK k h = h := by
    intro h hl; unfold lastK; rw [show h.length - k = 0 by omega]; simp
  have big : ∀ {h : List Nat}, ¬ h.length < k →
      (lastK k h)[(lastK k h).length - k]? = h[h.length - k]? := by
    intro h hl
    rw [lastK_length, show min h.length k - k = 0 by omega]
    unfold lastK; rw [List.getElem?_drop]; simp
  unfold NoLater
  split
  · next hlf =>
    intro hlg
    rw [small hlf] at e1; rw [small hlg] at e2
    simp only [rank, e1, e2, if_pos hlf, if_pos hlg, le3] at hle
    cases hf with
    | nil => exact absurd rfl nf
    | cons a as =>
      cases hg with
      | nil => exact absurd rfl ng
      | cons b bs =>
        simp only [List.head?_cons, Option.getD_some] at hle
        simp only [List.head?_cons]
        rcases hle with h | ⟨_, h | ⟨h1, h2⟩⟩
        · omega
        · left; exact h
        · right; right; exact ⟨h1, a, b, rfl, rfl, h2⟩
  · next hlf =>
    have lf : ¬ ef.history.length < k := by rw [e1, lastK_length]; omega
    have hlg : ¬ hg.length < k := by
      intro hlg
      have lg : eg.history.length < k := by rw [e2, lastK_length]; omega
      simp only [rank, if_neg lf, if_pos lg, le3] at hle
      omega
    have lg : ¬ eg.history.length < k := by rw [e2, lastK_length]; omega
    refine ⟨hlg, ?_⟩
    simp only [rank, if_neg lf, if_neg lg, le3] at hle
    rw [e1, e2, big hlf, big hlg] at hle
    have i1 : hf.length - k < hf.length := by have := pos nf; omega
    have i2 : hg.length - k < hg.length := by have := pos ng; omega
    rw [List.getElem?_eq_getElem i1, List.getElem?_eq_getElem i2] at hle ⊢
    refine ⟨_, _, rfl, rfl, ?_⟩
    simp only [Option.getD_some] at hle
    omega

/-! ### Counting -/

theorem isCount_store {r : Rep} (wf : r.store.WF) {p : Nat → Prop} (q : Entry → Bool)
    (hp : ∀ f, p f ↔ ∃ e, r.store.get f = some e ∧ q e = true) :
    IsCount p (r.store.filter (fun x => q x.2)).length := by
  refine ⟨(r.store.filter (fun x => q x.2)).map (·.1), ?_, ?_, by simp⟩
  · exact (List.Sublist.map _ List.filter_sublist).nodup wf
  · intro f
    rw [hp]
    constructor
    · intro hm
      obtain ⟨⟨f', e⟩, h1, h2⟩ := List.mem_map.1 hm
      simp at h2; subst h2
      have := List.mem_filter.1 h1
      exact ⟨e, AMap.get_of_mem wf this.1, this.2⟩
    · rintro ⟨e, h1, h2⟩
      exact List.mem_map.2 ⟨(f, e), List.mem_filter.2 ⟨AMap.mem_of_get h1, h2⟩, rfl⟩

/-! ### Simulation of each call -/

theorem rel_evictable {r : Rep} {s : State} (h : Rel r s) (f : Nat) :
    Evictable s f ↔ ∃ e, r.store.get f = some e ∧ e.evictable = true := by
  constructor
  · rintro ⟨hh, hs⟩
    cases hg : r.store.get f with
    | none => rw [(h.none_iff f).1 hg] at hs; cases hs
    | some e =>
      obtain ⟨h', e1, _⟩ := h.some_iff f e hg
      rw [hs] at e1; simp at e1
      exact ⟨e, rfl, e1.2⟩
  · rintro ⟨e, hg, he⟩
    obtain ⟨h', e1, _⟩ := h.some_iff f e hg
    exact ⟨h', by rw [e1, he]⟩

/-- Updating one entry without touching the queue. -/
theorem rel_set {r : Rep} {s : State} (h : Rel r s) (f : Nat) (e : Entry) (hist : List Nat)
    (dq : List Nat) (cs : Nat)
    (h1 : e.history = lastK r.k hist) (h1' : e.accessCount = hist.length) (h2 : hist ≠ [])
    (h3 : e.evictable = true → f ∈ dq)
    (h4 : ∀ g, g ≠ f → g ∈ r.deque → g ∈ dq) (h5 : dq.length = cs) :
    Rel { r with store := r.store.set f e, deque := dq, currSize := cs }
      (upd s f (some (hist, e.evictable))) := by
  constructor
  · intro g
    simp only [AMap.get_set, upd]
    by_cases hg : f = g
    · subst hg; simp
    · rw [if_neg hg, if_neg (Ne.symm hg)]; exact h.none_iff g
  · intro g e' he'
    simp only [AMap.get_set, upd] at he' ⊢
    by_cases hg : f = g
    · subst hg; simp at he'; subst he'; simp; exact ⟨h1, h1', h2⟩
    · rw [if_neg hg] at he'; rw [if_neg (Ne.symm hg)]; exact h.some_iff g e' he'
  · intro g e' he' hev
    simp only [AMap.get_set] at he'
    by_cases hg : f = g
    · subst hg; simp at he'; subst he'; exact h3 hev
    · rw [if_neg hg] at he'; exact h4 g (Ne.symm hg) (h.queue g e' he' hev)
  · exact h5
  · exact AMap.wf_set h.wf _ _

theorem step_sim {r : Rep} {s : State} (hk : 1 ≤ r.k) (hk2 : r.k ≤ u64Max) (h : Rel r s) (o : Op) :
    ∃ r' out s', step r o = some (r', out) ∧ Step r.k s o out s' ∧ Rel r' s' ∧ r'.k = r.k := by
  cases o with
  | recordAccess f now =>
    refine ⟨recordAccess r f now, .unit, _, rfl, .access f now, ?_, rfl⟩
    cases hg : r.store.get f with
    | none =>
      have hs := (h.none_iff f).1 hg
      have := rel_set h f { accessCount := 1, history := [now], evictable := false } [now] r.deque
        r.currSize (by unfold lastK; simp; rw [show 1 - r.k = 0 by omega]; simp) rfl (by simp) (by simp)
        (fun g _ hg => hg) h.count
      simp only [recordAccess, hg, hs, Option.getD_none, List.nil_append, List.length_cons,
        List.length_nil]
      rw [if_neg (by omega)]
      exact this
    | some e =>
      obtain ⟨h', e1, e2, e3, e4⟩ := h.some_iff f e hg
      have hl := lastK_snoc r.k h' now
      have := rel_set h f (Entry.mk (e.accessCount + 1) (lastK r.k (h' ++ [now])) e.evictable) (h' ++ [now]) r.deque
        r.currSize rfl (by simp [e3]) (by simp) (fun he => h.queue f e hg he) (fun g _ hg => hg) h.count
      simp only [recordAccess, hg, e1, Option.getD_some]
      rw [hl] at this
      rw [e2]
      exact this
  | setEvictable f b =>
    simp only [step, setEvictable]
    cases hg : r.store.get f with
    | none =>
      exact ⟨r, .bool false, s, by simp, .setUntracked f b ((h.none_iff f).1 hg), h, rfl⟩
    | some e =>
      obtain ⟨h', e1, e2, e3, e4⟩ := h.some_iff f e hg
      simp only
      by_cases hb : e.evictable = b
      · refine ⟨r, .bool false, s, by simp [hb], .setSame f b h' (by rw [e1, hb]), h, rfl⟩
      · rw [if_neg hb]
        have hb' : e.evictable = !b := by cases b <;> cases hh : e.evictable <;> simp_all
        cases b with
        | true =>
          refine ⟨_, .bool true, _, rfl, .setFlip f true h' (by rw [e1, hb']), ?_, rfl⟩
          exact rel_set h f { e with evictable := true } h' (r.deque ++ [f]) (r.currSize + 1) e2 e3 e4
            (by simp) (fun g _ hg => List.mem_append_left _ hg) (by simp [h.count])
        | false =>
          have hin : f ∈ r.deque := h.queue f e hg hb'
          have hpos : r.currSize ≠ 0 := by
            rw [← h.count]; intro h0
            rw [List.eq_nil_of_length_eq_zero h0] at hin; simp at hin
          simp only [Bool.false_eq_true, if_false, if_pos hin, if_neg hpos]
          refine ⟨_, .bool true, _, rfl, .setFlip f false h' (by rw [e1, hb']), ?_, rfl⟩
          exact rel_set h f { e with evictable := false } h' (r.deque.erase f) (r.currSize - 1) e2 e3 e4
            (by simp) (fun g hg hm => (List.mem_erase_of_ne hg).2 hm)
            (by rw [List.length_erase_of_mem hin, h.count])
  | remove f =>
    simp only [step, remove]
    cases hg : r.store.get f with
    | none =>
      refine ⟨r, .unit, s, rfl, .removeOther f ?_, h, rfl⟩
      rw [rel_evictable h]; rintro ⟨e, he, _⟩; rw [hg] at he; cases he
    | some e =>
      simp only
      by_cases he : e.evictable = true
      · rw [if_pos he]
        refine ⟨_, .unit, _, rfl, .removeEvictable f ((rel_evictable h f).2 ⟨e, hg, he⟩), ?_, rfl⟩
        constructor
        · intro g; simp only [AMap.get_erase, upd]
          by_cases hgf : f = g
          · subst hgf; simp
          · rw [if_neg hgf, if_neg (Ne.symm hgf)]; exact h.none_iff g
        · intro g e' he'
          simp only [AMap.get_erase, upd] at he' ⊢
          by_cases hgf : f = g
          · subst hgf; simp at he'
          · rw [if_neg hgf] at he'; rw [if_neg (Ne.symm hgf)]; exact h.some_iff g e' he'
        · intro g e' he' hev
          simp only [AMap.get_erase] at he'
          by_cases hgf : f = g
          · subst hgf; simp at he'
          · rw [if_neg hgf] at he'; exact h.queue g e' he' hev
        · exact h.count
        · exact AMap.wf_erase h.wf _
      · rw [if_neg he]
        refine ⟨r, .unit, s, rfl, .removeOther f ?_, h, rfl⟩
        rw [rel_evictable h]; rintro ⟨e', he', hev⟩
        rw [hg] at he'; cases he'; exact he hev
  | evict =>
    simp only [step, evict]
    by_cases hd : r.deque.isEmpty = true
    · rw [if_pos hd]
      refine ⟨r, .frame none, s, rfl, .evictNone ?_, h, rfl⟩
      intro f hf
      obtain ⟨e, he, hev⟩ := (rel_evictable h f).1 hf
      have := h.queue f e he hev
      rw [List.isEmpty_iff.1 hd] at this; simp at this
    · rw [if_neg hd]
      have hs := scan_ok hk2 r.store r.deque
      cases hv : (scan r.k r.store r.deque).victim with
      | none =>
        refine ⟨r, .frame none, s, rfl, .evictNone ?_, h, rfl⟩
        intro f hf
        obtain ⟨e, he, hev⟩ := (rel_evictable h f).1 hf
        have := (hs.none_ok hv).2 f (h.queue f e he hev) e he
        rw [hev] at this; cases this
      | some f =>
        obtain ⟨e, he, hev, hin, _, hmin⟩ := hs.some_ok f hv
        obtain ⟨h', e1, e2, e3, e4⟩ := h.some_iff f e he
        rw [hev] at e1
        have hpos : r.currSize ≠ 0 := by
          rw [← h.count]; intro h0
          rw [List.eq_nil_of_length_eq_zero h0] at hin; simp at hin
        simp only [he, if_neg hpos]
        refine ⟨_, .frame (some f), _, rfl, .evictSome f h' e1 ⟨h', e1, ?_⟩, ?_, rfl⟩
        · intro g hg hsg
          obtain ⟨eg, heg, hevg⟩ := (rel_evictable h g).1 ⟨hg, hsg⟩
          obtain ⟨h'', g1, g2, g3, g4⟩ := h.some_iff g eg heg
          rw [hsg] at g1; simp at g1
          rw [← g1.1] at g2 g4
          exact noLater_of_le3 hk e2 g2 e4 g4 (hmin g (h.queue g eg heg hevg) eg heg hevg)
        · exact rel_set h f { e with evictable := false } h' (r.deque.erase f) (r.currSize - 1) e2 e3 e4
            (by simp) (fun g hg hm => (List.mem_erase_of_ne hg).2 hm)
            (by rw [List.length_erase_of_mem hin, h.count])
  | totalFrames =>
    refine ⟨r, .count (totalFrames r), s, rfl, .total _ ?_, h, rfl⟩
    have := isCount_store (r := r) h.wf (p := fun f => (s f).isSome) (fun _ => true) (by
      intro f
      have := h.none_iff f
      cases hg : r.store.get f <;> cases hs : s f <;> simp_all)
    have e : (r.store.filter (fun _ => true)) = r.store := List.filter_eq_self.2 (by simp)
    rw [e] at this; exact this
  | totalEvictable =>
    refine ⟨r, .count (totalEvictable r), s, rfl, .totalEv _ ?_, h, rfl⟩
    exact isCount_store h.wf (fun e => e.evictable) (rel_evictable h)

theorem run_sim (os : List Op) : ∀ {r : Rep} {s : State}, 1 ≤ r.k → r.k ≤ u64Max → Rel r s →
    ∃ r' outs s', run r os = some (r', outs) ∧ Run r.k s os outs s' ∧ Rel r' s' ∧ r'.k = r.k := by
  induction os with
  | nil => intro r s _ _ h; exact ⟨r, [], s, rfl, .nil s, h, rfl⟩
  | cons o os ih =>
    intro r s hk hk2 h
    obtain ⟨r', out, s', h1, h2, h3, h4⟩ := step_sim hk hk2 h o
    obtain ⟨r'', outs, s'', g1, g2, g3, g4⟩ := ih (r := r') (s := s') (by omega) (by omega) h3
    refine ⟨r'', out :: outs, s'', ?_, ?_, g3, by omega⟩
    · simp only [run, h1, g1]
    · rw [h4] at g2; exact .cons s o out s' os outs s'' h2 g2

end Verif.Replacer
