import Verif.HeapConc.Steps

/-!
# C138: a table used by several threads
-/

namespace Verif.HeapConc

open Verif.Wire Verif.Bytes Verif.Sql Verif.Exec Verif.Dml

theorem Ready.rel {σ : Sys} {c : List (Rid × Slot)} (h : Ready σ c) : ∃ ids, Rel σ (Sheet.start c) ids := by
  obtain ⟨ids, h1, h2, h3, rfl⟩ := h.table.chain
  refine ⟨ids, ⟨⟨h1, h2, fun p pg hp => ?_⟩, fun t => ?_, fun t => ?_, fun _ => h3⟩, fun t => ?_, rfl⟩
  · cases hs : pg.slots with
    | nil => exact .inr rfl
    | cons s sl =>
      left
      have := h.all ⟨p, 0⟩ s (by simp [Heap.slot?, hp, hs])
      exact (mem_slotsOf.1 this).1
  · rw [h.idle t]; trivial
  · rw [h.idle t, h.writer]; exact ⟨fun h => (by cases h), fun h => (by cases h)⟩
  · rw [h.idle t]; trivial

theorem run_rel {d : Disk} (hf : Fresh d) {σ σ' : Sys} {c : List (Rid × Slot)} {l : List (Label × Sys)} (h : Ready σ c) (hr : Run d σ l σ') :
    ∃ S ids, Effects d (Sheet.start c) (l.map (·.1)) S ∧ Rel σ' S ids := by
  induction hr with
  | nil =>
    obtain ⟨ids, hI⟩ := h.rel
    exact ⟨_, ids, .nil _, hI⟩
  | snoc _ st ih =>
    obtain ⟨S, ids, he, hI⟩ := ih
    obtain ⟨S', ids', he', hI', _⟩ := hI.step hf st
    refine ⟨S', ids', ?_, hI'⟩
    rw [List.map_append]
    exact .snoc he he'

theorem Rel.contents {σ : Sys} {S : Sheet} {ids : List Nat} (hI : Rel σ S ids) : Contents σ S.rows := ⟨ids, hI.inv.sound.chain, hI.inv.sound.nodup, hI.rows⟩

/-- **C138** (part): however the calls of several threads on a table are interleaved, access by access, its rows are at every moment those that the calls answered so far make, each
done at once at the moment of its answer. An inserted row gets a record id no row has; a changed row is one the thread looked at before and was then allowed to change; a commit marks
what the transaction wrote; a call that fails does nothing and has a reason. -/
theorem C138_history_partial {d : Disk} (hf : Fresh d) {σ σ' : Sys} {c : List (Rid × Slot)} {l : List (Label × Sys)} (h : Ready σ c) (hr : Run d σ l σ') :
    ∃ S, Effects d (Sheet.start c) (l.map (·.1)) S ∧ Contents σ' S.rows := by
  obtain ⟨S, ids, he, hI⟩ := run_rel hf h hr
  exact ⟨S, he, hI.contents⟩

theorem overwrite_fst (c : List (Rid × Slot)) (r : Rid) (s : Slot) : (overwrite c r s).map (·.1) = c.map (·.1) := by
  simp only [overwrite, List.map_map]
  refine List.map_congr_left fun x _ => ?_
  simp only [Function.comp]
  split
  · rename_i h; exact h.symm
  · rfl

theorem placed_append (a b : List (Label × Sys)) : placed (a ++ b) = placed a ++ placed b := by
  induction a with
  | nil => rfl
  | cons x a ih =>
    obtain ⟨e, σ⟩ := x
    cases e with
    | call => simpa [placed] using ih
    | work => simpa [placed] using ih
    | answer t a => cases a <;> simpa [placed] using ih

theorem contents_det {σ : Sys} {c c' : List (Rid × Slot)} (h : Contents σ c) (h' : Contents σ c') : c = c' := by
  obtain ⟨ids, a1, _, rfl⟩ := h
  obtain ⟨ids', b1, _, rfl⟩ := h'
  rw [chain_det a1 b1]

theorem contents_nodup {σ : Sys} {c : List (Rid × Slot)} (h : Contents σ c) : (c.map (·.1)).Nodup := by
  obtain ⟨ids, _, h2, rfl⟩ := h
  exact slotsOf_nodup h2

/-- **C138** (part): no insertion is lost and none takes the place of another. The record ids of the table are those it had, in their order, and behind them those the inserting
threads were told, in the order in which they were told; no record id stands twice. -/
theorem C138_inserts_partial {d : Disk} (hf : Fresh d) {σ σ' : Sys} {c : List (Rid × Slot)} {l : List (Label × Sys)} (h : Ready σ c) (hr : Run d σ l σ') :
    ∃ c', Contents σ' c' ∧ c'.map (·.1) = c.map (·.1) ++ placed l ∧ (c.map (·.1) ++ placed l).Nodup := by
  suffices hh : ∃ S ids, Rel σ' S ids ∧ S.rows.map (·.1) = c.map (·.1) ++ placed l by
    obtain ⟨S, ids, hI, he⟩ := hh
    exact ⟨S.rows, hI.contents, he, he ▸ contents_nodup hI.contents⟩
  induction hr with
  | nil =>
    obtain ⟨ids, hI⟩ := h.rel
    exact ⟨_, ids, hI, by simp [placed, Sheet.start]⟩
  | @snoc σ1 σ2 l e _ st ih =>
    obtain ⟨S, ids, hI, he⟩ := ih
    obtain ⟨S', ids', ef, hI', _⟩ := hI.step hf st
    refine ⟨S', ids', hI', ?_⟩
    rw [placed_append, ← List.append_assoc, ← he]
    cases ef with
    | call => simp [placed, Sheet.ask]
    | work => simp [placed]
    | look => simp [placed, Sheet.note]
    | insert => simp [placed]
    | change => simp [placed, overwrite_fst]
    | commit => simp [placed, overwrite_fst]
    | restore => simp [placed, overwrite_fst]
    | fail => simp [placed]
    | rows => simp [placed]

/-! ## Scans -/

/-- A step is that of one thread. -/
theorem step_thread {d : Disk} {σ σ' : Sys} {u : Nat} {e : Label} (h : σ.step d u = some (e, σ')) :
    ∃ pc', (e = .work u ∨ ∃ a, e = .answer u a ∧ pc' = .done a) ∧ σ'.pc = fun v => if v = u then pc' else σ.pc v := by
  simp only [Sys.step, Sys.lockW, Sys.lockR, Sys.tryLast, Sys.newPage, Sys.linkPage, Sys.putNew, Sys.readRow, Sys.writeRow, Sys.commitRow, Sys.restoreRow, Sys.walkAt, Sys.initEnd,
    Sys.advance, Sys.finishW, Sys.finish, Sys.move, Sys.unlockR] at h
  repeat' split at h
  all_goals first
    | (cases h; done)
    | (cases h; exact ⟨_, .inl rfl, rfl⟩)
    | (cases h; exact ⟨_, .inr ⟨_, rfl, rfl⟩, rfl⟩)

/-- The record ids of pages. -/
def rids (h : Heap) (ids : List Nat) : List Rid := (slotsOf h.page ids).map (·.1)

theorem rids_append (h : Heap) (a b : List Nat) : rids h (a ++ b) = rids h a ++ rids h b := by simp [rids, slotsOf_append]

theorem rids_one {h : Heap} {p : Nat} {pg : Page} (hp : h.page p = some pg) : rids h [p] = (List.range pg.slots.length).map (⟨p, ·⟩) := by
  simp [rids, slotsOf, hp, slotsAt_fst]

theorem range_prefix {m n : Nat} (h : m ≤ n) : List.range m <+: List.range n := by
  obtain ⟨k, rfl⟩ := Nat.exists_eq_add_of_le h
  rw [List.range_add]
  exact List.prefix_append _ _

theorem take_prefix {α : Type} {a b : List α} (h : a <+: b) (n : Nat) : a.take n <+: b.take n := by
  obtain ⟨c, rfl⟩ := h
  rw [List.take_append]
  exact List.prefix_append _ _

theorem grow_one {h h' : Heap} {ids ids' : List Nat} (hs : Sound h ids) (g : Grow h ids h' ids') {p : Nat} (hp : p ∈ ids) : rids h [p] <+: rids h' [p] := by
  obtain ⟨pg, hpg⟩ := chain_pages hs.chain p hp
  obtain ⟨pg', hpg', hle⟩ := g.page p hp pg hpg
  rw [rids_one hpg, rids_one hpg']
  exact (range_prefix hle).map _

theorem grow_rids {h h' : Heap} {ids ids' : List Nat} (hs : Sound h ids) (g : Grow h ids h' ids') : ∀ a : List Nat, (∀ p ∈ a, p ∈ ids) → (rids h a).Sublist (rids h' a)
  | [], _ => by simp [rids, slotsOf]
  | p :: a, ha => by
    have h1 := (grow_one hs g (ha p List.mem_cons_self)).sublist
    have h2 := grow_rids hs g a fun q hq => ha q (List.mem_cons_of_mem _ hq)
    have e : ∀ h, rids h (p :: a) = rids h [p] ++ rids h a := fun h => by rw [← rids_append]; rfl
    rw [e, e]
    exact h1.append h2

/-- All rows of `L` are at this page or behind it; there is none if there is no page. -/
def Ahead (L : Rid → Prop) (ids : List Nat) : Option Nat → Prop
  | none => ∀ r, ¬ L r
  | some p => ∃ a b, ids = a ++ p :: b ∧ ∀ r, L r → r.page ∈ p :: b

/-- All rows of `L` are behind this page. -/
def Behind (L : Rid → Prop) (ids : List Nat) (p : Nat) : Prop := ∃ a b, ids = a ++ p :: b ∧ ∀ r, L r → r.page ∈ b

/-- The scan has passed the first `n` rows of page `p` and the pages before it. -/
def Passed (L : Rid → Prop) (h : Heap) (ids : List Nat) (out : List (Rid × Slot)) (p n : Nat) : Prop :=
  ∃ a b, ids = a ++ p :: b ∧ (out.map (·.1)).Sublist (rids h a ++ (rids h [p]).take n) ∧ ∀ r, L r → r ∈ out.map (·.1) ∨ r.page ∈ b ∨ (r.page = p ∧ n ≤ r.slot)

/-- What a scan knows, where `L` are the rows that were there all the time. -/
def ScanOk (L : Rid → Prop) (h : Heap) (ids : List Nat) : Pc → Prop
  | .scanFirst => True
  | .scanWalk p => Ahead L ids p
  | .scanLink p => Behind L ids p
  | .initWait g => Ahead L ids g
  | .initFirst g => Ahead L ids g
  | .initWalk g p => Ahead L ids g ∧ Ahead L ids p
  | .initLink g p => Ahead L ids g ∧ Behind L ids p
  | .scanGet out cur => Passed L h ids out cur.page cur.slot
  | .scanNext out cur => Passed L h ids out cur.page (cur.slot + 1)
  | .done (.rows out) => (out.map (·.1)).Sublist (rids h ids) ∧ ∀ r, L r → r ∈ out.map (·.1)
  | _ => False

theorem Ahead.grow {L L' : Rid → Prop} {ids ids' : List Nat} {p : Option Nat} (h : Ahead L ids p) (hp : ids <+: ids') (hl : ∀ r, L' r → L r) : Ahead L' ids' p := by
  cases p with
  | none => exact fun r hr => h r (hl r hr)
  | some p =>
    obtain ⟨a, b, rfl, hb⟩ := h
    obtain ⟨t, rfl⟩ := hp
    exact ⟨a, b ++ t, by simp, fun r hr => by
      have := hb r (hl r hr)
      simp only [List.mem_cons, List.mem_append] at this ⊢
      rcases this with h | h
      · exact .inl h
      · exact .inr (.inl h)⟩

theorem Behind.grow {L L' : Rid → Prop} {ids ids' : List Nat} {p : Nat} (h : Behind L ids p) (hp : ids <+: ids') (hl : ∀ r, L' r → L r) : Behind L' ids' p := by
  obtain ⟨a, b, rfl, hb⟩ := h
  obtain ⟨t, rfl⟩ := hp
  exact ⟨a, b ++ t, by simp, fun r hr => List.mem_append_left _ (hb r (hl r hr))⟩

theorem Passed.grow {L L' : Rid → Prop} {h h' : Heap} {ids ids' : List Nat} {out : List (Rid × Slot)} {p n : Nat} (hs : Sound h ids) (g : Grow h ids h' ids')
    (hk : Passed L h ids out p n) (hl : ∀ r, L' r → L r) : Passed L' h' ids' out p n := by
  obtain ⟨a, b, rfl, ho, hb⟩ := hk
  have e1 := grow_rids hs g a fun q hq => List.mem_append_left _ hq
  have e2 := grow_one hs g (p := p) (by simp)
  obtain ⟨t, ht⟩ := g.pre
  refine ⟨a, b ++ t, by rw [← ht]; simp, ho.trans (e1.append (take_prefix e2 n).sublist), fun r hr => ?_⟩
  rcases hb r (hl r hr) with h | h | h
  · exact .inl h
  · exact .inr (.inl (List.mem_append_left _ h))
  · exact .inr (.inr h)

theorem ScanOk.grow {L L' : Rid → Prop} {h h' : Heap} {ids ids' : List Nat} {pc : Pc} (hs : Sound h ids) (g : Grow h ids h' ids') (hk : ScanOk L h ids pc)
    (hl : ∀ r, L' r → L r) : ScanOk L' h' ids' pc := by
  cases pc with
  | scanFirst => trivial
  | scanWalk p => exact Ahead.grow hk g.pre hl
  | scanLink p => exact Behind.grow hk g.pre hl
  | initWait p => exact Ahead.grow hk g.pre hl
  | initFirst p => exact Ahead.grow hk g.pre hl
  | initWalk p => exact ⟨hk.1.grow g.pre hl, hk.2.grow g.pre hl⟩
  | initLink p => exact ⟨hk.1.grow g.pre hl, hk.2.grow g.pre hl⟩
  | scanGet out cur => exact Passed.grow hs g hk hl
  | scanNext out cur => exact Passed.grow hs g hk hl
  | done a =>
    cases a with
    | rows out =>
      refine ⟨?_, fun r hr => hk.2 r (hl r hr)⟩
      have e1 := grow_rids hs g ids fun q hq => hq
      obtain ⟨t, ht⟩ := g.pre
      refine hk.1.trans (e1.trans ?_)
      rw [← ht, rids_append]
      exact List.sublist_append_left _ _
    | _ => exact hk.elim
  | _ => exact hk.elim

/-- The next page of a page of the chain. -/
theorem chain_next {page : Nat → Option Page} {s : Option Nat} {p : Nat} {b : List Nat} : ∀ {a : List Nat}, Chain page s (a ++ p :: b) → ∃ pg, page p = some pg ∧ pg.next = b.head?
  | [], h => by
    cases h with
    | cons h1 h2 =>
      refine ⟨_, h1, ?_⟩
      generalize hn : (Page.next _) = n at h2
      cases h2 with
      | nil => rfl
      | cons => rfl
  | _ :: a, h => by
    cases h with
    | cons _ h2 => exact chain_next h2

theorem chain_first {page : Nat → Option Page} {s : Option Nat} {ids : List Nat} (h : Chain page s ids) : s = ids.head? := by cases h <;> rfl

/-- On from a page. -/
theorem Behind.next {L : Rid → Prop} {h : Heap} {ids : List Nat} {d : Disk} {σ : Sys} (hrd : ∀ p, d.readable p = true) (he : σ.heap = h) (hs : Sound h ids) {p : Nat} (hb : Behind L ids p) :
    Ahead L ids (σ.linkOf d p) := by
  obtain ⟨a, b, rfl, hb⟩ := hb
  obtain ⟨pg, hpg, hn⟩ := chain_next hs.chain
  have : σ.linkOf d p = b.head? := by simp [Sys.linkOf, he, Heap.getPage, hrd, hpg, hn]
  rw [this]
  cases b with
  | nil => exact fun r hr => by cases hb r hr
  | cons q b => exact ⟨a ++ [p], b, by simp, hb⟩

/-- A row of the table is at a page of the chain, in one of its slots. -/
structure There (h : Heap) (ids : List Nat) (r : Rid) : Prop where
  page : r.page ∈ ids
  slot : ∀ pg, h.page r.page = some pg → r.slot < pg.slots.length

theorem Live.there {σ : Sys} {ids : List Nat} (hs : Sound σ.heap ids) {r : Rid} (h : Live σ r) : There σ.heap ids r := by
  obtain ⟨c, s, ⟨ids', h1, _, rfl⟩, hm, _⟩ := h
  have := chain_det h1 hs.chain
  subst this
  obtain ⟨a, pg, b, e⟩ := mem_slotsOf.1 hm
  refine ⟨a, fun pg' hp => ?_⟩
  rw [b] at hp
  cases hp
  exact (List.getElem?_eq_some_iff.1 e).1

theorem ahead_first {L : Rid → Prop} {h : Heap} {ids : List Nat} (hs : Sound h ids) (hL : ∀ r, L r → There h ids r) : Ahead L ids h.first := by
  rw [chain_first hs.chain]
  cases ids with
  | nil => exact fun r hr => by cases (hL r hr).page
  | cons p ids => exact ⟨[], ids, rfl, fun r hr => (hL r hr).page⟩

/-- An empty page is passed. -/
theorem Ahead.empty {L : Rid → Prop} {h : Heap} {ids : List Nat} (hL : ∀ r, L r → There h ids r) {p : Nat} {pg : Page} (hp : h.page p = some pg)
    (he : ¬ 0 < pg.slots.length) (ha : Ahead L ids (some p)) : Behind L ids p := by
  obtain ⟨a, b, e, hb⟩ := ha
  refine ⟨a, b, e, fun r hr => ?_⟩
  rcases List.mem_cons.1 (hb r hr) with h1 | h1
  · have := (hL r hr).slot pg (h1 ▸ hp)
    omega
  · exact h1

theorem Ahead.begin {L : Rid → Prop} {h : Heap} {ids : List Nat} {p : Nat} (ha : Ahead L ids (some p)) : Passed L h ids [] p 0 := by
  obtain ⟨a, b, e, hb⟩ := ha
  refine ⟨a, b, e, by simp, fun r hr => ?_⟩
  rcases List.mem_cons.1 (hb r hr) with h1 | h1
  · exact .inr (.inr ⟨h1, Nat.zero_le _⟩)
  · exact .inr (.inl h1)

/-- What a scan has returned so far. -/
def Pc.out : Pc → List (Rid × Slot)
  | .scanGet out _ | .scanNext out _ | .done (.rows out) => out
  | _ => []

/-- A step of the scan itself. -/
theorem scan_step {d : Disk} {σ σ' : Sys} {t : Nat} {ids : List Nat} {e : Label} {L : Rid → Prop} (hrd : ∀ p, d.readable p = true) (hs : Sound σ.heap ids)
    (hL : ∀ r, L r → Live σ r) (hk : ScanOk L σ.heap ids (σ.pc t)) (hst : σ.step d t = some (e, σ')) :
    σ'.heap = σ.heap ∧ ScanOk L σ.heap ids (σ'.pc t) ∧ ∀ x ∈ (σ'.pc t).out, x ∈ (σ.pc t).out ∨ (x.2.info.deleted = false ∧ ∃ c, Contents σ c ∧ x ∈ c) := by
  have hT : ∀ r, L r → There σ.heap ids r := fun r hr => (hL r hr).there hs
  simp only [Sys.step] at hst
  have hgo : ∀ pc', (σ.goto t pc').pc t = pc' := fun pc' => by simp [Sys.goto]
  cases hpc : σ.pc t with
  | scanFirst =>
    rw [hpc] at hst
    cases hst
    rw [hgo]
    exact ⟨rfl, ahead_first hs hT, fun x hx => by cases hx⟩
  | scanWalk p =>
    rw [hpc] at hst hk
    simp only [Sys.walkAt, Sys.move] at hst
    split at hst
    · cases hst
      rw [hgo]
      exact ⟨rfl, hk, fun x hx => by cases hx⟩
    · rename_i p
      split at hst
      · rename_i hg
        obtain ⟨a, b, e, _⟩ := hk
        obtain ⟨pg, hpg⟩ := chain_pages hs.chain p (by rw [e]; simp)
        simp [Heap.getPage, hrd, hpg] at hg
      · rename_i pg hg
        split at hst
        · cases hst
          rw [hgo]
          exact ⟨rfl, hk, fun x hx => by cases hx⟩
        · rename_i hlen
          cases hst
          rw [hgo]
          exact ⟨rfl, hk.empty hT (getPage_page hg) hlen, fun x hx => by cases hx⟩
  | scanLink p =>
    rw [hpc] at hst hk
    cases hst
    rw [hgo]
    exact ⟨rfl, Behind.next hrd rfl hs hk, fun x hx => by cases hx⟩
  | initWait g =>
    rw [hpc] at hst hk
    simp only [Sys.lockR, Sys.move] at hst
    split at hst
    · cases hst
      refine ⟨rfl, ?_, ?_⟩
      · simp only [Sys.goto, if_true]; exact hk
      · simp only [Sys.goto, if_true]; exact fun x hx => by cases hx
    · cases hst
  | initFirst g =>
    rw [hpc] at hst hk
    cases hst
    rw [hgo]
    exact ⟨rfl, ⟨hk, ahead_first hs hT⟩, fun x hx => by cases hx⟩
  | initWalk g p =>
    rw [hpc] at hst hk
    obtain ⟨hkg, hkp⟩ := hk
    have hend : ∀ p, Ahead L ids p → σ.initEnd d t g p = some (e, σ') →
        σ'.heap = σ.heap ∧ ScanOk L σ.heap ids (σ'.pc t) ∧ ∀ x ∈ (σ'.pc t).out, x ∈ (Pc.initWalk g p).out ∨ (x.2.info.deleted = false ∧ ∃ c, Contents σ c ∧ x ∈ c) := fun p hp hst => by
      simp only [Sys.initEnd, Sys.move, Sys.finish, Sys.unlockR] at hst
      split at hst
      · cases hst
        refine ⟨rfl, ?_, ?_⟩
        · simp only [Sys.goto, if_true]
          exact ⟨by simp, fun r hr => absurd hr (hp r)⟩
        · simp only [Sys.goto, if_true]; exact fun x hx => by cases hx
      · rename_i p
        split at hst
        · cases hst
          refine ⟨rfl, ?_, ?_⟩
          · simp only [Sys.goto, if_true]; exact hp.begin
          · simp only [Sys.goto, if_true]; exact fun x hx => by cases hx
        · rename_i q
          split at hst
          · cases hst
            refine ⟨rfl, ?_, ?_⟩
            · simp only [Sys.goto, if_true]; exact hp.begin
            · simp only [Sys.goto, if_true]; exact fun x hx => by cases hx
          · cases hst
            refine ⟨rfl, ?_, ?_⟩
            · simp only [Sys.goto, if_true]; exact hkg.begin
            · simp only [Sys.goto, if_true]; exact fun x hx => by cases hx
    cases p with
    | none => exact hend none hkp hst
    | some p =>
      simp only at hst
      split at hst
      · rename_i hg
        obtain ⟨a, b, e, _⟩ := hkp
        obtain ⟨pg, hpg⟩ := chain_pages hs.chain p (by rw [e]; simp)
        simp [Heap.getPage, hrd, hpg] at hg
      · rename_i pg hg
        split at hst
        · exact hend _ hkp hst
        · rename_i hlen
          cases hst
          rw [hgo]
          exact ⟨rfl, ⟨hkg, hkp.empty hT (getPage_page hg) hlen⟩, fun x hx => by cases hx⟩
  | initLink g p =>
    rw [hpc] at hst hk
    cases hst
    rw [hgo]
    exact ⟨rfl, ⟨hk.1, Behind.next hrd rfl hs hk.2⟩, fun x hx => by cases hx⟩
  | scanGet out cur =>
    rw [hpc] at hst hk
    obtain ⟨a, b, e, ho, hb⟩ := hk
    simp only [Sys.move] at hst
    split at hst
    · rename_i s hg
      cases hst
      rw [hgo]
      obtain ⟨hm, hd⟩ := get_some hs hg
      refine ⟨rfl, ⟨a, b, e, ?_, fun r hr => ?_⟩, fun x hx => ?_⟩
      · obtain ⟨_, pg, hpg, hsl⟩ := mem_slotsOf.1 hm
        simp only at hpg hsl
        have hlt := (List.getElem?_eq_some_iff.1 hsl).1
        have : (rids σ.heap [cur.page]).take (cur.slot + 1) = (rids σ.heap [cur.page]).take cur.slot ++ [cur] := by
          rw [rids_one hpg, ← List.map_take, ← List.map_take, List.take_range, List.take_range, Nat.min_eq_left (by omega), Nat.min_eq_left (by omega), List.range_succ,
            List.map_append]
          rfl
        rw [this, List.map_append, ← List.append_assoc]
        exact ho.append (List.Sublist.refl _)
      · rcases hb r hr with h | h | ⟨h, h'⟩
        · exact .inl (by rw [List.map_append]; exact List.mem_append_left _ h)
        · exact .inr (.inl h)
        · by_cases hc : r.slot = cur.slot
          · refine .inl ?_
            have : r = cur := by cases r; cases cur; simp_all
            rw [this]
            simp
          · exact .inr (.inr ⟨h, by omega⟩)
      · rcases List.mem_append.1 hx with hx | hx
        · exact .inl hx
        · rw [List.mem_singleton] at hx
          subst hx
          exact .inr ⟨hd, _, ⟨ids, hs.chain, hs.nodup, rfl⟩, hm⟩
    · rename_i hg
      cases hst
      rw [hgo]
      refine ⟨rfl, ⟨a, b, e, ?_, fun r hr => ?_⟩, fun x hx => .inl hx⟩
      · refine ho.trans ((List.Sublist.refl _).append ?_)
        exact (List.take_prefix_take_left (by omega)).sublist
      · rcases hb r hr with h | h | ⟨h, h'⟩
        · exact .inl h
        · exact .inr (.inl h)
        · by_cases hc : r.slot = cur.slot
          · have : r = cur := by cases r; cases cur; simp_all
            subst this
            obtain ⟨c, s, ⟨ids', h1, _, rfl⟩, hm, hd⟩ := hL r hr
            have := chain_det h1 hs.chain
            subst this
            rw [Heap.get_eq (hrd _), (mem_rows hs).1 hm] at hg
            simp [hd] at hg
          · exact .inr (.inr ⟨h, by omega⟩)
  | scanNext out cur =>
    rw [hpc] at hst hk
    obtain ⟨a, b, e, ho, hb⟩ := hk
    subst e
    obtain ⟨pg, hpg, hn⟩ := chain_next hs.chain
    simp only [Sys.advance, Sys.move, Sys.finish] at hst
    split at hst
    · simp only [Heap.advance, Heap.getPage, hrd, if_true, hpg] at hst
      by_cases hlt : cur.slot + 1 < pg.slots.length
      · simp only [hlt, if_true] at hst
        cases hst
        rw [hgo]
        exact ⟨rfl, ⟨a, b, rfl, ho, hb⟩, fun x hx => .inl hx⟩
      · simp only [hlt, if_false, hn] at hst
        have htake : (rids σ.heap [cur.page]).take (cur.slot + 1) = rids σ.heap [cur.page] := by
          rw [rids_one hpg]
          exact List.take_of_length_le (by simp; omega)
        rw [htake, ← rids_append] at ho
        have hb' : ∀ r, L r → r ∈ out.map (·.1) ∨ r.page ∈ b := fun r hr => by
          rcases hb r hr with h | h | ⟨h, h'⟩
          · exact .inl h
          · exact .inr h
          · have := (hT r hr).slot pg (h ▸ hpg)
            omega
        cases b with
        | nil =>
          simp only [List.head?_nil, Option.map_none] at hst
          cases hst
          rw [hgo]
          exact ⟨rfl, ⟨ho, fun r hr => (hb' r hr).resolve_right (by simp)⟩, fun x hx => .inl hx⟩
        | cons q b =>
          simp only [List.head?_cons, Option.map_some] at hst
          cases hst
          rw [hgo]
          refine ⟨rfl, ⟨a ++ [cur.page], b, by simp, by simpa using ho, fun r hr => ?_⟩, fun x hx => .inl hx⟩
          rcases hb' r hr with h | h
          · exact .inl h
          · rcases List.mem_cons.1 h with h | h
            · exact .inr (.inr ⟨h, Nat.zero_le _⟩)
            · exact .inr (.inl h)
    · cases hst
  | idle => rw [hpc] at hst; cases hst
  | done a => rw [hpc] at hst; cases hst
  | _ => rw [hpc] at hk; exact hk.elim

theorem run_append {d : Disk} {σ σ1 σ2 : Sys} {l l' : List (Label × Sys)} (h : Run d σ l σ1) (h' : Run d σ1 l' σ2) : Run d σ (l ++ l') σ2 := by
  induction h' with
  | nil => simpa using h
  | snoc _ st ih => rw [← List.append_assoc]; exact .snoc ih st

theorem step_call {d : Disk} {σ σ' : Sys} {t : Nat} {op : Op} (h : Step d σ (.call t op) σ') : σ' = σ.goto t op.entry := by
  cases h with
  | call => rfl
  | step hst =>
    obtain ⟨_, h | ⟨_, h, _⟩, _⟩ := step_thread hst <;> cases h

theorem step_answer {d : Disk} {σ σ' : Sys} {t : Nat} {a : Answer} (h : Step d σ (.answer t a) σ') : σ'.pc t = .done a := by
  cases h with
  | step hst =>
    obtain ⟨pc', h | ⟨_, h, h'⟩, hp⟩ := step_thread hst
    · cases h
    · cases h
      rw [hp, h']
      simp

/-- The scan of thread `t` that began in `σ`, along a run in which `t` does not call again. -/
theorem scan_run {d : Disk} (hf : Fresh d) (hrd : ∀ p, d.readable p = true) {σ σ' : Sys} {S : Sheet} {ids : List Nat} {l : List (Label × Sys)} {t : Nat} (hI : Rel σ S ids)
    (hpc : σ.pc t = .scanFirst) (hr : Run d σ l σ') (hc : ∀ x ∈ l, ∀ op, x.1 ≠ .call t op) :
    ∃ S' ids', Rel σ' S' ids' ∧ ScanOk (fun r => ∀ m ∈ moments σ l, Live m r) σ'.heap ids' (σ'.pc t) ∧
      ∀ x ∈ (σ'.pc t).out, x.2.info.deleted = false ∧ ∃ m ∈ moments σ l, ∃ c, Contents m c ∧ x ∈ c := by
  induction hr with
  | nil =>
    refine ⟨S, ids, hI, ?_, ?_⟩
    · rw [hpc]; trivial
    · rw [hpc]; exact fun x hx => by cases hx
  | @snoc σ1 σ2 l e hr1 st ih =>
    obtain ⟨S1, ids1, hI1, hk1, ho1⟩ := ih fun x hx => hc x (List.mem_append_left _ hx)
    obtain ⟨S2, ids2, _, hI2, hg⟩ := hI1.step hf st
    have hmom : moments σ (l ++ [(e, σ2)]) = moments σ l ++ [σ2] := by simp [moments]
    have hsub : ∀ r, (∀ m ∈ moments σ (l ++ [(e, σ2)]), Live m r) → ∀ m ∈ moments σ l, Live m r := fun r h m hm => h m (by rw [hmom]; exact List.mem_append_left _ hm)
    have hwas : ∀ x : Rid × Slot, (x.2.info.deleted = false ∧ ∃ m ∈ moments σ l, ∃ c, Contents m c ∧ x ∈ c) →
        x.2.info.deleted = false ∧ ∃ m ∈ moments σ (l ++ [(e, σ2)]), ∃ c, Contents m c ∧ x ∈ c := fun x hx => by
      obtain ⟨h1, m, hm, h2⟩ := hx
      exact ⟨h1, m, by rw [hmom]; exact List.mem_append_left _ hm, h2⟩
    have hlast : σ1 ∈ moments σ l := by
      cases hr1 with
      | nil => simp [moments]
      | snoc => simp [moments]
    have other : σ2.pc t = σ1.pc t → ∃ S' ids', Rel σ2 S' ids' ∧ ScanOk (fun r => ∀ m ∈ moments σ (l ++ [(e, σ2)]), Live m r) σ2.heap ids' (σ2.pc t) ∧
        ∀ x ∈ (σ2.pc t).out, x.2.info.deleted = false ∧ ∃ m ∈ moments σ (l ++ [(e, σ2)]), ∃ c, Contents m c ∧ x ∈ c := fun hsame => by
      refine ⟨S2, ids2, hI2, ?_, ?_⟩
      · rw [hsame]; exact hk1.grow hI1.inv.sound hg hsub
      · rw [hsame]; exact fun x hx => hwas x (ho1 x hx)
    cases st with
    | @call u op _ =>
      have hut : t ≠ u := fun h => hc (.call u op, _) (List.mem_append_right _ List.mem_cons_self) op (by rw [h])
      exact other (by simp [Sys.goto, hut])
    | step hst =>
      rename_i u
      by_cases hut : t = u
      · subst hut
        obtain ⟨hh, hk2, ho2⟩ := scan_step hrd hI1.inv.sound (fun r hr => hr σ1 hlast) hk1 hst
        refine ⟨S2, ids2, hI2, ?_, fun x hx => ?_⟩
        · exact hk2.grow hI1.inv.sound hg hsub
        · rcases ho2 x hx with h | ⟨h1, h2⟩
          · exact hwas x (ho1 x h)
          · exact hwas x ⟨h1, σ1, hlast, h2⟩
      · obtain ⟨pc', _, hp⟩ := step_thread hst
        exact other (by rw [hp]; simp [hut])

/-- **C138** (part): a scan made while other threads insert, change, commit and abort, in any interleaving, returns the rows in the order of the table and none twice; each was in the
table and not deleted, as it is returned, at some moment of the scan; and every row that was there throughout is returned. Every page must be readable. -/
theorem C138_scan_partial {d : Disk} (hf : Fresh d) (hrd : ∀ p, d.readable p = true) {σ₀ σ σ' : Sys} {c : List (Rid × Slot)} {l₀ l : List (Label × Sys)} {t : Nat}
    {out : List (Rid × Slot)} (h : Ready σ₀ c) (h₀ : Run d σ₀ (l₀ ++ [(.call t .scan, σ)]) σ) (hr : Run d σ (l ++ [(.answer t (.rows out), σ')]) σ')
    (hc : ∀ x ∈ l, ∀ op, x.1 ≠ .call t op) : Scanned σ (l ++ [(.answer t (.rows out), σ')]) σ' out := by
  obtain ⟨S, ids, _, hI⟩ := run_rel hf h h₀
  have hpc : σ.pc t = .scanFirst := by
    generalize hll : l₀ ++ [(Label.call t .scan, σ)] = ll at h₀
    cases h₀ with
    | nil => simp at hll
    | snoc _ st =>
      obtain ⟨_, h2⟩ := List.append_inj' hll rfl
      cases h2
      rw [step_call st]
      simp [Sys.goto, Op.entry]
  have hdone : σ'.pc t = .done (.rows out) := by
    generalize hll : l ++ [(Label.answer t (.rows out), σ')] = ll at hr
    cases hr with
    | nil => simp at hll
    | snoc _ st =>
      obtain ⟨_, h2⟩ := List.append_inj' hll rfl
      cases h2
      exact step_answer st
  obtain ⟨S', ids', hI', hk, ho⟩ := scan_run hf hrd hI hpc hr fun x hx op he => by
    rcases List.mem_append.1 hx with hx | hx
    · exact hc x hx op he
    · rw [List.mem_singleton] at hx
      subst hx
      cases he
  rw [hdone] at hk ho
  refine ⟨⟨S'.rows, hI'.contents, ?_, contents_nodup hI'.contents⟩, ho, hk.2⟩
  rw [hI'.rows]
  exact hk.1

end Verif.HeapConc
