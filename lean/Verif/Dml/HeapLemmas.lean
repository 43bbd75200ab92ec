import Verif.Dml.Heap
import Verif.Exec.Props

/-!
# Lemmas about tables
-/

namespace Verif.Dml

open Verif.Wire Verif.Bytes Verif.Sql Verif.Exec

/-- The slot at a record id, deleted or not. -/
def Heap.slot? (h : Heap) (r : Rid) : Option Slot := match h.page r.page with
  | some pg => pg.slots[r.slot]?
  | none => none

theorem chain_det {page : Nat → Option Page} {s : Option Nat} {a b : List Nat} (ha : Chain page s a) (hb : Chain page s b) : a = b := by
  induction ha generalizing b with
  | nil => cases hb; rfl
  | cons h1 _ ih =>
    cases hb with
    | cons g1 g2 => rw [h1] at g1; cases g1; rw [ih g2]

/-- A table has one list of slots. -/
theorem Table.det {h : Heap} {l l' : List (Rid × Slot)} (t : Table h l) (t' : Table h l') : l = l' := by
  obtain ⟨ids, h1, _, _, rfl⟩ := t.chain
  obtain ⟨ids', g1, _, _, rfl⟩ := t'.chain
  rw [chain_det h1 g1]

theorem chain_congr {page page' : Nat → Option Page} {s : Option Nat} {ids : List Nat} (h : Chain page s ids)
    (hp : ∀ p ∈ ids, ∃ pg pg', page p = some pg ∧ page' p = some pg' ∧ pg'.next = pg.next) : Chain page' s ids := by
  induction h with
  | nil => exact .nil
  | @cons p pg ids h1 _ ih =>
    obtain ⟨pg1, pg2, e1, e2, e3⟩ := hp p List.mem_cons_self
    rw [h1] at e1
    cases e1
    refine .cons e2 ?_
    rw [e3]
    exact ih fun q hq => hp q (List.mem_cons_of_mem _ hq)

theorem chain_pages {page : Nat → Option Page} {s : Option Nat} {ids : List Nat} (h : Chain page s ids) : ∀ p ∈ ids, ∃ pg, page p = some pg := by
  induction h with
  | nil => intro p hp; cases hp
  | @cons q pg ids h1 _ ih =>
    intro p hp
    rcases List.mem_cons.1 hp with rfl | hp
    · exact ⟨_, h1⟩
    · exact ih p hp

theorem mem_slotsAt {p : Nat} {slots : List Slot} {x : Rid × Slot} : x ∈ slotsAt p slots ↔ x.1.page = p ∧ slots[x.1.slot]? = some x.2 := by
  obtain ⟨⟨q, i⟩, s⟩ := x
  simp only [slotsAt, List.mem_map, Prod.exists, Prod.mk.injEq, Rid.mk.injEq]
  constructor
  · rintro ⟨a, b, hab, ⟨rfl, rfl⟩, rfl⟩
    obtain ⟨i, hi, e⟩ := List.mem_iff_getElem.1 hab
    simp only [List.getElem_zip, List.getElem_range, Prod.mk.injEq] at e
    obtain ⟨rfl, rfl⟩ := e
    have hi' : i < slots.length := by simpa using hi
    exact ⟨rfl, by simp [hi']⟩
  · rintro ⟨rfl, h⟩
    obtain ⟨hi, he⟩ := List.getElem?_eq_some_iff.1 h
    refine ⟨i, s, List.mem_iff_getElem.2 ⟨i, by simpa using hi, by simp [he]⟩, ⟨rfl, rfl⟩, rfl⟩

theorem slotsAt_append (p : Nat) (a : List Slot) (s : Slot) : slotsAt p (a ++ [s]) = slotsAt p a ++ [(⟨p, a.length⟩, s)] := by
  have : (List.range (a ++ [s]).length).zip (a ++ [s]) = (List.range a.length).zip a ++ [(a.length, s)] := by
    rw [List.length_append, List.length_singleton, List.range_succ, List.zip_append (by simp)]
    rfl
  simp only [slotsAt, this, List.map_append, List.map_cons, List.map_nil]

theorem slotsAt_fst (p : Nat) (a : List Slot) : (slotsAt p a).map (·.1) = (List.range a.length).map (⟨p, ·⟩) := by
  have : ((List.range a.length).zip a).map (·.1) = List.range a.length := by rw [List.map_fst_zip]; simp
  calc (slotsAt p a).map (·.1) = ((List.range a.length).zip a).map (fun x => (⟨p, x.1⟩ : Rid)) := by simp [slotsAt, Function.comp_def]
    _ = (((List.range a.length).zip a).map (·.1)).map (⟨p, ·⟩) := by simp [Function.comp_def]
    _ = _ := by rw [this]

theorem mem_slotsOf {page : Nat → Option Page} {ids : List Nat} {x : Rid × Slot} :
    x ∈ slotsOf page ids ↔ x.1.page ∈ ids ∧ ∃ pg, page x.1.page = some pg ∧ pg.slots[x.1.slot]? = some x.2 := by
  simp only [slotsOf, List.mem_flatMap]
  constructor
  · rintro ⟨p, hp, hx⟩
    cases hpg : page p with
    | none => rw [hpg] at hx; cases hx
    | some pg =>
      rw [hpg] at hx
      obtain ⟨rfl, h2⟩ := mem_slotsAt.1 hx
      exact ⟨hp, pg, hpg, h2⟩
  · rintro ⟨hp, pg, hpg, h2⟩
    refine ⟨_, hp, ?_⟩
    rw [hpg]
    exact mem_slotsAt.2 ⟨rfl, h2⟩

/-- What is in the list of slots is in the table. -/
theorem Table.slot {h : Heap} {l : List (Rid × Slot)} (t : Table h l) {x : Rid × Slot} (hx : x ∈ l) : h.slot? x.1 = some x.2 := by
  obtain ⟨ids, _, _, _, rfl⟩ := t.chain
  obtain ⟨_, pg, h1, h2⟩ := mem_slotsOf.1 hx
  simp only [Heap.slot?, h1, h2]

theorem slotsOf_nodup {page : Nat → Option Page} : ∀ {ids : List Nat}, ids.Nodup → ((slotsOf page ids).map (·.1)).Nodup
  | [], _ => List.nodup_nil
  | p :: ids, h => by
    obtain ⟨h1, h2⟩ := List.nodup_cons.1 h
    have ih := slotsOf_nodup (page := page) h2
    have hs : slotsOf page (p :: ids) = (match page p with | some pg => slotsAt p pg.slots | none => []) ++ slotsOf page ids := by
      simp only [slotsOf, List.flatMap_cons]
      cases page p <;> rfl
    rw [hs, List.map_append, List.nodup_append]
    refine ⟨?_, ih, ?_⟩
    · cases page p with
      | none => exact List.nodup_nil
      | some pg =>
        simp only [slotsAt_fst]
        rw [List.nodup_iff_pairwise_ne, List.pairwise_map]
        exact List.nodup_range.imp fun hne h => hne (by cases h; rfl)
    · intro a ha b hb hab
      subst hab
      obtain ⟨x, hx, rfl⟩ := List.mem_map.1 ha
      obtain ⟨y, hy, hxy⟩ := List.mem_map.1 hb
      have hyp := (mem_slotsOf.1 hy).1
      cases hpg : page p with
      | none => rw [hpg] at hx; cases hx
      | some pg =>
        rw [hpg] at hx
        have := (mem_slotsAt.1 hx).1
        rw [hxy, this] at hyp
        exact h1 hyp

/-- No record id stands twice. -/
theorem Table.nodup {h : Heap} {l : List (Rid × Slot)} (t : Table h l) : (l.map (·.1)).Nodup := by
  obtain ⟨ids, _, h2, _, rfl⟩ := t.chain
  exact slotsOf_nodup h2

/-- Two tables with the same pages, links and numbers of slots. -/
structure Shape (h h' : Heap) : Prop where
  first : h'.first = h.first
  last : h'.last = h.last
  page : ∀ p, (h'.page p).map (fun g => (g.next, g.slots.length)) = (h.page p).map fun g => (g.next, g.slots.length)

theorem Shape.refl (h : Heap) : Shape h h := ⟨rfl, rfl, fun _ => rfl⟩
theorem Shape.trans {a b c : Heap} (x : Shape a b) (y : Shape b c) : Shape a c :=
  ⟨y.first.trans x.first, y.last.trans x.last, fun p => (y.page p).trans (x.page p)⟩

theorem Shape.get {h h' : Heap} (s : Shape h h') {p : Nat} {pg : Page} (hp : h.page p = some pg) :
    ∃ pg', h'.page p = some pg' ∧ pg'.next = pg.next ∧ pg'.slots.length = pg.slots.length := by
  have := s.page p
  rw [hp] at this
  simp only [Option.map_some, Option.map_eq_some_iff, Prod.mk.injEq] at this
  obtain ⟨pg', e, n, m⟩ := this
  exact ⟨pg', e, n, m⟩

theorem Shape.none {h h' : Heap} (s : Shape h h') {p : Nat} (hp : h.page p = none) : h'.page p = none := by
  have := s.page p
  rw [hp] at this
  simpa using this

theorem slotsAt_eq (p : Nat) (a b : List Slot) (hl : b.length = a.length) (f : Rid → Slot → Slot)
    (hf : ∀ (i : Nat) s, a[i]? = some s → b[i]? = some (f ⟨p, i⟩ s)) : slotsAt p b = (slotsAt p a).map fun x => (x.1, f x.1 x.2) := by
  apply List.ext_getElem
  · simp [slotsAt, hl]
  · intro i h1 h2
    have hb : i < b.length := by simpa [slotsAt] using h1
    have ha : i < a.length := by omega
    have := hf i a[i] (by simp [ha])
    have hb' : b[i] = f ⟨p, i⟩ a[i] := by
      rw [List.getElem?_eq_getElem hb] at this
      exact Option.some.inj this
    simp [slotsAt, hb']

/-- A table of the same shape has the same record ids, with its own slots. -/
theorem Table.reshape {h h' : Heap} {l : List (Rid × Slot)} (t : Table h l) (s : Shape h h') (f : Rid → Slot → Slot)
    (hf : ∀ x ∈ l, h'.slot? x.1 = some (f x.1 x.2)) : Table h' (l.map fun x => (x.1, f x.1 x.2)) := by
  obtain ⟨ids, h1, h2, h3, rfl⟩ := t.chain
  refine ⟨ids, ?_, h2, s.last.trans h3, ?_⟩
  · rw [s.first]
    refine chain_congr h1 fun p hp => ?_
    obtain ⟨pg, hpg⟩ := chain_pages h1 p hp
    obtain ⟨pg', a, b, _⟩ := s.get hpg
    exact ⟨pg, pg', hpg, a, b⟩
  · have hpages := chain_pages h1
    clear h1 h2 h3 t
    induction ids with
    | nil => rfl
    | cons p ids ih =>
      obtain ⟨pg, hpg⟩ := hpages p List.mem_cons_self
      have hs : slotsOf h.page (p :: ids) = slotsAt p pg.slots ++ slotsOf h.page ids := by simp [slotsOf, hpg]
      rw [hs] at hf
      have ih := ih (fun x hx => hf x (List.mem_append_right _ hx)) fun q hq => hpages q (List.mem_cons_of_mem _ hq)
      obtain ⟨pg', a, _, c⟩ := s.get hpg
      simp only [slotsOf, List.flatMap_cons] at ih ⊢
      rw [List.map_append, ih, a, hpg]
      simp only
      rw [slotsAt_eq p pg.slots pg'.slots c f]
      intro i x hx
      have := hf (⟨p, i⟩, x) (List.mem_append_left _ (mem_slotsAt.2 ⟨rfl, hx⟩))
      simpa only [Heap.slot?, a] using this

theorem Heap.get_eq {d : Disk} {h : Heap} {r : Rid} (hr : d.readable r.page = true) :
    h.get d r = (h.slot? r).bind fun s => if s.info.deleted then none else some s := by
  simp only [Heap.get, Heap.getPage, hr, if_true, Heap.slot?]
  cases h.page r.page with
  | none => rfl
  | some pg => cases h : pg.slots[r.slot]? <;> simp [h]

theorem Heap.write_ok {d : Disk} {h h' : Heap} {r : Rid} {s : Slot} (hw : h.write d r s = some h') :
    Shape h h' ∧ (∃ s0, h.slot? r = some s0) ∧ h'.slot? r = some s ∧ ∀ q, q ≠ r → h'.slot? q = h.slot? q := by
  simp only [Heap.write, Heap.getPage] at hw
  split at hw
  · cases hw
  · rename_i pg hpg
    split at hpg
    · split at hw
      · rename_i hc
        cases hw
        refine ⟨⟨rfl, rfl, fun p => ?_⟩, ?_, ?_, ?_⟩
        · simp only [Heap.set]
          split
          · rename_i hp; subst hp; simp [hpg]
          · rfl
        · exact ⟨pg.slots[r.slot], by simp [Heap.slot?, hpg, hc.1]⟩
        · simp [Heap.slot?, Heap.set, hc.1]
        · rintro ⟨p, i⟩ hq
          simp only [Heap.slot?, Heap.set]
          by_cases hp : p = r.page
          · subst hp
            have : r.slot ≠ i := fun h => hq (by subst h; rfl)
            simp [hpg, List.getElem?_set_ne this]
          · simp [hp]
      · cases hw
    · cases hpg

theorem Heap.write_some {d : Disk} {h : Heap} {r : Rid} {s s0 : Slot} (hr : d.readable r.page = true) (h0 : h.slot? r = some s0)
    (hd : ∀ pg, h.page r.page = some pg → d.rewrite pg.slots r.slot s = true) : ∃ h', h.write d r s = some h' := by
  simp only [Heap.slot?] at h0
  split at h0
  · rename_i pg hpg
    refine ⟨h.set r.page { pg with slots := pg.slots.set r.slot s }, ?_⟩
    simp only [Heap.write, Heap.getPage, hr, if_true, hpg]
    rw [if_pos ⟨(List.getElem?_eq_some_iff.1 h0).1, hd pg hpg⟩]
  · cases h0

theorem Heap.advance_shape {d : Disk} {h h' : Heap} (s : Shape h h') (r : Rid) : h'.advance d r = h.advance d r := by
  simp only [Heap.advance, Heap.getPage]
  cases hr : d.readable r.page with
  | false => rfl
  | true =>
    simp only [if_true]
    cases hp : h.page r.page with
    | none => rw [s.none hp]
    | some pg =>
      obtain ⟨pg', a, b, c⟩ := s.get hp
      rw [a]
      simp only [b, c]

/-- The record ids a scan comes to, one after the other. A page without rows counts as one. -/
inductive Path (d : Disk) (h : Heap) : Option Rid → List Rid → Prop where
  | nil : Path d h none []
  | cons {r : Rid} {rs : List Rid} : Path d h (h.advance d r) rs → Path d h (some r) (r :: rs)

theorem Path.shape {d : Disk} {h h' : Heap} (s : Shape h h') {r : Option Rid} {rs : List Rid} (p : Path d h r rs) : Path d h' r rs := by
  induction p with
  | nil => exact .nil
  | cons _ ih => exact .cons (by rw [Heap.advance_shape s]; exact ih)

/-- The record ids on which the scan has something to look at. -/
def Heap.real (h : Heap) (rs : List Rid) : List (Rid × Slot) := rs.filterMap fun r => (h.slot? r).map (r, ·)

theorem path_page {d : Disk} {h : Heap} {p : Nat} {pg : Page} (hr : d.readable p = true) (hp : h.page p = some pg) {rs : List Rid}
    (hn : Path d h (pg.next.map (⟨·, 0⟩)) rs) (k i : Nat) (hk : i + k + 1 = pg.slots.length) :
    Path d h (some ⟨p, i⟩) ((List.range' i (k + 1)).map (⟨p, ·⟩) ++ rs) := by
  induction k generalizing i with
  | zero =>
    simp only [List.range'_one, List.map_cons, List.map_nil, List.singleton_append, Nat.zero_add]
    refine .cons ?_
    have : ¬i + 1 < pg.slots.length := by omega
    simpa [Heap.advance, Heap.getPage, hr, hp, this] using hn
  | succ k ih =>
    rw [List.range'_succ, List.map_cons, List.cons_append]
    refine .cons ?_
    have : i + 1 < pg.slots.length := by omega
    simp only [Heap.advance, Heap.getPage, hr, if_true, hp, this]
    exact ih (i + 1) (by omega)

theorem real_page {h : Heap} {p : Nat} {pg : Page} (hp : h.page p = some pg) : h.real ((List.range pg.slots.length).map (⟨p, ·⟩)) = slotsAt p pg.slots := by
  rw [← slotsAt_fst]
  simp only [Heap.real, List.filterMap_map]
  have : ∀ l : List (Rid × Slot), (∀ x ∈ l, x ∈ slotsAt p pg.slots) → l.filterMap ((fun r => (h.slot? r).map (r, ·)) ∘ fun x => x.1) = l := by
    intro l hl
    induction l with
    | nil => rfl
    | cons x l ih =>
      obtain ⟨h1, h2⟩ := mem_slotsAt.1 (hl x List.mem_cons_self)
      have : h.slot? x.1 = some x.2 := by simp only [Heap.slot?, h1, hp, h2]
      rw [List.filterMap_cons_some (b := x) (by simp [this]), ih fun y hy => hl y (List.mem_cons_of_mem _ hy)]
  exact this _ fun x hx => hx

/-- From the first slot of a page of the chain the scan comes to all slots of this page and the following ones. -/
theorem path_chain {d : Disk} {h : Heap} (hr : ∀ p, d.readable p = true) {s : Option Nat} {ids : List Nat} (hc : Chain h.page s ids) :
    ∃ rs, Path d h (s.map (⟨·, 0⟩)) rs ∧ h.real rs = slotsOf h.page ids ∧ (∀ r ∈ rs, r.page ∈ ids) ∧ (ids.Nodup → rs.Nodup) := by
  induction hc with
  | nil => exact ⟨[], .nil, rfl, fun _ h => absurd h List.not_mem_nil, fun _ => List.nodup_nil⟩
  | @cons p pg ids hp hc ih =>
    obtain ⟨rs, h1, h2, h3, h4⟩ := ih
    have hs : slotsOf h.page (p :: ids) = slotsAt p pg.slots ++ slotsOf h.page ids := by simp [slotsOf, hp]
    by_cases he : pg.slots = []
    · refine ⟨⟨p, 0⟩ :: rs, .cons ?_, ?_, ?_, ?_⟩
      · simpa [Heap.advance, Heap.getPage, hr, hp, he] using h1
      · have hn : h.slot? ⟨p, 0⟩ = none := by simp [Heap.slot?, hp, he]
        rw [hs, he, ← h2]
        simp [Heap.real, hn, slotsAt]
      · intro r hmem
        rcases List.mem_cons.1 hmem with rfl | hmem
        · exact List.mem_cons_self
        · exact List.mem_cons_of_mem _ (h3 r hmem)
      · intro hn
        obtain ⟨n1, n2⟩ := List.nodup_cons.1 hn
        exact List.nodup_cons.2 ⟨fun hmem => n1 (h3 _ hmem), h4 n2⟩
    · obtain ⟨k, hk⟩ : ∃ k, pg.slots.length = k + 1 := ⟨pg.slots.length - 1, by have := List.length_pos_iff.2 he; omega⟩
      refine ⟨(List.range pg.slots.length).map (⟨p, ·⟩) ++ rs, ?_, ?_, ?_, ?_⟩
      · have := path_page (hr p) hp h1 k 0 (by omega)
        rw [List.range_eq_range', hk]
        exact this
      · rw [hs, ← h2, ← real_page hp]
        simp [Heap.real]
      · intro r hmem
        rcases List.mem_append.1 hmem with hmem | hmem
        · obtain ⟨i, _, rfl⟩ := List.mem_map.1 hmem
          exact List.mem_cons_self
        · exact List.mem_cons_of_mem _ (h3 r hmem)
      · intro hn
        obtain ⟨n1, n2⟩ := List.nodup_cons.1 hn
        refine List.nodup_append.2 ⟨?_, h4 n2, ?_⟩
        · rw [List.nodup_iff_pairwise_ne, List.pairwise_map]
          exact List.nodup_range.imp fun hne h => hne (by cases h; rfl)
        · intro a ha b hb hab
          subst hab
          obtain ⟨i, _, rfl⟩ := List.mem_map.1 ha
          exact n1 (h3 _ hb)

/-- What the scan comes to from a position. -/
inductive Visits (d : Disk) (h : Heap) : Pos → List Rid → Prop where
  | stop : Visits d h .stop []
  | none : Visits d h (.walk none) []
  | walk {p : Nat} {pg : Page} {rs : List Rid} : h.getPage d p = some pg → pg.slots = [] → Visits d h (.walk pg.next) rs → Visits d h (.walk (some p)) rs
  | enter {p : Nat} {pg : Page} {rs : List Rid} : h.getPage d p = some pg → pg.slots ≠ [] → Visits d h (.here ⟨p, 0⟩ ⟨p, 0⟩) rs → Visits d h (.walk (some p)) rs
  | here {s r : Rid} {rs : List Rid} : Path d h (some r) rs → Visits d h (.here s r) rs

theorem visits_start {d : Disk} {h : Heap} (hr : ∀ p, d.readable p = true) {s : Option Nat} {ids : List Nat} (hc : Chain h.page s ids) :
    ∃ rs, Visits d h (.walk s) rs ∧ h.real rs = slotsOf h.page ids ∧ (ids.Nodup → rs.Nodup) := by
  induction hc with
  | nil => exact ⟨[], .none, rfl, fun _ => List.nodup_nil⟩
  | @cons p pg ids hp hc ih =>
    by_cases he : pg.slots = []
    · obtain ⟨rs, h1, h2, h3⟩ := ih
      refine ⟨rs, .walk (by simp [Heap.getPage, hr, hp]) he h1, ?_, fun hn => h3 (List.nodup_cons.1 hn).2⟩
      rw [h2]
      simp [slotsOf, hp, he, slotsAt]
    · obtain ⟨rs, h1, h2, _, h4⟩ := path_chain hr (.cons hp hc)
      exact ⟨rs, .enter (by simp [Heap.getPage, hr, hp]) he (.here h1), h2, h4⟩

theorem Visits.shape {d : Disk} {h h' : Heap} (s : Shape h h') {p : Pos} {rs : List Rid} (v : Visits d h p rs) : Visits d h' p rs := by
  have hg : ∀ {q : Nat} {pg : Page}, h.getPage d q = some pg → ∃ pg', h'.getPage d q = some pg' ∧ pg'.next = pg.next ∧ pg'.slots.length = pg.slots.length := by
    intro q pg hq
    simp only [Heap.getPage] at hq ⊢
    split at hq
    · rename_i hrd
      rw [if_pos hrd]
      exact s.get hq
    · cases hq
  induction v with
  | stop => exact .stop
  | none => exact .none
  | walk h1 h2 _ ih =>
    obtain ⟨pg', a, b, c⟩ := hg h1
    refine .walk a (by rw [h2] at c; exact List.length_eq_zero_iff.1 c) ?_
    rw [b]
    exact ih
  | enter h1 h2 _ ih =>
    obtain ⟨pg', a, b, c⟩ := hg h1
    exact .enter a (fun h => h2 (List.length_eq_zero_iff.1 (by rw [← c, h]; rfl))) ih
  | here h1 => exact .here (h1.shape s)

theorem visits_next {d : Disk} {h : Heap} {r : Rid} {rs : List Rid} (v : Path d h (some r) rs) (s : Rid) :
    ∃ rs', rs = r :: rs' ∧ Visits d h (.next (h.advance d r)) rs' ∧ Visits d h (.skip s (h.advance d r)) rs' := by
  cases v with
  | @cons _ rs' h1 =>
    refine ⟨rs', rfl, ?_⟩
    cases ha : h.advance d r with
    | none => rw [ha] at h1; cases h1; exact ⟨.stop, .stop⟩
    | some q => rw [ha] at h1; exact ⟨.here h1, .here h1⟩

/-- A scan gives what `get` reads at the record ids it comes to, with the right record id in the tuple. -/
theorem scan_visits {α : Type} {d : Disk} {h : Heap} {get : Rid → Option α} {p : Pos} {rs : List Rid} (v : Visits d h p rs) :
    ∃ xs, Yields (h.scan d get) p xs .done ∧ xs.map (·.2) = rs.filterMap fun r => (get r).map (r, ·) := by
  induction rs generalizing p with
  | nil =>
    generalize hrs : ([] : List Rid) = rs at v
    induction v with
    | stop => exact ⟨[], .stop rfl, rfl⟩
    | none => exact ⟨[], .stop rfl, rfl⟩
    | walk h1 h2 _ ih =>
      obtain ⟨xs, y, e⟩ := ih hrs
      exact ⟨xs, .cont (by simp only [Heap.scan, Heap.look, h1, h2, if_true]) y, e⟩
    | enter h1 h2 _ ih =>
      obtain ⟨xs, y, e⟩ := ih hrs
      exact ⟨xs, .cont (by simp only [Heap.scan, Heap.look, h1, h2, if_false]) y, e⟩
    | here h1 => cases h1; cases hrs
  | cons r rs ih =>
    generalize hrs : r :: rs = rs' at v
    induction v with
    | stop => cases hrs
    | none => cases hrs
    | walk h1 h2 _ ih' =>
      obtain ⟨xs, y, e⟩ := ih' hrs
      exact ⟨xs, .cont (by simp only [Heap.scan, Heap.look, h1, h2, if_true]) y, e⟩
    | enter h1 h2 _ ih' =>
      obtain ⟨xs, y, e⟩ := ih' hrs
      exact ⟨xs, .cont (by simp only [Heap.scan, Heap.look, h1, h2, if_false]) y, e⟩
    | @here s r' _ h1 =>
      obtain ⟨rs2, e1, v1, v2⟩ := visits_next h1 s
      rw [e1] at hrs
      obtain ⟨rfl, rfl⟩ := List.cons.inj hrs
      cases hg : get r with
      | some a =>
        obtain ⟨xs, y, e⟩ := ih v1
        exact ⟨(s, r, a) :: xs, .emit (by simp only [Heap.scan, Heap.look, hg]) y, by rw [e1]; simp [hg, e]⟩
      | none =>
        obtain ⟨xs, y, e⟩ := ih v2
        exact ⟨xs, .cont (by simp only [Heap.scan, Heap.look, hg]) y, by rw [e1]; simp [hg, e]⟩

/-! ## Inserting -/

/-- A new page gets an id which the table does not use. -/
def Fresh (d : Disk) : Prop := ∀ h p, d.fresh h = some p → h.page p = none

theorem chain_extend {page page' : Nat → Option Page} {s : Option Nat} {ids : List Nat} (hc : Chain page s ids) {q p : Nat} (hl : ids.getLast? = some q) (hn : ids.Nodup)
    (hp : ∀ r ∈ ids, r ≠ q → page' r = page r) {pq pp : Page} (hq : page' q = some pq) (hqn : pq.next = some p) (h1 : page' p = some pp) (h2 : pp.next = none) :
    Chain page' s (ids ++ [p]) := by
  induction hc with
  | nil => cases hl
  | @cons r pg ids hr hc ih =>
    obtain ⟨n1, n2⟩ := List.nodup_cons.1 hn
    cases ids with
    | nil =>
      cases hl
      refine .cons hq ?_
      rw [hqn]
      refine .cons h1 ?_
      rw [h2]
      exact .nil
    | cons r' ids =>
      have hl' : (r' :: ids).getLast? = some q := by rwa [List.getLast?_cons_cons] at hl
      have hne : r ≠ q := fun h => n1 (h ▸ List.mem_of_getLast? hl')
      refine .cons (by rw [hp r List.mem_cons_self hne]; exact hr) ?_
      exact ih hl' n2 fun x hx hxq => hp x (List.mem_cons_of_mem _ hx) hxq

theorem slotsOf_congr {page page' : Nat → Option Page} {ids : List Nat} (h : ∀ p ∈ ids, (page' p).map (·.slots) = (page p).map (·.slots)) : slotsOf page' ids = slotsOf page ids := by
  induction ids with
  | nil => rfl
  | cons p ids ih =>
    have ih := ih fun q hq => h q (List.mem_cons_of_mem _ hq)
    have := h p List.mem_cons_self
    simp only [slotsOf, List.flatMap_cons] at ih ⊢
    rw [ih]
    cases h1 : page' p <;> cases h2 : page p <;> simp_all

theorem slotsOf_append (page : Nat → Option Page) (a b : List Nat) : slotsOf page (a ++ b) = slotsOf page a ++ slotsOf page b := by simp [slotsOf]

theorem getLast_split {α : Type} {l : List α} {a : α} (h : l.getLast? = some a) : ∃ i, l = i ++ [a] := by
  obtain ⟨h1, h2⟩ := List.getLast?_eq_some_iff.1 h
  exact ⟨h1, h2⟩

/-- What an insertion does: the row stands behind the others, or the table is as before. -/
theorem Table.insert {d : Disk} {h : Heap} {l : List (Rid × Slot)} (t : Table h l) (hf : Fresh d) (s : Slot) : match h.insert d s with
    | .ok h' r => Table h' (l ++ [(r, s)])
    | .err h' => Table h' l := by
  obtain ⟨ids, h1, h2, h3, rfl⟩ := t.chain
  simp only [Heap.insert]
  cases hlast : h.last with
  | none =>
    rw [hlast] at h3
    have : ids = [] := List.getLast?_eq_none_iff.1 h3.symm
    subst this
    simp only [Heap.insertFirst]
    by_cases htl : d.tooLarge s.row = true
    · simp only [htl, if_true]
      exact t
    · simp only [htl, if_false, Bool.false_eq_true]
      cases hfr : d.fresh h with
      | none => exact t
      | some p =>
        simp only
        by_cases hsp : (d.space [] s && d.put [] s) = true
        · simp only [hsp, if_true]
          exact ⟨[p], .cons (pg := ⟨none, [s]⟩) (by simp [Heap.set]) .nil, by simp, rfl, by simp [slotsOf, Heap.set, slotsAt]⟩
        · simp only [hsp, if_false, Bool.false_eq_true]
          exact ⟨[p], .cons (pg := ⟨none, []⟩) (by simp [Heap.set]) .nil, by simp, rfl, by simp [slotsOf, Heap.set, slotsAt]⟩
  | some q =>
    rw [hlast] at h3
    simp only
    cases hgp : h.getPage d q with
    | none => exact t
    | some pg =>
      have hpg : h.page q = some pg := by
        simp only [Heap.getPage] at hgp
        split at hgp
        · exact hgp
        · cases hgp
      simp only
      obtain ⟨init, hi⟩ := getLast_split h3.symm
      have hqi : q ∉ init := by
        rw [hi, List.nodup_append] at h2
        exact fun hm => h2.2.2 q hm q List.mem_cons_self rfl
      by_cases hsp : (d.space pg.slots s && d.put pg.slots s) = true
      · simp only [hsp, if_true]
        refine ⟨ids, ?_, h2, by simp [Heap.set, hlast, h3], ?_⟩
        · refine chain_congr h1 fun p hp => ?_
          by_cases hpq : p = q
          · subst hpq
            exact ⟨pg, { pg with slots := pg.slots ++ [s] }, hpg, by simp only [Heap.set, if_true], rfl⟩
          · obtain ⟨pp, hpp⟩ := chain_pages h1 p hp
            exact ⟨pp, pp, hpp, by simp [Heap.set, hpq, hpp], rfl⟩
        · rw [hi, slotsOf_append, slotsOf_append]
          have : slotsOf (h.set q { pg with slots := pg.slots ++ [s] }).page init = slotsOf h.page init :=
            slotsOf_congr fun p hp => by
              have : p ≠ q := fun h => hqi (h ▸ hp)
              simp [Heap.set, this]
          rw [this]
          simp [slotsOf, Heap.set, hpg, slotsAt_append]
      · simp only [hsp, if_false, Bool.false_eq_true, Heap.insertNew]
        by_cases htl : d.tooLarge s.row = true
        · simp only [htl, if_true]
          exact t
        · simp only [htl, if_false, Bool.false_eq_true]
          cases hfr : d.fresh h with
          | none => exact t
          | some p =>
            have hpn := hf h p hfr
            have hpi : p ∉ ids := fun hm => by
              obtain ⟨pp, hpp⟩ := chain_pages h1 p hm
              rw [hpn] at hpp
              cases hpp
            have hqm : q ∈ ids := List.mem_of_getLast? h3.symm
            have hpq : p ≠ q := fun h => hpi (h ▸ hqm)
            have hqp : q ≠ p := fun h => hpq h.symm
            have hnd : (ids ++ [p]).Nodup := by
              rw [List.nodup_append]
              refine ⟨h2, by simp, fun a ha b hb hab => ?_⟩
              rw [List.mem_singleton.1 hb] at hab
              exact hpi (hab ▸ ha)
            simp only
            by_cases hsp' : (d.space [] s && d.put [] s) = true
            · simp only [hsp', if_true]
              refine ⟨ids ++ [p], ?_, hnd, by simp [Heap.set], ?_⟩
              · refine chain_extend h1 h3.symm h2 (pq := { pg with next := some p }) (pp := ⟨none, [s]⟩) (fun r hr hrq => ?_) ?_ rfl ?_ rfl
                · have : r ≠ p := fun h => hpi (h ▸ hr)
                  simp [Heap.set, this, hrq]
                · simp [Heap.set, hqp]
                · simp [Heap.set]
              · rw [slotsOf_append]
                congr 1
                · refine (slotsOf_congr fun r hr => ?_).symm
                  have : r ≠ p := fun h => hpi (h ▸ hr)
                  by_cases hrq : r = q <;> simp [Heap.set, this, hrq, hqp, hpg]
                · simp [slotsOf, Heap.set, slotsAt]
            · simp only [hsp', if_false, Bool.false_eq_true]
              refine ⟨ids ++ [p], ?_, hnd, by simp [Heap.set], ?_⟩
              · refine chain_extend h1 h3.symm h2 (pq := { pg with next := some p }) (pp := ⟨none, []⟩) (fun r hr hrq => ?_) ?_ rfl ?_ rfl
                · have : r ≠ p := fun h => hpi (h ▸ hr)
                  simp [Heap.set, this, hrq]
                · simp [Heap.set]
                · simp [Heap.set, hpq]
              · rw [slotsOf_append, ← List.append_nil (slotsOf h.page ids)]
                congr 1
                · refine (slotsOf_congr fun r hr => ?_).symm
                  have : r ≠ p := fun h => hpi (h ▸ hr)
                  by_cases hrq : r = q <;> simp [Heap.set, this, hrq, hqp, hpg]
                · simp [slotsOf, Heap.set, slotsAt, hpq]

end Verif.Dml
