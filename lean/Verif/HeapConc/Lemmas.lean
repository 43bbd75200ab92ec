import Verif.HeapConc.Spec

/-!
# Lemmas: what each step does to the chain and the rows
-/

namespace Verif.HeapConc

open Verif.Wire Verif.Bytes Verif.Sql Verif.Exec Verif.Dml

/-- The program point is under the latch taken for writing. -/
def Pc.writes : Pc → Bool
  | .insHave _ | .insNew _ _ | .insLink _ _ _ | .insLast _ _ | .insPut _ _ | .insFirst _ _ | .insOnly _ _ | .chgHave _ _ => true
  | _ => false

/-- What a writer knows of the chain. -/
def Fits (h : Heap) (ids : List Nat) : Pc → Prop
  | .insHave _ => h.last = ids.getLast?
  | .insNew _ l => h.last = ids.getLast? ∧ ids.getLast? = some l
  | .insLink _ l p => h.last = ids.getLast? ∧ ids.getLast? = some l ∧ p ∉ ids ∧ h.page p = some ⟨none, []⟩
  | .insLast _ p => ids.getLast? = some p ∧ h.page p = some ⟨none, []⟩
  | .insPut _ p => h.last = ids.getLast? ∧ ids.getLast? = some p ∧ h.page p = some ⟨none, []⟩
  | .insFirst _ p => ids = [] ∧ h.page p = some ⟨none, []⟩
  | .insOnly _ p => ids = [p] ∧ h.page p = some ⟨none, []⟩
  | .chgHave _ _ => h.last = ids.getLast?
  | _ => True

theorem fits_of_not_writes {h : Heap} {ids : List Nat} {pc : Pc} (hw : pc.writes = false) : Fits h ids pc := by
  cases pc <;> first | trivial | cases hw

/-- The chain of the table, whoever is at work. -/
structure Sound (h : Heap) (ids : List Nat) : Prop where
  chain : Chain h.page h.first ids
  nodup : ids.Nodup
  others : ∀ p pg, h.page p = some pg → p ∈ ids ∨ pg.slots = []

structure Inv (σ : Sys) (ids : List Nat) : Prop where
  sound : Sound σ.heap ids
  fits : ∀ t, Fits σ.heap ids (σ.pc t)
  writer : ∀ t, (σ.pc t).writes = true ↔ σ.writer = some t
  last : σ.writer = none → σ.heap.last = ids.getLast?

/-- The chain and the pages only grow. -/
structure Grow (h : Heap) (ids : List Nat) (h' : Heap) (ids' : List Nat) : Prop where
  pre : ids <+: ids'
  page : ∀ p ∈ ids, ∀ pg, h.page p = some pg → ∃ pg', h'.page p = some pg' ∧ pg.slots.length ≤ pg'.slots.length

theorem Grow.refl (h : Heap) (ids : List Nat) : Grow h ids h ids := ⟨List.prefix_rfl, fun _ _ pg hp => ⟨pg, hp, Nat.le_refl _⟩⟩

theorem getPage_page {d : Disk} {h : Heap} {p : Nat} {pg : Page} (hg : h.getPage d p = some pg) : h.page p = some pg := by
  simp only [Heap.getPage] at hg
  split at hg
  · exact hg
  · cases hg

theorem getPage_none {d : Disk} {h : Heap} {p : Nat} {pg : Page} (hp : h.page p = some pg) (hg : h.getPage d p = none) : Broken d := by
  simp only [Heap.getPage] at hg
  split at hg
  · rw [hp] at hg; cases hg
  · rename_i hr
    exact ⟨p, by simpa using hr⟩

theorem chain_last {page : Nat → Option Page} {s : Option Nat} {ids : List Nat} (h : Chain page s ids) {l : Nat} (hl : ids.getLast? = some l) : ∃ pg, page l = some pg ∧ pg.next = none := by
  induction h with
  | nil => cases hl
  | @cons p pg ids h1 h2 ih =>
    cases ids with
    | nil =>
      cases hl
      refine ⟨pg, h1, ?_⟩
      cases hn : pg.next with
      | none => rfl
      | some q => rw [hn] at h2; cases h2
    | cons q ids =>
      rw [List.getLast?_cons_cons] at hl
      exact ih hl

/-- A row behind the last one of the last page. -/
theorem sound_append {h : Heap} {ids : List Nat} (hs : Sound h ids) {l : Nat} {pg : Page} (hl : ids.getLast? = some l) (hp : h.page l = some pg) (s : Slot) :
    Sound (h.set l { pg with slots := pg.slots ++ [s] }) ids ∧ Grow h ids (h.set l { pg with slots := pg.slots ++ [s] }) ids ∧
    slotsOf (h.set l { pg with slots := pg.slots ++ [s] }).page ids = slotsOf h.page ids ++ [(⟨l, pg.slots.length⟩, s)] ∧
    (⟨l, pg.slots.length⟩ : Rid) ∉ (slotsOf h.page ids).map (·.1) := by
  obtain ⟨init, hi⟩ := getLast_split hl
  have hqi : l ∉ init := by
    have h2 := hs.nodup
    rw [hi, List.nodup_append] at h2
    exact fun hm => h2.2.2 l hm l List.mem_cons_self rfl
  refine ⟨⟨?_, hs.nodup, ?_⟩, ⟨List.prefix_rfl, ?_⟩, ?_, ?_⟩
  · refine chain_congr hs.chain fun p hpi => ?_
    by_cases hpq : p = l
    · subst hpq
      exact ⟨pg, { pg with slots := pg.slots ++ [s] }, hp, by simp only [Heap.set, if_true], rfl⟩
    · obtain ⟨pp, hpp⟩ := chain_pages hs.chain p hpi
      exact ⟨pp, pp, hpp, by simp [Heap.set, hpq, hpp], rfl⟩
  · intro p pg' hpp
    by_cases hpq : p = l
    · exact .inl (hpq ▸ List.mem_of_getLast? hl)
    · simp only [Heap.set, hpq, if_false] at hpp
      exact hs.others p pg' hpp
  · intro p _ pg' hpp
    by_cases hpq : p = l
    · subst hpq
      rw [hp] at hpp
      cases hpp
      exact ⟨_, by simp only [Heap.set, if_true]; rfl, by simp⟩
    · exact ⟨pg', by simp [Heap.set, hpq, hpp], Nat.le_refl _⟩
  · rw [hi, slotsOf_append, slotsOf_append]
    have : slotsOf (h.set l { pg with slots := pg.slots ++ [s] }).page init = slotsOf h.page init :=
      slotsOf_congr fun p hp => by
        have : p ≠ l := fun h => hqi (h ▸ hp)
        simp [Heap.set, this]
    rw [this]
    simp [slotsOf, Heap.set, hp, slotsAt_append]
  · intro hm
    obtain ⟨x, hx, hxe⟩ := List.mem_map.1 hm
    obtain ⟨_, pg', h1, h2⟩ := mem_slotsOf.1 hx
    rw [hxe] at h1 h2
    simp only at h1 h2
    rw [hp] at h1
    cases h1
    have := (List.getElem?_eq_some_iff.1 h2).1
    exact Nat.lt_irrefl _ this

/-- A new page that nothing leads to. -/
theorem sound_fresh {h : Heap} {ids : List Nat} (hs : Sound h ids) {p : Nat} (hp : h.page p = none) : p ∉ ids ∧
    Sound (h.set p ⟨none, []⟩) ids ∧ Grow h ids (h.set p ⟨none, []⟩) ids ∧ slotsOf (h.set p ⟨none, []⟩).page ids = slotsOf h.page ids := by
  have hn : p ∉ ids := fun hm => by
    obtain ⟨pg, hpg⟩ := chain_pages hs.chain p hm
    rw [hp] at hpg; cases hpg
  have hne : ∀ q ∈ ids, q ≠ p := fun q hq h => hn (h ▸ hq)
  refine ⟨hn, ⟨?_, hs.nodup, ?_⟩, ⟨List.prefix_rfl, ?_⟩, ?_⟩
  · refine chain_congr hs.chain fun q hq => ?_
    obtain ⟨pg, hpg⟩ := chain_pages hs.chain q hq
    exact ⟨pg, pg, hpg, by simp [Heap.set, hne q hq, hpg], rfl⟩
  · intro q pg hq
    by_cases hqp : q = p
    · simp only [Heap.set, hqp, if_true, Option.some.injEq] at hq
      exact .inr (by rw [← hq])
    · simp only [Heap.set, hqp, if_false] at hq
      exact hs.others q pg hq
  · intro q hq pg hpg
    exact ⟨pg, by simp [Heap.set, hne q hq, hpg], Nat.le_refl _⟩
  · exact slotsOf_congr fun q hq => by simp [Heap.set, hne q hq]

/-- The last page leads to a new empty one. -/
theorem sound_link {h : Heap} {ids : List Nat} (hs : Sound h ids) {l p : Nat} {pg : Page} (hl : ids.getLast? = some l) (hpl : h.page l = some pg) (hn : p ∉ ids)
    (hp : h.page p = some ⟨none, []⟩) : Sound (h.set l { pg with next := some p }) (ids ++ [p]) ∧ Grow h ids (h.set l { pg with next := some p }) (ids ++ [p]) ∧
    slotsOf (h.set l { pg with next := some p }).page (ids ++ [p]) = slotsOf h.page ids ∧ (h.set l { pg with next := some p }).page p = some ⟨none, []⟩ := by
  have hne : p ≠ l := fun e => hn (e ▸ List.mem_of_getLast? hl)
  have hpp : (h.set l { pg with next := some p }).page p = some ⟨none, []⟩ := by simp [Heap.set, hne, hp]
  refine ⟨⟨?_, ?_, ?_⟩, ⟨List.prefix_append _ _, ?_⟩, ?_, hpp⟩
  · refine chain_extend hs.chain hl hs.nodup (pq := { pg with next := some p }) (pp := ⟨none, []⟩) (fun r hr hrl => ?_) ?_ rfl hpp rfl
    · simp [Heap.set, hrl]
    · simp [Heap.set]
  · rw [List.nodup_append]
    refine ⟨hs.nodup, by simp, fun a ha b hb hab => ?_⟩
    rw [List.mem_singleton.1 hb] at hab
    exact hn (hab ▸ ha)
  · intro q pg' hq
    by_cases hql : q = l
    · exact .inl (List.mem_append_left _ (hql ▸ List.mem_of_getLast? hl))
    · simp only [Heap.set, hql, if_false] at hq
      exact (hs.others q pg' hq).imp (List.mem_append_left _) id
  · intro q _ pg' hq
    by_cases hql : q = l
    · subst hql
      rw [hpl] at hq
      cases hq
      exact ⟨{ pg with next := some p }, by simp [Heap.set], Nat.le_refl _⟩
    · exact ⟨pg', by simp [Heap.set, hql, hq], Nat.le_refl _⟩
  · rw [slotsOf_append, ← List.append_nil (slotsOf h.page ids)]
    congr 1
    · refine slotsOf_congr fun q hq => ?_
      by_cases hql : q = l
      · simp [Heap.set, hql, hpl]
      · simp [Heap.set, hql]
    · simp only [slotsOf, List.flatMap_cons, List.flatMap_nil, hpp, slotsAt]
      rfl

/-- The first page. -/
theorem sound_first {h : Heap} (hs : Sound h []) {p : Nat} (hp : h.page p = some ⟨none, []⟩) :
    Sound { h with first := some p } [p] ∧ Grow h [] { h with first := some p } [p] ∧ slotsOf h.page [p] = slotsOf h.page [] := by
  refine ⟨⟨.cons hp .nil, by simp, ?_⟩, ⟨List.nil_prefix, fun q hq => by cases hq⟩, ?_⟩
  · intro q pg hq
    exact .inr ((hs.others q pg hq).resolve_left (by simp))
  · simp [slotsOf, hp, slotsAt]

/-- The slots at a record id of the table. -/
theorem mem_rows {h : Heap} {ids : List Nat} (hs : Sound h ids) {r : Rid} {s : Slot} : (r, s) ∈ slotsOf h.page ids ↔ h.slot? r = some s := by
  rw [mem_slotsOf]
  simp only [Heap.slot?]
  constructor
  · rintro ⟨_, pg, h1, h2⟩
    simp only [h1, h2]
  · intro hr
    split at hr
    · rename_i pg hpg
      refine ⟨(hs.others _ _ hpg).resolve_right fun he => ?_, pg, hpg, hr⟩
      rw [he] at hr
      cases hr
    · cases hr

/-- A slot overwritten in place. -/
theorem sound_write {h h' : Heap} {ids : List Nat} (hs : Sound h ids) {r : Rid} {s : Slot} (hsh : Shape h h') (hr : h'.slot? r = some s)
    (hq : ∀ q, q ≠ r → h'.slot? q = h.slot? q) (h0 : ∃ s0, h.slot? r = some s0) :
    Sound h' ids ∧ Grow h ids h' ids ∧ slotsOf h'.page ids = overwrite (slotsOf h.page ids) r s ∧ r ∈ (slotsOf h.page ids).map (·.1) := by
  have t : Table { h with last := ids.getLast? } (slotsOf h.page ids) := ⟨ids, hs.chain, hs.nodup, rfl, rfl⟩
  have hsh' : Shape { h with last := ids.getLast? } { h' with last := ids.getLast? } := ⟨hsh.first, rfl, hsh.page⟩
  have t' := t.reshape hsh' (fun q x => if q = r then s else x) fun x hx => by
    by_cases hxr : x.1 = r
    · simp only [hxr, if_true]; exact hr
    · simp only [hxr, if_false]
      exact (hq x.1 hxr).trans ((mem_rows hs).1 (by exact hx))
  obtain ⟨ids', c', n', _, e'⟩ := t'.chain
  have hc : Chain h'.page h'.first ids := by
    rw [hsh.first]
    refine chain_congr hs.chain fun p hp => ?_
    obtain ⟨pg, hpg⟩ := chain_pages hs.chain p hp
    obtain ⟨pg', a, b, _⟩ := hsh.get hpg
    exact ⟨pg, pg', hpg, a, b⟩
  have : ids' = ids := chain_det c' hc
  subst this
  refine ⟨⟨hc, hs.nodup, ?_⟩, ⟨List.prefix_rfl, ?_⟩, ?_, ?_⟩
  · intro p pg hp
    cases ho : h.page p with
    | none => rw [hsh.none ho] at hp; cases hp
    | some pg0 =>
      obtain ⟨pg', a, _, b⟩ := hsh.get ho
      rw [hp] at a
      cases a
      refine (hs.others p pg0 ho).imp id fun e => ?_
      rw [e] at b
      exact List.eq_nil_of_length_eq_zero b
  · intro p _ pg hp
    obtain ⟨pg', a, _, b⟩ := hsh.get hp
    exact ⟨pg', a, by omega⟩
  · have e'' : slotsOf h'.page ids' = (slotsOf h.page ids').map fun x => (x.1, if x.1 = r then s else x.2) := e'.symm
    rw [e'']
    unfold overwrite
    refine List.map_congr_left fun x _ => ?_
    by_cases hxr : x.1 = r
    · simp [hxr]
    · simp [hxr]
  · obtain ⟨s0, h0⟩ := h0
    exact List.mem_map.2 ⟨(r, s0), (mem_rows hs).2 h0, rfl⟩

theorem fits_shape {h h' : Heap} {ids : List Nat} {pc : Pc} (hsh : Shape h h') (hf : Fits h ids pc) : Fits h' ids pc := by
  have hp : ∀ p, h.page p = some ⟨none, []⟩ → h'.page p = some ⟨none, []⟩ := fun p hp => by
    obtain ⟨pg, a, b, c⟩ := hsh.get hp
    rw [a]
    obtain ⟨n, sl⟩ := pg
    simp only at b c
    rw [b, List.eq_nil_of_length_eq_zero c]
  have hl := hsh.last
  cases pc <;> simp only [Fits] at hf ⊢ <;> first
    | trivial
    | (rw [hl]; exact hf)
    | (rw [hl]; exact ⟨hf.1, hf.2⟩)
    | (rw [hl]; exact ⟨hf.1, hf.2.1, hf.2.2.1, hp _ hf.2.2.2⟩)
    | (rw [hl]; exact ⟨hf.1, hf.2.1, hp _ hf.2.2⟩)
    | exact ⟨hf.1, hp _ hf.2⟩

theorem shape_set {h : Heap} {r : Rid} {pg : Page} {s s0 : Slot} (hp : h.page r.page = some pg) (h0 : pg.slots[r.slot]? = some s0) :
    Shape h (h.set r.page { pg with slots := pg.slots.set r.slot s }) ∧ (h.set r.page { pg with slots := pg.slots.set r.slot s }).slot? r = some s ∧
    ∀ q, q ≠ r → (h.set r.page { pg with slots := pg.slots.set r.slot s }).slot? q = h.slot? q := by
  have hlt := (List.getElem?_eq_some_iff.1 h0).1
  refine ⟨⟨rfl, rfl, fun p => ?_⟩, ?_, ?_⟩
  · simp only [Heap.set]
    split
    · rename_i hp'; subst hp'; simp [hp]
    · rfl
  · simp [Heap.slot?, Heap.set, hlt]
  · rintro ⟨p, i⟩ hq
    simp only [Heap.slot?, Heap.set]
    by_cases hp' : p = r.page
    · subst hp'
      have : r.slot ≠ i := fun h => hq (by subst h; rfl)
      simp [hp, List.getElem?_set_ne this]
    · simp [hp']

end Verif.HeapConc
