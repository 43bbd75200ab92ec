import Verif.TablePage.Props

/-!
# C32: the counts in a table page's header

`get_num_tuples` and `get_num_deleted_tuples` (table_page.rs 535-541) against the rows that an accepted history leaves. The count of
deleted rows moves only in `update_tuple_meta` (table_page.rs 420-435).
-/

namespace Verif.TablePage.Spec

open Verif.Wire Verif.TablePage

/-- How many rows are marked deleted. -/
def deletedRows (rows : List Row) : Nat := rows.countP fun r => r.1.deleted

/-- The deleted flag is only ever changed by changing the metadata alone: inserted rows are live, and a rewritten row keeps its flag. -/
def FlagsByMeta (rows : List Row) : List Op → List Bool → Prop
  | o :: os, b :: bs =>
    (b = true → match o with
      | .insert m _ _ => m.deleted = false
      | .insertWithRid m _ _ => m.deleted = false
      | .update m _ i => ∀ r, rows[i]? = some r → m.deleted = r.1.deleted
      | _ => True)
    ∧ FlagsByMeta (apply rows o b) os bs
  | _, _ => True

end Verif.TablePage.Spec

namespace Verif.TablePage

open Verif.Wire Verif.TablePage.Spec
open Verif.Wal (Rid)

/-- The directory's metadata is the rows' metadata. -/
def Metas (p : Page) (rows : List Row) : Prop := p.info.map (·.md) = rows.map (·.1)

theorem Metas.length {p : Page} {rows : List Row} (h : Metas p rows) : p.info.length = rows.length := by
  have := congrArg List.length h
  simpa using this

theorem Metas.at {p : Page} {rows : List Row} (h : Metas p rows) {i : Nat} {e : Info} (he : p.info[i]? = some e) :
    ∃ r, rows[i]? = some r ∧ r.1 = e.md := by
  have h1 : (p.info.map (·.md))[i]? = some e.md := by simp [he]
  rw [h] at h1
  simp only [List.getElem?_map, Option.map_eq_some_iff] at h1
  exact h1

/-- One row's flag changes: the count of deleted rows before and after. -/
theorem countP_set {α} (f : α → Bool) : ∀ (l : List α) (i : Nat) (x y : α), l[i]? = some x →
    (l.set i y).countP f + (if f x then 1 else 0) = l.countP f + (if f y then 1 else 0)
  | [], i, x, y, h => by simp at h
  | a :: l, 0, x, y, h => by
    simp only [List.getElem?_cons_zero, Option.some.injEq] at h
    subst h
    simp only [List.set_cons_zero, List.countP_cons]
    omega
  | a :: l, i + 1, x, y, h => by
    simp only [List.getElem?_cons_succ] at h
    have := countP_set f l i x y h
    simp only [List.set_cons_succ, List.countP_cons]
    omega

theorem step_metas {p : Page} {rows : List Row} (h : WF p) (hm : Metas p rows) {o : Op} {q : Page} {b : Bool}
    (hs : step p o = some (q, b)) : Metas q (apply rows o b) := by
  cases o with
  | insert m row rid =>
    simp only [step] at hs
    rcases insert_cases h m row rid with h1 | ⟨x, h1, _, h2⟩
    · rw [h1] at hs; simp at hs; obtain ⟨rfl, rfl⟩ := hs; exact hm
    · rw [h1] at hs; simp at hs; obtain ⟨o, d, _, _, rfl⟩ := h2.place; obtain ⟨rfl, rfl⟩ := hs
      simp only [Metas, apply, placed, List.map_append, List.map_cons, List.map_nil]
      rw [hm]; simp
  | insertWithRid m row rid =>
    simp only [step] at hs
    rcases insertWithRid_cases h m row rid with h1 | ⟨x, h1, h2⟩
    · rw [h1] at hs; simp at hs; obtain ⟨rfl, rfl⟩ := hs; exact hm
    · rw [h1] at hs; simp at hs; obtain ⟨o, d, _, _, rfl⟩ := h2.place; obtain ⟨rfl, rfl⟩ := hs
      simp only [Metas, apply, placed, List.map_append, List.map_cons, List.map_nil]
      rw [hm]; simp
  | update m row i =>
    simp only [step] at hs
    rcases update_cases h m row i with h1 | ⟨_, h1⟩ | ⟨e, he, _, ⟨h1, h2⟩ | ⟨h1, h2, h3⟩⟩
    · rw [h1] at hs; simp at hs; obtain ⟨rfl, rfl⟩ := hs; exact hm
    · rw [h1] at hs; simp at hs
    · rw [h2] at hs; simp at hs; obtain ⟨rfl, rfl⟩ := hs
      simp only [Metas, apply, updateInPlace, List.map_set]
      rw [hm]; simp
    · rw [h3] at hs; simp at hs; obtain ⟨rfl, rfl⟩ := hs
      simp only [Metas, apply, updateMoved, List.map_set]
      rw [hm]; simp
  | updateMeta m i =>
    simp only [step] at hs
    rcases updateMeta_cases h m i with h1 | ⟨e, he, h1⟩
    · rw [h1] at hs; simp at hs; obtain ⟨rfl, rfl⟩ := hs; exact hm
    · rw [h1] at hs; simp at hs; obtain ⟨rfl, rfl⟩ := hs
      obtain ⟨r, hr, _⟩ := hm.at he
      simp only [Metas, apply, hr, List.map_set]
      rw [hm]; simp
  | setNext id => simp [step] at hs; obtain ⟨rfl, rfl⟩ := hs; exact hm
  | setPrev id => simp [step] at hs; obtain ⟨rfl, rfl⟩ := hs; exact hm

theorem step_deleted {p : Page} {rows : List Row} (h : WF p) (hm : Metas p rows) (hd : p.ndel = deletedRows rows) {o : Op} {q : Page}
    {b : Bool} {os : List Op} {bs : List Bool} (hf : FlagsByMeta rows (o :: os) (b :: bs)) (hs : step p o = some (q, b)) :
    q.ndel = deletedRows (apply rows o b) := by
  have hf := hf.1
  cases o with
  | insert m row rid =>
    simp only [step] at hs
    rcases insert_cases h m row rid with h1 | ⟨x, h1, _, h2⟩
    · rw [h1] at hs; simp at hs; obtain ⟨rfl, rfl⟩ := hs; exact hd
    · rw [h1] at hs; simp at hs; obtain ⟨o, d, _, _, rfl⟩ := h2.place; obtain ⟨rfl, rfl⟩ := hs
      have hl : m.deleted = false := hf rfl
      simp only [deletedRows] at hd
      simp [apply, placed, deletedRows, hl, hd]
  | insertWithRid m row rid =>
    simp only [step] at hs
    rcases insertWithRid_cases h m row rid with h1 | ⟨x, h1, h2⟩
    · rw [h1] at hs; simp at hs; obtain ⟨rfl, rfl⟩ := hs; exact hd
    · rw [h1] at hs; simp at hs; obtain ⟨o, d, _, _, rfl⟩ := h2.place; obtain ⟨rfl, rfl⟩ := hs
      have hl : m.deleted = false := hf rfl
      simp only [deletedRows] at hd
      simp [apply, placed, deletedRows, hl, hd]
  | update m row i =>
    simp only [step] at hs
    have key : ∀ e, p.info[i]? = some e → (∀ r, rows[i]? = some r → m.deleted = r.1.deleted) →
        p.ndel = deletedRows (rows.set i (m, row)) := by
      intro e he hk
      obtain ⟨r, hr, _⟩ := hm.at he
      have := countP_set (fun r : Row => r.1.deleted) rows i r (m, row) hr
      have h3 := hk r hr
      simp only [deletedRows] at hd ⊢
      simp only [h3] at this
      omega
    rcases update_cases h m row i with h1 | ⟨_, h1⟩ | ⟨e, he, _, ⟨h1, h2⟩ | ⟨h1, h2, h3⟩⟩
    · rw [h1] at hs; simp at hs; obtain ⟨rfl, rfl⟩ := hs; exact hd
    · rw [h1] at hs; simp at hs
    · rw [h2] at hs; simp at hs; obtain ⟨rfl, rfl⟩ := hs
      exact key e he (hf rfl)
    · rw [h3] at hs; simp at hs; obtain ⟨rfl, rfl⟩ := hs
      exact key e he (hf rfl)
  | updateMeta m i =>
    simp only [step] at hs
    rcases updateMeta_cases h m i with h1 | ⟨e, he, h1⟩
    · rw [h1] at hs; simp at hs; obtain ⟨rfl, rfl⟩ := hs; exact hd
    · rw [h1] at hs; simp at hs; obtain ⟨rfl, rfl⟩ := hs
      obtain ⟨r, hr, hrm⟩ := hm.at he
      have hc := countP_set (fun r : Row => r.1.deleted) rows i r (m, r.2) hr
      simp only [apply, hr, deletedRows, newDeleted, ← hrm] at hd ⊢
      cases ha : r.1.deleted <;> cases hb : m.deleted <;> simp [ha, hb] at hc ⊢ <;> omega
  | setNext id => simp [step] at hs; obtain ⟨rfl, rfl⟩ := hs; exact hd
  | setPrev id => simp [step] at hs; obtain ⟨rfl, rfl⟩ := hs; exact hd

theorem run_counts : ∀ (os : List Op) (p q : Page) (bs : List Bool) (rows : List Row), WF p → Metas p rows → run p os = some (q, bs) →
    Metas q (rowsAfter rows os bs) ∧ (p.ndel = deletedRows rows → FlagsByMeta rows os bs → q.ndel = deletedRows (rowsAfter rows os bs))
  | [], p, q, bs, rows, h, hm, hr => by
    simp [run] at hr; obtain ⟨rfl, rfl⟩ := hr; exact ⟨hm, fun h _ => h⟩
  | o :: os, p, q, bs, rows, h, hm, hr => by
    simp only [run, Option.bind_eq_some_iff, Option.map_eq_some_iff] at hr
    obtain ⟨⟨p', b⟩, h1, ⟨q', bs'⟩, h2, h3⟩ := hr
    simp only [Prod.mk.injEq] at h3
    obtain ⟨rfl, rfl⟩ := h3
    obtain ⟨a, c⟩ := run_counts os p' _ _ (apply rows o b) (step_wf h h1) (step_metas h hm h1) h2
    exact ⟨a, fun hd hf => c (step_deleted h hm hd hf h1) hf.2⟩

/-- C32 (the header's count of rows): after any history on a new page, also one in which rows grew and overlapped, `get_num_tuples` is
the number of rows inserted. -/
theorem C32_count {id : Nat} {os : List Op} {p : Page} {bs : List Bool} (hr : run (new id) os = some (p, bs)) :
    p.num = (rowsAfter [] os bs).length := by
  have hw := (run_wf os _ _ _ (new_wf id) hr).1
  rw [hw.num, (run_counts os _ _ _ [] (new_wf id) rfl hr).1.length]

/-- C32 (the header's count of deleted rows): after any history on a new page in which the deleted flag is changed only by changing the
metadata alone, `get_num_deleted_tuples` is the number of rows marked deleted. Missing: histories in which a row is inserted as deleted
or rewritten with another flag, of which it is false (`C32_deleted_count_fails`). -/
theorem C32_deleted_count_partial {id : Nat} {os : List Op} {p : Page} {bs : List Bool} (hr : run (new id) os = some (p, bs))
    (hf : FlagsByMeta [] os bs) : p.ndel = deletedRows (rowsAfter [] os bs) :=
  (run_counts os _ _ _ [] (new_wf id) rfl hr).2 rfl hf

/-- Metadata of a deleted row. -/
def m1d : Meta := ⟨1, none, true, none⟩

/-- Two rows, both deleted, one of them brought back, the other rewritten while deleted, and a refused change. -/
def delOps : List Op := [.insert m1 (introw 1) ⟨7, 0⟩, .insert m1 (introw2 2 3) ⟨7, 1⟩, .updateMeta m1d 0, .updateMeta m1d 1, .updateMeta m1 0,
  .update m1d (introw 4) 1, .updateMeta m1d 5]

example : ∃ p bs, run (new 7) delOps = some (p, bs) ∧ FlagsByMeta [] delOps bs ∧ p.num = 2 ∧ p.ndel = 1 := by
  have h : (run (new 7) delOps).map (fun r => (r.2, r.1.num, r.1.ndel)) = some ([true, true, true, true, true, true, false], 2, 1) := by
    decide +kernel
  cases hr : run (new 7) delOps with
  | none => rw [hr] at h; simp at h
  | some r =>
    rw [hr] at h
    simp only [Option.map_some, Option.some.injEq, Prod.mk.injEq] at h
    obtain ⟨h1, h2, h3⟩ := h
    refine ⟨r.1, r.2, rfl, ?_, h2, h3⟩
    rw [h1]
    simp [FlagsByMeta, delOps, apply, m1, m1d]

/-- C32 is false of a row marked deleted by rewriting it: it is deleted, and a reader is refused it, but the header counts no deleted
row. Bringing it back by its metadata then takes the count of another deleted row away. -/
theorem C32_deleted_count_fails : ∃ p q bs bs',
    run (new 7) [.insert m1 (introw 1) ⟨7, 0⟩, .update m1d (introw 1) 0] = some (p, bs)
    ∧ get p ⟨7, 0⟩ false = none ∧ (get p ⟨7, 0⟩ true).isSome ∧ p.ndel = 0
    ∧ run (new 7) [.insert m1 (introw 1) ⟨7, 0⟩, .insert m1 (introw 2) ⟨7, 1⟩, .updateMeta m1d 1, .update m1d (introw 1) 0, .updateMeta m1 0]
      = some (q, bs')
    ∧ get q ⟨7, 1⟩ false = none ∧ (get q ⟨7, 1⟩ true).isSome ∧ q.ndel = 0 := by
  have h : (run (new 7) [.insert m1 (introw 1) ⟨7, 0⟩, .update m1d (introw 1) 0]).map
      (fun r => ((get r.1 ⟨7, 0⟩ false).isNone, (get r.1 ⟨7, 0⟩ true).isSome, r.1.ndel)) = some (true, true, 0) := by decide +kernel
  have h' : (run (new 7) [.insert m1 (introw 1) ⟨7, 0⟩, .insert m1 (introw 2) ⟨7, 1⟩, .updateMeta m1d 1, .update m1d (introw 1) 0,
      .updateMeta m1 0]).map (fun r => ((get r.1 ⟨7, 1⟩ false).isNone, (get r.1 ⟨7, 1⟩ true).isSome, r.1.ndel)) = some (true, true, 0) := by
    decide +kernel
  simp only [Option.map_eq_some_iff, Prod.mk.injEq] at h h'
  obtain ⟨⟨p, bs⟩, hp, a1, a2, a3⟩ := h
  obtain ⟨⟨q, bs'⟩, hq, b1, b2, b3⟩ := h'
  exact ⟨p, q, bs, bs', hp, Option.isNone_iff_eq_none.1 a1, a2, a3, hq, Option.isNone_iff_eq_none.1 b1, b2, b3⟩

end Verif.TablePage
