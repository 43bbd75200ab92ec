import Verif.TablePage.Disk

/-!
# C32 and C65: what a table page guarantees about its rows

The rows are those of `Spec`: a list to which accepted inserts append and in which accepted updates replace.
-/

namespace Verif.TablePage

open Verif.Bytes Verif.Wire Spec
open Verif.Wal (Rid)

/-! ### C32: reading a slot gives the row last written to it -/

def RowsOk (rows : List Row) : Prop := ∀ r ∈ rows, r.1.ok ∧ TupleOk r.2

theorem mem_set_cases {α : Type} {l : List α} {i : Nat} {a x : α} (h : x ∈ l.set i a) : x ∈ l ∨ x = a := List.mem_or_eq_of_mem_set h

theorem apply_ok {rows : List Row} (h : RowsOk rows) {o : Op} (ho : OpOk o) (b : Bool) : RowsOk (apply rows o b) := by
  cases b with
  | false => exact h
  | true =>
    intro r hr
    cases o with
    | insert m row rid =>
      simp only [apply, Bool.true_eq_false, if_false, List.mem_append, List.mem_singleton] at hr
      rcases hr with hr | rfl
      · exact h r hr
      · exact ho
    | insertWithRid m row rid =>
      simp only [apply, Bool.true_eq_false, if_false, List.mem_append, List.mem_singleton] at hr
      rcases hr with hr | rfl
      · exact h r hr
      · exact ho
    | update m row i =>
      simp only [apply, Bool.true_eq_false, if_false] at hr
      rcases mem_set_cases hr with hr | rfl
      · exact h r hr
      · exact ho
    | updateMeta m i =>
      simp only [apply, Bool.true_eq_false, if_false] at hr
      cases hx : rows[i]? with
      | none => rw [hx] at hr; exact h r hr
      | some x =>
        rw [hx] at hr
        rcases mem_set_cases hr with hr | rfl
        · exact h r hr
        · exact ⟨ho, (h x (List.mem_of_getElem? hx)).2⟩
    | setNext id => exact h r hr
    | setPrev id => exact h r hr

theorem rowsAfter_ok : ∀ (os : List Op) (bs : List Bool) (rows : List Row), RowsOk rows → (∀ o ∈ os, OpOk o) →
    RowsOk (rowsAfter rows os bs)
  | [], bs, rows, h, _ => by cases bs <;> exact h
  | o :: os, [], rows, h, _ => h
  | o :: os, b :: bs, rows, h, ho =>
    rowsAfter_ok os bs _ (apply_ok h (ho o (by simp)) b) (fun x hx => ho x (by simp [hx]))

theorem Holds.get {p : Page} {rows : List Row} {s : Bool} (h : Holds p rows s) (hok : RowsOk rows) (r : Rid) (allow : Bool) :
    get p r allow = read p.id rows r allow := by
  rw [TablePage.get, Spec.read]
  by_cases hp : r.page ≠ p.id
  · rw [if_pos hp, if_pos hp]
  · rw [if_neg hp, if_neg hp]
    cases he : p.info[r.slot]? with
    | none =>
      have : p.info.length ≤ r.slot := by
        rcases Nat.lt_or_ge r.slot p.info.length with h1 | h1
        · rw [List.getElem?_eq_getElem h1] at he; simp at he
        · exact h1
      rw [List.getElem?_eq_none (by rw [← h.len]; exact this)]
      rfl
    | some e =>
      obtain ⟨x, hx⟩ := h.row? he
      rw [hx]
      obtain ⟨h1, h2, h3⟩ := h.row _ e x he hx
      simp only [Option.bind_some, h1]
      split
      · rfl
      · rw [if_pos (h.wf.inPage e (List.mem_of_getElem? he)), h3]
        have := decTuple_encTuple (hok x (List.mem_of_getElem? hx)).2 []
        rw [List.append_nil] at this
        rw [this]
        rfl

/-- C32 (part): after any history in which no row is inserted once an older row has grown, reading any place gives the row the
history left there, or nothing where there is none or it is deleted. What is missing is histories that insert after an older row grew:
`C32_grown_row_fails`. -/
theorem C32_rows_partial {id : Nat} {os : List Op} {p : Page} {bs : List Bool} (hr : run (new id) os = some (p, bs))
    (hok : ∀ o ∈ os, OpOk o) (ht : Tame [] false os bs) (r : Rid) (allow : Bool) :
    get p r allow = read id (rowsAfter [] os bs) r allow := by
  obtain ⟨s, h⟩ := run_holds os (new id) [] false p bs (new_holds id false) hr ht
  have hid : p.id = id := (run_wf os (new id) p bs (new_wf id) hr).2
  rw [← hid]
  exact h.get (rowsAfter_ok os bs [] (by simp [RowsOk]) hok) r allow

/-- C32 (part): in the same histories, two rows never share a byte of the page. -/
theorem C32_apart_partial {id : Nat} {os : List Op} {p : Page} {bs : List Bool} (hr : run (new id) os = some (p, bs))
    (ht : Tame [] false os bs) {i j : Nat} {e f : Info} (hij : i ≠ j) (hi : p.info[i]? = some e) (hj : p.info[j]? = some f) :
    e.off + e.size ≤ f.off ∨ f.off + f.size ≤ e.off := by
  obtain ⟨s, h⟩ := run_holds os (new id) [] false p bs (new_holds id false) hr ht
  exact h.apart i j e f hij hi hj

/-- C32: whatever the history, every row lies inside the page, and the page keeps its size. -/
theorem C32_in_page {id : Nat} {os : List Op} {p : Page} {bs : List Bool} (hr : run (new id) os = some (p, bs)) :
    p.data.length = 4096 ∧ ∀ e ∈ p.info, e.off + e.size ≤ 4096 := by
  have h := (run_wf os (new id) p bs (new_wf id) hr).1
  exact ⟨h.len, h.inPage⟩

/-- C32: no operation panics, whatever the history, as long as the rows given to an update are under 64 KiB. -/
theorem C32_no_panic (id : Nat) (os : List Op) (hs : ∀ o ∈ os, OpSmall o) : ∃ r, run (new id) os = some r := by
  suffices ∀ (os : List Op) (p : Page), WF p → (∀ o ∈ os, OpSmall o) → ∃ r, run p os = some r from this os _ (new_wf id) hs
  intro os
  induction os with
  | nil => intro p _ _; exact ⟨_, rfl⟩
  | cons o os ih =>
    intro p h hs
    have : ∃ q b, step p o = some (q, b) := by
      cases o with
      | insert m row rid =>
        simp only [step]
        rcases insert_cases h m row rid with h1 | ⟨x, h1, _, _⟩ <;> rw [h1] <;> exact ⟨_, _, rfl⟩
      | insertWithRid m row rid =>
        simp only [step]
        rcases insertWithRid_cases h m row rid with h1 | ⟨x, h1, _⟩ <;> rw [h1] <;> exact ⟨_, _, rfl⟩
      | update m row i =>
        have hsm : (encTuple row).length < 65536 := hs (.update m row i) (by simp)
        simp only [step]
        rcases update_cases h m row i with h1 | ⟨hbig, h1⟩ | ⟨e, he, hl, ⟨_, h1⟩ | ⟨_, _, h1⟩⟩
        · exact ⟨_, _, h1⟩
        · omega
        · exact ⟨_, _, h1⟩
        · exact ⟨_, _, h1⟩
      | updateMeta m i =>
        simp only [step]
        rcases updateMeta_cases h m i with h1 | ⟨e, he, h1⟩ <;> rw [h1] <;> exact ⟨_, _, rfl⟩
      | setNext id => exact ⟨_, _, rfl⟩
      | setPrev id => exact ⟨_, _, rfl⟩
    obtain ⟨q, b, hq⟩ := this
    obtain ⟨r, hr⟩ := ih q (step_wf h hq) (fun x hx => hs x (by simp [hx]))
    exact ⟨_, by simp only [run, hq, Option.bind_some, hr, Option.map_some]; rfl⟩

/-- C32: an update whose row is over 64 KiB panics when its size, cut to 16 bits, does not exceed the old row's. -/
theorem C32_long_update_panics_fails {id : Nat} {os : List Op} {p : Page} {bs : List Bool} (hr : run (new id) os = some (p, bs))
    {m : Meta} {row : List Value} {i : Nat} {e : Info} (he : p.info[i]? = some e) (hbig : 65536 ≤ (encTuple row).length)
    (hwrap : (encTuple row).length % 65536 ≤ e.size) : step p (.update m row i) = none := by
  have h := (run_wf os (new id) p bs (new_wf id) hr).1
  have hi : i < p.info.length := by
    rcases Nat.lt_or_ge i p.info.length with h1 | h1
    · exact h1
    · rw [List.getElem?_eq_none h1] at he; simp at he
  rw [step, update, if_neg (by rw [h.num]; omega), he]
  simp only [Option.bind_some]
  rw [if_pos hwrap, if_neg (by omega)]

/-- C32: an insert is accepted only at the next slot, and says so. -/
theorem C32_insert_place {id : Nat} {os : List Op} {p q : Page} {bs : List Bool} (hr : run (new id) os = some (p, bs)) {m : Meta}
    {row : List Value} {rid r : Rid} (h : insert p m row rid = some (q, some r)) :
    r = rid ∧ rid = ⟨id, p.info.length⟩ ∧ q.info.length = p.info.length + 1 := by
  obtain ⟨hw, hid⟩ := run_wf os (new id) p bs (new_wf id) hr
  rcases insert_cases hw m row rid with h1 | ⟨x, h1, h2, h3⟩
  · rw [h1] at h; simp at h
  · rw [h1] at h
    simp only [Option.some.injEq, Prod.mk.injEq] at h
    obtain ⟨rfl, rfl⟩ := h
    obtain ⟨o, d, _, _, rfl⟩ := h3.place
    refine ⟨h2.symm, ?_, by simp [placed]⟩
    rw [h2, hw.num, hid]
    rfl

/-- C32: a refused operation leaves the page as it was. -/
theorem C32_refused_unchanged {id : Nat} {os : List Op} {p q : Page} {bs : List Bool} (hr : run (new id) os = some (p, bs)) {o : Op}
    (h : step p o = some (q, false)) : q = p := by
  have hw := (run_wf os (new id) p bs (new_wf id) hr).1
  cases o with
  | insert m row rid =>
    simp only [step] at h
    rcases insert_cases hw m row rid with h1 | ⟨x, h1, _, _⟩ <;> rw [h1] at h <;> simp at h
    exact h.symm
  | insertWithRid m row rid =>
    simp only [step] at h
    rcases insertWithRid_cases hw m row rid with h1 | ⟨x, h1, _⟩ <;> rw [h1] at h <;> simp at h
    exact h.symm
  | update m row i =>
    simp only [step] at h
    rcases update_cases hw m row i with h1 | ⟨_, h1⟩ | ⟨e, he, hl, ⟨_, h1⟩ | ⟨_, _, h1⟩⟩ <;> rw [h1] at h <;> simp at h
    exact h.symm
  | updateMeta m i =>
    simp only [step] at h
    rcases updateMeta_cases hw m i with h1 | ⟨e, he, h1⟩ <;> rw [h1] at h <;> simp at h
    exact h.symm
  | setNext id => simp [step] at h
  | setPrev id => simp [step] at h

/-- C32: a row that fits under the lowest row and above the directory is accepted: a page refuses an insert at the right slot only for
lack of room or for the row's size. -/
theorem C32_insert_accepted {id : Nat} {os : List Op} {p : Page} {bs : List Bool} (hr : run (new id) os = some (p, bs)) {m : Meta}
    {row : List Value} {e : Nat} (he : slotEnd p = some e) (hs : rowSize row ≤ 3500) (hroom : rowSize row + footprintNew p m ≤ e)
    (hph : rowSize row + footprintNew p ⟨0, none, false, none⟩ ≤ 4096) : ∃ q, insert p m row ⟨id, p.info.length⟩ = some (q, some ⟨id, p.info.length⟩) := by
  obtain ⟨hw, hid⟩ := run_wf os (new id) p bs (new_wf id) hr
  have hid' : p.id = id := hid
  simp only [rowSize] at hs hroom hph
  have hf : footprintNew p m < 65536 := by
    have := slotEnd_le hw he
    simp only [PS] at this
    omega
  have hn : nextOffset p m (encTuple row) = some (some (e - (encTuple row).length)) := by
    rw [nextOffset, if_neg (by simp only [tooLarge, PS, maxRow, Bool.or_eq_true, decide_eq_true_eq]; omega),
      Nat.mod_eq_of_lt (show (encTuple row).length < 65536 by omega), if_neg (by simp only [maxRow]; omega), he,
      Nat.mod_eq_of_lt hf]
    simp only [Option.map_some]
    rw [if_neg (by omega)]
  rcases insert_cases hw m row ⟨id, p.info.length⟩ with h1 | ⟨q, h1, h2, h3⟩
  · exfalso
    rw [insert, hn] at h1
    simp only [Option.bind_some] at h1
    rw [if_pos (by rw [hw.num, hid'])] at h1
    obtain ⟨_, h4, _, h5⟩ := nextOffset_spec hn
    obtain ⟨d, _, h6, _⟩ := finishInsert_spec (r := ⟨p.id, p.num⟩) (m := m) hw (bs := encTuple row) (by simp only [maxRow]; omega)
      (slotEnd_le hw h4) h5
    rw [h6] at h1
    simp at h1
  · refine ⟨q, ?_⟩
    rw [h1, hw.num, hid']

/-- A one-column row of an integer. -/
def introw (n : Int) : List Value := [.mk (.integer n) (.length 4) false 4 none]
/-- A two-column row. -/
def introw2 (n k : Int) : List Value := [.mk (.integer n) (.length 4) false 4 none, .mk (.integer k) (.length 4) false 4 none]
/-- The metadata of a row being written by transaction 1. -/
def m1 : Meta := ⟨1, none, false, none⟩
/-- The same row, committed at 300. -/
def m1c : Meta := ⟨1, some 300, false, none⟩

/-- Two inserts, an update of the older row in place, a commit stamp, and a growing update of the newer row, then another insert. -/
def tameOps : List Op := [.insert m1 (introw 1) ⟨7, 0⟩, .insert m1 (introw2 2 3) ⟨7, 1⟩, .update m1 (introw 9) 0, .updateMeta m1c 0,
  .update m1 (introw2 2 3000) 1, .insert m1 (introw 5) ⟨7, 2⟩]

example : ∃ p bs, run (new 7) tameOps = some (p, bs) ∧ Tame [] false tameOps bs ∧ bs = [true, true, true, true, true, true] := by
  have h : (run (new 7) tameOps).map (·.2) = some [true, true, true, true, true, true] := by decide +kernel
  cases hr : run (new 7) tameOps with
  | none => rw [hr] at h; simp at h
  | some r =>
    rw [hr] at h
    simp only [Option.map_some, Option.some.injEq] at h
    refine ⟨r.1, r.2, rfl, ?_, h⟩
    rw [h]
    simp only [Tame, tameOps, isInsert, stretch, and_true, apply, List.nil_append]
    decide +kernel

/-- Insert two rows, let the older one grow, and insert a third. -/
def grownOps : List Op := [.insert m1 (introw 1) ⟨7, 0⟩, .insert m1 (introw 2) ⟨7, 1⟩, .update m1 (introw2 10 11) 0, .insert m1 (introw2 20 21) ⟨7, 2⟩]

/-- C32 fails: the row inserted after an older row grew overwrites that row. All four operations are accepted, and reading slot 0 gives
the third row instead of the updated first. -/
theorem C32_grown_row_fails : ∃ p, run (new 7) grownOps = some (p, [true, true, true, true])
    ∧ rowsAfter [] grownOps [true, true, true, true] = [(m1, introw2 10 11), (m1, introw 2), (m1, introw2 20 21)]
    ∧ get p ⟨7, 0⟩ false ≠ some (m1, introw2 10 11) ∧ (get p ⟨7, 0⟩ false).map (fun x => encTuple x.2) = some (encTuple (introw2 20 21)) := by
  have h : (run (new 7) grownOps).map (fun r => (r.2, (get r.1 ⟨7, 0⟩ false).map (fun x => encTuple x.2)))
      = some ([true, true, true, true], some (encTuple (introw2 20 21))) := by decide +kernel
  cases hr : run (new 7) grownOps with
  | none => rw [hr] at h; simp at h
  | some r =>
    rw [hr] at h
    simp only [Option.map_some, Option.some.injEq, Prod.mk.injEq] at h
    refine ⟨r.1, by rw [← h.1], rfl, ?_, h.2⟩
    intro hc
    have h2 := h.2
    rw [hc] at h2
    simp only [Option.map_some] at h2
    exact absurd h2 (by decide +kernel)

/-- C32: `insert_tuple_with_rid` does not check the place it is given: it reports a place where the row is not. -/
theorem C32_given_place_fails : ∃ q, insertWithRid (new 7) m1 (introw 1) ⟨7, 5⟩ = some (q, some ⟨7, 5⟩) ∧ get q ⟨7, 5⟩ true = none := by
  have h : (insertWithRid (new 7) m1 (introw 1) ⟨7, 5⟩).map (fun r => (r.2, (get r.1 ⟨7, 5⟩ true).isNone)) = some (some ⟨7, 5⟩, true) := by
    decide +kernel
  cases hr : insertWithRid (new 7) m1 (introw 1) ⟨7, 5⟩ with
  | none => rw [hr] at h; simp at h
  | some r =>
    rw [hr] at h
    simp only [Option.map_some, Option.some.injEq, Prod.mk.injEq, Option.isNone_iff_eq_none] at h
    exact ⟨r.1, by rw [← h.1], h.2⟩

theorem length_encValues_replicate (v : Value) (n : Nat) : (encValues (List.replicate n v)).length = n * (encValue v).length := by
  induction n with
  | zero => simp [encValues]
  | succ n ih => simp only [List.replicate_succ, encValues, List.length_append, ih, Nat.succ_mul]; omega

/-- A row of 9363 integers is 65543 bytes long: 7 when cut to 16 bits, so updating an 8-byte row with it panics. -/
example : ∃ p, run (new 7) [.insert m1 (introw 1) ⟨7, 0⟩] = some (p, [true])
    ∧ step p (.update m1 (List.replicate 9363 (.mk (.integer 1) (.length 4) false 4 none)) 0) = none := by
  have h : (run (new 7) [.insert m1 (introw 1) ⟨7, 0⟩]).map (fun r => (r.2, r.1.info)) = some ([true], [⟨4088, 8, m1⟩]) := by decide +kernel
  have hv : (encValue (.mk (.integer 1) (.length 4) false 4 none)).length = 7 := by decide +kernel
  have hl : (encTuple (List.replicate 9363 (.mk (.integer 1) (.length 4) false 4 none))).length = 65543 := by
    simp only [encTuple, List.length_append, length_encValues_replicate, hv, List.length_replicate]
    decide +kernel
  cases hr : run (new 7) [.insert m1 (introw 1) ⟨7, 0⟩] with
  | none => rw [hr] at h; simp at h
  | some r =>
    rw [hr] at h
    simp only [Option.map_some, Option.some.injEq, Prod.mk.injEq] at h
    refine ⟨r.1, by rw [← h.1], ?_⟩
    exact C32_long_update_panics_fails hr (e := ⟨4088, 8, m1⟩) (by rw [h.2]; rfl) (by rw [hl]; decide) (by rw [hl]; decide)

/-! ### C65: a page's bytes hold its rows -/

theorem step_ndel {p q : Page} {o : Op} {b : Bool} (h : WF p) (hs : step p o = some (q, b)) : q.ndel ≤ p.ndel + 1 := by
  cases o with
  | insert m row rid =>
    simp only [step] at hs
    rcases insert_cases h m row rid with h1 | ⟨x, h1, _, h2⟩
    · rw [h1] at hs; simp at hs; rw [← hs.1]; omega
    · rw [h1] at hs; simp at hs; obtain ⟨o, d, _, _, rfl⟩ := h2.place; rw [← hs.1]; exact Nat.le_succ _
  | insertWithRid m row rid =>
    simp only [step] at hs
    rcases insertWithRid_cases h m row rid with h1 | ⟨x, h1, h2⟩
    · rw [h1] at hs; simp at hs; rw [← hs.1]; omega
    · rw [h1] at hs; simp at hs; obtain ⟨o, d, _, _, rfl⟩ := h2.place; rw [← hs.1]; exact Nat.le_succ _
  | update m row i =>
    simp only [step] at hs
    rcases update_cases h m row i with h1 | ⟨_, h1⟩ | ⟨e, he, hl, ⟨h1, h2⟩ | ⟨h1, h2, h3⟩⟩
    · rw [h1] at hs; simp at hs; rw [← hs.1]; omega
    · rw [h1] at hs; simp at hs
    · rw [h2] at hs; simp at hs; rw [← hs.1]; exact Nat.le_succ _
    · rw [h3] at hs; simp at hs; rw [← hs.1]; exact Nat.le_succ _
  | updateMeta m i =>
    simp only [step] at hs
    rcases updateMeta_cases h m i with h1 | ⟨e, he, h1⟩
    · rw [h1] at hs; simp at hs; rw [← hs.1]; omega
    · rw [h1] at hs; simp at hs; rw [← hs.1]
      dsimp only
      rw [newDeleted]
      split
      · omega
      · split <;> omega
  | setNext id => simp [step] at hs; rw [← hs.1]; exact Nat.le_succ _
  | setPrev id => simp [step] at hs; rw [← hs.1]; exact Nat.le_succ _

theorem step_links {p q : Page} {o : Op} {b : Bool} (h : WF p) (ho : OpOk o) (hl : p.next < 2 ^ 64 ∧ p.prev < 2 ^ 64)
    (hs : step p o = some (q, b)) : q.next < 2 ^ 64 ∧ q.prev < 2 ^ 64 := by
  cases o with
  | insert m row rid =>
    simp only [step] at hs
    rcases insert_cases h m row rid with h1 | ⟨x, h1, _, h2⟩
    · rw [h1] at hs; simp at hs; rw [← hs.1]; exact hl
    · rw [h1] at hs; simp at hs; obtain ⟨o, d, _, _, rfl⟩ := h2.place; rw [← hs.1]; exact hl
  | insertWithRid m row rid =>
    simp only [step] at hs
    rcases insertWithRid_cases h m row rid with h1 | ⟨x, h1, h2⟩
    · rw [h1] at hs; simp at hs; rw [← hs.1]; exact hl
    · rw [h1] at hs; simp at hs; obtain ⟨o, d, _, _, rfl⟩ := h2.place; rw [← hs.1]; exact hl
  | update m row i =>
    simp only [step] at hs
    rcases update_cases h m row i with h1 | ⟨_, h1⟩ | ⟨e, he, _, ⟨h1, h2⟩ | ⟨h1, h2, h3⟩⟩
    · rw [h1] at hs; simp at hs; rw [← hs.1]; exact hl
    · rw [h1] at hs; simp at hs
    · rw [h2] at hs; simp at hs; rw [← hs.1]; exact hl
    · rw [h3] at hs; simp at hs; rw [← hs.1]; exact hl
  | updateMeta m i =>
    simp only [step] at hs
    rcases updateMeta_cases h m i with h1 | ⟨e, he, h1⟩
    · rw [h1] at hs; simp at hs; rw [← hs.1]; exact hl
    · rw [h1] at hs; simp at hs; rw [← hs.1]; exact hl
  | setNext id => simp [step] at hs; rw [← hs.1]; exact ⟨ho, hl.2⟩
  | setPrev id => simp [step] at hs; rw [← hs.1]; exact ⟨hl.1, ho⟩

theorem run_small : ∀ (os : List Op) (p q : Page) (bs : List Bool), WF p → (∀ o ∈ os, OpOk o) → p.next < 2 ^ 64 ∧ p.prev < 2 ^ 64 →
    run p os = some (q, bs) → (q.next < 2 ^ 64 ∧ q.prev < 2 ^ 64) ∧ q.ndel ≤ p.ndel + os.length
  | [], p, q, bs, h, _, hl, hr => by simp [run] at hr; obtain ⟨rfl, _⟩ := hr; exact ⟨hl, by simp⟩
  | o :: os, p, q, bs, h, ho, hl, hr => by
    simp only [run, Option.bind_eq_some_iff, Option.map_eq_some_iff] at hr
    obtain ⟨⟨p', b⟩, h1, ⟨q', bs'⟩, h2, h3⟩ := hr
    simp only [Prod.mk.injEq] at h3
    obtain ⟨rfl, rfl⟩ := h3
    obtain ⟨a, c⟩ := run_small os p' _ _ (step_wf h h1) (fun x hx => ho x (by simp [hx])) (step_links h (ho o (by simp)) hl h1) h2
    have := step_ndel h h1
    refine ⟨a, ?_⟩
    simp only [List.length_cons]
    omega

/-- The bytes of a page to which a row has just been added, on a page whose newest row was the lowest. -/
theorem inserted_deserialize {p : Page} {rows : List Row} (h : Holds p rows false) (hok : RowsOk rows) (hid : p.id < 2 ^ 64)
    (hl : p.next < 2 ^ 64 ∧ p.prev < 2 ^ 64) (hd : p.ndel < 65536) {m : Meta} (hm : m.ok) {row : List Value} {q : Page}
    (hq : Inserted p m row q) : deserialize q.data = some q := by
  obtain ⟨o, d, h1, h2, rfl⟩ := hq.place
  obtain ⟨hrow, he, hfp, hf⟩ := nextOffset_spec h1
  have hPS := slotEnd_le h.wf he
  have hw := placed_wf (m := m) h.wf hrow hPS hf
  have hmod : (encTuple row).length % 65536 = (encTuple row).length := Nat.mod_eq_of_lt (by simp only [maxRow] at hrow; omega)
  have hfoot : footprint (placed p o m (encTuple row)) = footprintNew p m := by
    have : ∀ is : List Info, infoBytes (is ++ [⟨o, (encTuple row).length, m⟩]) = infoBytes is + 4 + (encMeta m).length := by
      intro is
      induction is with
      | nil => simp [infoBytes]
      | cons i is ih => simp only [List.cons_append, infoBytes, ih]; omega
    simp only [footprint, footprintNew, placed, hmod, this]
    omega
  have hge : ∀ e ∈ p.info, o + (encTuple row).length ≤ e.off := by
    intro e hmem
    obtain ⟨i, hi⟩ := List.mem_iff_getElem?.1 hmem
    have hpos : 0 < p.info.length := List.length_pos_of_mem hmem
    have hlt : p.info.length - 1 < p.info.length := by omega
    rw [slotEnd, if_pos (by rw [h.wf.num]; exact hpos), h.wf.num, List.getElem?_eq_getElem hlt] at he
    simp only [Option.map_some, Option.some.injEq] at he
    rw [← he]
    exact h.low rfl i e _ hi (List.getElem?_eq_getElem hlt)
  have habove : ∀ e ∈ (placed p o m (encTuple row)).info, footprint (placed p o m (encTuple row)) ≤ e.off := by
    intro e hmem
    rw [hfoot]
    simp only [placed, List.mem_append, List.mem_singleton] at hmem
    rcases hmem with hmem | rfl
    · have := hge e hmem; omega
    · exact hfp
  have hmd : ∀ e ∈ (placed p o m (encTuple row)).info, InfoOk e := by
    intro e hmem
    have hin := hw.inPage e hmem
    simp only [PS] at hin
    refine ⟨by omega, by omega, ?_⟩
    simp only [placed, List.mem_append, List.mem_singleton] at hmem
    rcases hmem with hmem | rfl
    · obtain ⟨i, hi⟩ := List.mem_iff_getElem?.1 hmem
      obtain ⟨r, hr⟩ := h.row? hi
      rw [(h.row i e r hi hr).1]
      exact (hok r (List.mem_of_getElem? hr)).1
    · exact hm
  obtain ⟨t, ht, _, _⟩ := serialize_meta hw.len hw.inPage (by rw [hfoot]; omega) habove
  rw [h2] at ht
  cases ht
  have hnum : (placed p o m (encTuple row)).num < 65536 := by
    have := hw.few
    rw [hw.num]; omega
  exact deserialize_meta (p := placed p o m (encTuple row)) hid hl.1 hl.2 hnum hd hw.num hmd t

/-- C65 (part): right after an accepted insert, the page's bytes read back as exactly this page — rows, metadata, links and counts —
for every history in which no row is inserted once an older row has grown. Missing: after updates, metadata changes and link changes
(`C65_stale_bytes_fails`), and the reading back itself, which the buffer pool does not do (`C65_reload_fails`). -/
theorem C65_bytes_partial {id : Nat} (hid : id < 2 ^ 64) {os : List Op} {p q : Page} {bs : List Bool} {o : Op}
    (hr : run (new id) os = some (p, bs)) (hlen : os.length < 65536) (hok : ∀ x ∈ os ++ [o], OpOk x) (hi : isInsert o = true)
    (ht : Tame [] false (os ++ [o]) (bs ++ [true])) (hs : step p o = some (q, true)) : deserialize q.data = some q := by
  have key : ∀ (os : List Op) (p : Page) (rows : List Row) (s : Bool) (q : Page) (bs : List Bool), Holds p rows s →
      run p os = some (q, bs) → Tame rows s (os ++ [o]) (bs ++ [true]) → Holds q (rowsAfter rows os bs) false := by
    intro os
    induction os with
    | nil =>
      intro p rows s q bs h hr ht
      simp [run] at hr
      obtain ⟨rfl, rfl⟩ := hr
      have : s = false := ht.1 hi rfl
      rw [this] at h
      exact h
    | cons x os ih =>
      intro p rows s q bs h hr ht
      simp only [run, Option.bind_eq_some_iff, Option.map_eq_some_iff] at hr
      obtain ⟨⟨p', b⟩, h1, ⟨q', bs'⟩, h2, h3⟩ := hr
      simp only [Prod.mk.injEq] at h3
      obtain ⟨rfl, rfl⟩ := h3
      exact ih p' _ _ _ _ (step_holds h h1 ht.1) h2 ht.2
  have hh := key os (new id) [] false p bs (new_holds id false) hr ht
  have hro := rowsAfter_ok os bs [] (by simp [RowsOk]) (fun x hx => hok x (by simp [hx]))
  have hpid : p.id = id := (run_wf os (new id) p bs (new_wf id) hr).2
  have hsm := run_small os (new id) p bs (new_wf id) (fun x hx => hok x (by simp [hx])) (by simp [new, noPage]) hr
  have hnd : p.ndel < 65536 := by
    have : p.ndel ≤ 0 + os.length := hsm.2
    omega
  cases o with
  | insert m row rid =>
    simp only [step] at hs
    rcases insert_cases hh.wf m row rid with h1 | ⟨x, h1, _, h2⟩
    · rw [h1] at hs; simp at hs
    · rw [h1] at hs; simp at hs; rw [← hs]
      exact inserted_deserialize hh hro (by rw [hpid]; exact hid) hsm.1 hnd (hok (.insert m row rid) (by simp)).1 h2
  | insertWithRid m row rid =>
    simp only [step] at hs
    rcases insertWithRid_cases hh.wf m row rid with h1 | ⟨x, h1, h2⟩
    · rw [h1] at hs; simp at hs
    · rw [h1] at hs; simp at hs; rw [← hs]
      exact inserted_deserialize hh hro (by rw [hpid]; exact hid) hsm.1 hnd (hok (.insertWithRid m row rid) (by simp)).1 h2
  | update m row i => simp [isInsert] at hi
  | updateMeta m i => simp [isInsert] at hi
  | setNext id => simp [isInsert] at hi
  | setPrev id => simp [isInsert] at hi

/-- Insert a row and stamp it committed. -/
def stampOps : List Op := [.insert m1 (introw 1) ⟨7, 0⟩, .updateMeta m1c 0]

/-- C65 fails: the bytes written out after a row is stamped committed still say it is uncommitted. -/
theorem C65_stale_bytes_fails : ∃ p q, run (new 7) stampOps = some (p, [true, true]) ∧ getMeta p 0 = some m1c
    ∧ deserialize p.data = some q ∧ getMeta q 0 = some m1 := by
  have h : (run (new 7) stampOps).map (fun r => (r.2, getMeta r.1 0, (deserialize r.1.data).map (fun q => getMeta q 0)))
      = some ([true, true], some m1c, some (some m1)) := by decide +kernel
  cases hr : run (new 7) stampOps with
  | none => rw [hr] at h; simp at h
  | some r =>
    rw [hr] at h
    simp only [Option.map_some, Option.some.injEq, Prod.mk.injEq, Option.map_eq_some_iff] at h
    obtain ⟨h1, h2, q, h3, h4⟩ := h
    exact ⟨r.1, q, by rw [← h1], h2, h3, h4⟩

/-- C65 fails: an empty page's bytes do not read back at all. -/
theorem C65_empty_page_fails : deserialize (new 7).data = none := by decide +kernel

/-- What a page carries on disk from the start: the type byte, then its number in eight bytes, then zeros. And the bytes a page is reloaded with are its bytes. -/
theorem C65_page_bytes_partial (id : Nat) (hid : id < 2 ^ 64) : (new id).data.length = 4096 ∧ (new id).data[0]? = some 2
    ∧ ofLE (slice (new id).data 1 8) = id ∧ (∀ i, 9 ≤ i → i < 4096 → (new id).data[i]? = some 0)
    ∧ ∀ bytes : List Byte, bytes.length = 4096 → (reload id bytes).data = bytes ∧ (reload id bytes).id = id := by
  have hl : (toLE 8 id).length = 8 := length_toLE ..
  have hd : (new id).data = 2 :: (toLE 8 id ++ List.replicate 4087 0) := by
    simp only [new, splice, zeros, PS, hl]
    rfl
  have hlen : (new id).data.length = 4096 := by rw [hd, List.length_cons, List.length_append, hl, List.length_replicate]
  refine ⟨hlen, by rw [hd]; rfl, ?_, ?_, ?_⟩
  · rw [hd, slice, List.drop_succ_cons, List.drop_zero, List.take_left' hl]
    exact ofLE_toLE (by simpa using hid)
  · intro i h1 h2
    obtain ⟨j, rfl⟩ : ∃ j, i = j + 9 := ⟨i - 9, by omega⟩
    rw [hd, List.getElem?_cons_succ, List.getElem?_append_right (by omega), hl, List.getElem?_replicate, if_pos (by omega)]
  · intro bytes hb
    refine ⟨?_, rfl⟩
    simp only [reload, setData, splice, hb, List.take_zero, List.nil_append]
    rw [List.drop_of_length_le (by omega), List.append_nil]

/-- C65 fails: the buffer pool does not read rows back. Whatever bytes a page was evicted with, no place in the reloaded page holds a row. -/
theorem C65_reload_fails (id : Nat) (bytes : List Byte) (r : Rid) (allow : Bool) : get (reload id bytes) r allow = none := by
  simp [reload, setData, new, TablePage.get]

/-- A page with a row, reloaded from its own bytes: the row is gone. -/
theorem C65_row_lost_fails : ∃ p, run (new 7) [.insert m1 (introw 1) ⟨7, 0⟩] = some (p, [true])
    ∧ (get p ⟨7, 0⟩ false).map (fun x => encTuple x.2) = some (encTuple (introw 1)) ∧ get (reload 7 p.data) ⟨7, 0⟩ false = none := by
  have h : (run (new 7) [.insert m1 (introw 1) ⟨7, 0⟩]).map (fun r => (r.2, (get r.1 ⟨7, 0⟩ false).map (fun x => encTuple x.2)))
      = some ([true], some (encTuple (introw 1))) := by decide +kernel
  cases hr : run (new 7) [.insert m1 (introw 1) ⟨7, 0⟩] with
  | none => rw [hr] at h; simp at h
  | some r =>
    rw [hr] at h
    simp only [Option.map_some, Option.some.injEq, Prod.mk.injEq] at h
    exact ⟨r.1, by rw [← h.1], h.2, C65_reload_fails _ _ _ _⟩

example : ∀ x ∈ tameOps, OpOk x := by
  intro x hx
  have hm : m1.ok := ⟨by decide, by simp [m1], by simp [m1]⟩
  have hm' : m1c.ok := ⟨by decide, by simp [m1c], by simp [m1c]⟩
  simp only [tameOps, List.mem_cons, List.not_mem_nil, or_false] at hx
  rcases hx with rfl | rfl | rfl | rfl | rfl | rfl
  all_goals simp [OpOk, hm, hm', TupleOk, introw, introw2, Values.ok, Value.ok, Val.ok, InRange]

end Verif.TablePage
