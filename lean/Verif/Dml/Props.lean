import Verif.Dml.Lemmas
import Verif.Dml.Spec

/-!
# C75, C76, C80: DELETE, UPDATE and scans
-/

namespace Verif.Dml

open Verif.Wire Verif.Bytes Verif.Sql Verif.Exec

theorem keep_selected {p : Option Expr} {row : Row} (h : Clear p row) : ∃ b, keep p row = some b ∧ (b = true ↔ Selected p row) := by
  cases p with
  | none => exact ⟨true, rfl, by simp [Selected]⟩
  | some q => exact keeps_decided h

theorem keep_true {p : Option Expr} {row : Row} (h : Clear p row) : keep p row = some true ↔ Selected p row := by
  obtain ⟨b, h1, h2⟩ := keep_selected h
  rw [h1, ← h2]
  simp

theorem mem_live {l : List (Rid × Slot)} {r : Rid} {row : Row} : (r, row) ∈ live l ↔ ∃ s, (r, s) ∈ l ∧ s.info.deleted = false ∧ s.row = row := by
  simp only [live, List.mem_filterMap]
  constructor
  · rintro ⟨⟨r', s⟩, hx, h⟩
    split at h
    · cases h
    · rename_i hd
      cases h
      exact ⟨s, hx, by simpa using hd, rfl⟩
  · rintro ⟨s, hx, hd, rfl⟩
    exact ⟨_, hx, by simp [hd]⟩

/-! ## DELETE -/

def tomb (txn : Nat) (s : Slot) : Slot := ⟨⟨txn, false, true⟩, s.row⟩

theorem delete_local (d : Disk) (txn : Nat) : Local d (fun h r _ => match h.delete d txn r with | some h' => .ok h' | none => .error .err) (tomb txn) where
  ok h r s h' hg hch := by
    simp only [Heap.delete, hg] at hch
    split at hch
    · rename_i hw
      cases hch
      split at hw
      · cases hw
      · obtain ⟨a, _, b, c⟩ := Heap.write_ok hw
        exact ⟨a, b, c⟩
    · cases hch
  err h r _ := by
    split <;> exact nofun

theorem live_delete (l : List (Rid × Slot)) (p : Option Expr) (txn : Nat) (sel : Rid × Row → Bool) (h : ∀ x ∈ live l, sel x = true ↔ keep p x.2 = some true) :
    live (l.map fun x => (x.1, after p (tomb txn) x.2)) = (live l).filter (fun x => !sel x) ∧ (l.filter (hit p)).length = ((live l).filter sel).length := by
  induction l with
  | nil => exact ⟨rfl, rfl⟩
  | cons x l ih =>
    obtain ⟨r, s⟩ := x
    cases hd : s.info.deleted with
    | true =>
      have hl : live ((r, s) :: l) = live l := by simp [live, hd]
      rw [hl] at h ⊢
      obtain ⟨i1, i2⟩ := ih h
      refine ⟨?_, ?_⟩
      · rw [← i1]
        simp [live, after, hd]
      · rw [← i2]
        simp [hit, hd]
    | false =>
      have hl : live ((r, s) :: l) = (r, s.row) :: live l := by simp [live, hd]
      rw [hl] at h ⊢
      obtain ⟨i1, i2⟩ := ih fun x hx => h x (List.mem_cons_of_mem _ hx)
      have h0 := h (r, s.row) List.mem_cons_self
      simp only at h0
      cases hs : sel (r, s.row) with
      | true =>
        have hk := h0.1 hs
        refine ⟨?_, ?_⟩
        · simp only [List.filter_cons, hs]
          rw [← i1]
          simp [live, after, hd, hk, tomb]
        · simp [List.filter_cons, hs, ← i2, hit, hd, hk]
      | false =>
        have hk : ¬keep p s.row = some true := fun hk => by rw [h0.2 hk] at hs; cases hs
        refine ⟨?_, ?_⟩
        · simp only [List.filter_cons, hs]
          rw [← i1]
          simp [live, after, hd, hk]
        · simp [List.filter_cons, hs, ← i2, hit, hd, hk]

open Classical in
/-- DELETE removes exactly the rows on which its WHERE clause is TRUE, keeps the others with their record ids and their order, and reports how many it removed. Assumed: every page
can be read and rewritten in place, and the rows to remove are committed or the transaction's own. -/
theorem C75_delete_partial {d : Disk} {h : Heap} {l : List (Rid × Slot)} {txn : Nat} {p : Option Expr} (t : Table h l) (hr : Readable d) (hs : Sane d)
    (hc : ∀ x ∈ live l, Clear p x.2)
    (hw : ∀ x ∈ l, x.2.info.deleted = false → Selected p x.2.row → x.2.info.creator = txn ∨ x.2.info.committed = true) :
    ∃ u l', Ran (deleteStep d txn p) ⟨h, h.start, 0⟩ u .done ∧ Table u.heap l' ∧
      live l' = (live l).filter (fun x => decide ¬Selected p x.2) ∧ u.count = ((live l).filter fun x => decide (Selected p x.2)).length := by
  obtain ⟨u, R, h1, h2⟩ := table_total (p := p) t hr (delete_local d txn) fun h' r x hsh hx hx' hd => by
    have hcl := hc (r, x.row) (mem_live.2 ⟨x, hx, hd, rfl⟩)
    obtain ⟨b, hb, hb'⟩ := keep_selected hcl
    refine ⟨b, hb, fun hbt => ?_⟩
    have hg : h'.get d r = some x := by rw [Heap.get_eq (hr _), hx']; simp [hd]
    obtain ⟨h'', hwr⟩ := Heap.write_some (d := d) (s := ⟨⟨txn, false, true⟩, x.row⟩) (hr r.page) hx' fun pg hpg => by
      simp only [Heap.slot?, hpg] at hx'
      exact hs _ _ _ _ hx' rfl
    refine ⟨h'', ?_⟩
    have : ¬(x.info.creator ≠ txn ∧ x.info.committed = false) := by
      rintro ⟨a, b'⟩
      rcases hw (r, x) hx hd (hb'.1 hbt) with h | h
      · exact a h
      · rw [show (r, x).2.info.committed = x.info.committed from rfl, b'] at h
        cases h
    simp only [Heap.delete, hg, if_neg this, hwr]
  obtain ⟨g1, g2⟩ := live_delete l p txn (fun x => decide (Selected p x.2)) fun x hx => by
    rw [decide_eq_true_iff, keep_true (hc x hx)]
  refine ⟨u, _, R, h1, ?_, h2.trans g2⟩
  rw [g1]
  refine List.filter_congr fun x _ => ?_
  simp

/-- However a DELETE ends, every slot is as before, or it held a row on which the WHERE clause is TRUE and is now marked deleted. -/
theorem C75_delete_touches_only_selected {d : Disk} {h : Heap} {l : List (Rid × Slot)} {txn : Nat} {p : Option Expr} (t : Table h l) (hr : Readable d)
    (hc : ∀ x ∈ live l, Clear p x.2) {u : Run} {e : End} (R : Ran (deleteStep d txn p) ⟨h, h.start, 0⟩ u e) :
    ∃ l', Table u.heap l' ∧ l'.map (·.1) = l.map (·.1) ∧ ∀ r s, (r, s) ∈ l → (r, s) ∈ l' ∨ (s.info.deleted = false ∧ Selected p s.row ∧ (r, ⟨⟨txn, false, true⟩, s.row⟩) ∈ l') := by
  obtain ⟨f, h1, h2, _⟩ := table_any t hr (delete_local d txn) R
  refine ⟨_, h1, by simp, fun r s hx => ?_⟩
  rcases h2 _ hx with h | ⟨a, b, h⟩
  · exact .inl (List.mem_map.2 ⟨_, hx, by rw [h]⟩)
  · exact .inr ⟨a, (keep_true (hc _ (mem_live.2 ⟨s, hx, a, rfl⟩))).1 b, List.mem_map.2 ⟨_, hx, by rw [h]; rfl⟩⟩

/-! ## UPDATE -/

/-- The slot after an UPDATE. -/
def updated (txn : Nat) (as : List (Nat × Expr)) (s : Slot) : Slot := match assign s.row as s.row with
  | .ok row' => ⟨⟨txn, false, false⟩, row'⟩
  | .error _ => s

theorem assign_err {old : Row} {as : List (Nat × Expr)} {row : Row} : assign old as row ≠ .error .done := by
  induction as generalizing row with
  | nil => exact nofun
  | cons a as ih =>
    obtain ⟨i, e⟩ := a
    simp only [assign]
    split
    · exact ih
    · exact nofun
    · exact nofun

theorem update_local (d : Disk) (txn : Nat) (as : List (Nat × Expr)) : Local d (fun h r row => match assign row as row with
    | .error e => .error e
    | .ok row' => match h.update d txn r row' with
      | some h' => .ok h'
      | none => .error .err) (updated txn as) where
  ok h r s h' hg hch := by
    split at hch
    · cases hch
    · rename_i row' ha
      split at hch
      · rename_i hw
        cases hch
        simp only [Heap.update, hg] at hw
        split at hw
        · cases hw
        · obtain ⟨a, _, b, c⟩ := Heap.write_ok hw
          exact ⟨a, by rw [b, updated, ha], c⟩
      · cases hch
  err h r row := by
    split
    · rename_i e he
      intro h
      cases h
      exact assign_err he
    · split <;> exact nofun

theorem assign_length {old : Row} {as : List (Nat × Expr)} {row row' : Row} (h : assign old as row = .ok row') : row'.length = row.length := by
  induction as generalizing row with
  | nil => cases h; rfl
  | cons a as ih =>
    obtain ⟨i, e⟩ := a
    simp only [assign] at h
    split at h
    · simpa using ih h
    · cases h
    · cases h

theorem assign_cols {old : Row} {as : List (Nat × Expr)} {row row' : Row} (h : assign old as row = .ok row') (i : Nat) (v : Value) (hv : row[i]? = some v) :
    (∃ pre e post w, as = pre ++ (i, e) :: post ∧ (∀ a ∈ post, a.1 ≠ i) ∧ eval false (rowEnv old) e = .ok w ∧ row'[i]? = some w) ∨
    ((∀ a ∈ as, a.1 ≠ i) ∧ row'[i]? = some v) := by
  induction as generalizing row v with
  | nil => cases h; exact .inr ⟨nofun, hv⟩
  | cons a as ih =>
    obtain ⟨j, e⟩ := a
    simp only [assign] at h
    split at h
    · rename_i w hw
      by_cases hij : j = i
      · subst hij
        obtain ⟨hlt, _⟩ := List.getElem?_eq_some_iff.1 hv
        rcases ih h w (by simp [hlt]) with ⟨pre, e', post, w', rfl, h1, h2, h3⟩ | ⟨h1, h2⟩
        · exact .inl ⟨(j, e) :: pre, e', post, w', rfl, h1, h2, h3⟩
        · exact .inl ⟨[], e, as, w, rfl, h1, hw, h2⟩
      · rcases ih h v (by rw [List.getElem?_set_ne hij]; exact hv) with ⟨pre, e', post, w', rfl, h1, h2, h3⟩ | ⟨h1, h2⟩
        · exact .inl ⟨(j, e) :: pre, e', post, w', rfl, h1, h2, h3⟩
        · exact .inr ⟨fun a ha => by
            rcases List.mem_cons.1 ha with rfl | ha
            · exact hij
            · exact h1 a ha, h2⟩
    · cases h
    · cases h

/-- The assignments of an UPDATE do what they say. -/
theorem assign_assigned {as : List (Nat × Expr)} {row row' : Row} (h : assign row as row = .ok row') : Assigned as row row' :=
  ⟨assign_length h, fun i v hv => assign_cols h i v hv⟩

theorem assign_total {old : Row} {as : List (Nat × Expr)} (h : ∀ a ∈ as, ∃ v, eval false (rowEnv old) a.2 = .ok v) (row : Row) : ∃ row', assign old as row = .ok row' := by
  induction as generalizing row with
  | nil => exact ⟨row, rfl⟩
  | cons a as ih =>
    obtain ⟨v, hv⟩ := h a List.mem_cons_self
    obtain ⟨row', hr⟩ := ih (fun b hb => h b (List.mem_cons_of_mem _ hb)) (row.set a.1 v)
    exact ⟨row', by obtain ⟨i, e⟩ := a; simp only [assign, hv]; exact hr⟩

theorem live_update (l : List (Rid × Slot)) (p : Option Expr) (txn : Nat) (as : List (Nat × Expr)) (sel : Rid × Row → Bool) (h : ∀ x ∈ live l, sel x = true ↔ keep p x.2 = some true)
    (ha : ∀ x ∈ live l, sel x = true → ∃ row', assign x.2 as x.2 = .ok row') :
    live (l.map fun x => (x.1, after p (updated txn as) x.2)) = (live l).map (fun x => if sel x then (x.1, (updated txn as ⟨⟨txn, false, false⟩, x.2⟩).row) else x) ∧
      (l.filter (hit p)).length = ((live l).filter sel).length := by
  induction l with
  | nil => exact ⟨rfl, rfl⟩
  | cons x l ih =>
    obtain ⟨r, s⟩ := x
    cases hd : s.info.deleted with
    | true =>
      have hl : live ((r, s) :: l) = live l := by simp [live, hd]
      rw [hl] at h ha ⊢
      obtain ⟨i1, i2⟩ := ih h ha
      refine ⟨?_, ?_⟩
      · rw [← i1]
        simp [live, after, hd]
      · rw [← i2]
        simp [hit, hd]
    | false =>
      have hl : live ((r, s) :: l) = (r, s.row) :: live l := by simp [live, hd]
      rw [hl] at h ha ⊢
      obtain ⟨i1, i2⟩ := ih (fun x hx => h x (List.mem_cons_of_mem _ hx)) fun x hx => ha x (List.mem_cons_of_mem _ hx)
      have h0 := h (r, s.row) List.mem_cons_self
      simp only at h0
      cases hs : sel (r, s.row) with
      | true =>
        have hk := h0.1 hs
        obtain ⟨row', hr'⟩ := ha _ List.mem_cons_self hs
        simp only at hr'
        refine ⟨?_, ?_⟩
        · simp only [List.map_cons, hs, if_true]
          rw [← i1]
          simp [live, after, hd, hk, updated, hr']
        · simp [List.filter_cons, hs, ← i2, hit, hd, hk]
      | false =>
        have hk : ¬keep p s.row = some true := fun hk => by rw [h0.2 hk] at hs; cases hs
        refine ⟨?_, ?_⟩
        · simp only [List.map_cons, hs]
          rw [← i1]
          simp [live, after, hd, hk]
        · simp [List.filter_cons, hs, ← i2, hit, hd, hk]

open Classical in
/-- UPDATE changes exactly the rows on which its WHERE clause is TRUE: every column takes the value of the last assignment to it, computed on the row as it was before the statement,
and keeps its value if there is none. The other rows stay as they are, all rows keep their record ids and their order, and the number of changed rows is reported. Assumed: every
page can be read, the new rows fit in place, the rows to change are committed, and the assignments can be evaluated. -/
theorem C76_update_partial {d : Disk} {h : Heap} {l : List (Rid × Slot)} {txn : Nat} {p : Option Expr} {as : List (Nat × Expr)} (t : Table h l) (hr : Readable d)
    (hc : ∀ x ∈ live l, Clear p x.2)
    (hw : ∀ x ∈ l, x.2.info.deleted = false → Selected p x.2.row → x.2.info.committed = true)
    (ha : ∀ x ∈ live l, Selected p x.2 → ∀ a ∈ as, ∃ v, eval false (rowEnv x.2) a.2 = .ok v)
    (hf : ∀ x ∈ live l, Selected p x.2 → ∀ row', Assigned as x.2 row' → ∀ slots i info, d.rewrite slots i ⟨info, row'⟩ = true) :
    ∃ (u : Run) (l' : List (Rid × Slot)) (upd : Row → Row), Ran (updateStep d txn as p) ⟨h, h.start, 0⟩ u .done ∧ Table u.heap l' ∧
      live l' = (live l).map (fun x => if Selected p x.2 then (x.1, upd x.2) else x) ∧ (∀ x ∈ live l, Selected p x.2 → Assigned as x.2 (upd x.2)) ∧
      u.count = ((live l).filter fun x => decide (Selected p x.2)).length := by
  obtain ⟨u, R, h1, h2⟩ := table_total (p := p) t hr (update_local d txn as) fun h' r x hsh hx hx' hd => by
    have hm : (r, x.row) ∈ live l := mem_live.2 ⟨x, hx, hd, rfl⟩
    obtain ⟨b, hb, hb'⟩ := keep_selected (hc _ hm)
    refine ⟨b, hb, fun hbt => ?_⟩
    have hsel := hb'.1 hbt
    have hg : h'.get d r = some x := by rw [Heap.get_eq (hr _), hx']; simp [hd]
    obtain ⟨row', hrow⟩ := assign_total (ha _ hm hsel) x.row
    obtain ⟨h'', hwr⟩ := Heap.write_some (d := d) (s := ⟨⟨txn, false, false⟩, row'⟩) (hr r.page) hx' fun pg hpg =>
      hf _ hm hsel row' (assign_assigned hrow) _ _ _
    refine ⟨h'', ?_⟩
    have : ¬(x.info.creator ≠ 0 ∧ x.info.committed = false) := by
      rintro ⟨_, b'⟩
      have := hw (r, x) hx hd hsel
      rw [show (r, x).2.info.committed = x.info.committed from rfl, b'] at this
      cases this
    simp only [hrow, Heap.update, hg, if_neg this, hwr]
  obtain ⟨g1, g2⟩ := live_update l p txn as (fun x => decide (Selected p x.2)) (fun x hx => by rw [decide_eq_true_iff, keep_true (hc x hx)]) fun x hx hsel =>
    assign_total (ha x hx (of_decide_eq_true hsel)) x.2
  refine ⟨u, _, fun row => (updated txn as ⟨⟨txn, false, false⟩, row⟩).row, R, h1, ?_, fun x hx hsel => ?_, h2.trans g2⟩
  · rw [g1]
    refine List.map_congr_left fun x _ => ?_
    simp
  · obtain ⟨row', hrow⟩ := assign_total (ha x hx hsel) x.2
    simp only [updated, hrow]
    exact assign_assigned hrow

/-- However an UPDATE ends, every slot is as before, or it held a row on which the WHERE clause is TRUE and now holds the row after the assignments. -/
theorem C76_update_touches_only_selected {d : Disk} {h : Heap} {l : List (Rid × Slot)} {txn : Nat} {p : Option Expr} {as : List (Nat × Expr)} (t : Table h l) (hr : Readable d)
    (hc : ∀ x ∈ live l, Clear p x.2) {u : Run} {e : End} (R : Ran (updateStep d txn as p) ⟨h, h.start, 0⟩ u e) :
    ∃ l', Table u.heap l' ∧ l'.map (·.1) = l.map (·.1) ∧ ∀ r s, (r, s) ∈ l → (r, s) ∈ l' ∨
      (s.info.deleted = false ∧ Selected p s.row ∧ ∃ row', Assigned as s.row row' ∧ (r, ⟨⟨txn, false, false⟩, row'⟩) ∈ l') := by
  obtain ⟨f, h1, h2, _⟩ := table_any t hr (update_local d txn as) R
  refine ⟨_, h1, by simp, fun r s hx => ?_⟩
  rcases h2 _ hx with h | ⟨a, b, h⟩
  · exact .inl (List.mem_map.2 ⟨_, hx, by rw [h]⟩)
  · simp only [updated] at h
    split at h
    · rename_i row' hrow
      exact .inr ⟨a, (keep_true (hc _ (mem_live.2 ⟨s, hx, a, rfl⟩))).1 b, row', assign_assigned hrow, List.mem_map.2 ⟨_, hx, by rw [h]⟩⟩
    · exact .inl (List.mem_map.2 ⟨_, hx, by rw [h]⟩)

/-! ## Scans -/

theorem real_filterMap {α : Type} {h : Heap} (rs : List Rid) (g : Rid → Option α) (f : Slot → Option α) (hg : ∀ r ∈ rs, g r = (h.slot? r).bind f) :
    (rs.filterMap fun r => (g r).map (r, ·)) = (h.real rs).filterMap fun x => (f x.2).map (x.1, ·) := by
  induction rs with
  | nil => rfl
  | cons r rs ih =>
    have ih := ih fun q hq => hg q (List.mem_cons_of_mem _ hq)
    simp only [Heap.real, List.filterMap_cons, hg r List.mem_cons_self] at ih ⊢
    cases h.slot? r with
    | none => simpa using ih
    | some x =>
      simp only [Option.bind_some, Option.map_some, List.filterMap_cons]
      rw [ih]

theorem live_sublist (l : List (Rid × Slot)) :
    ((l.filterMap fun x => (if x.2.info.deleted then none else some x.2).map (x.1, ·)).map (·.1)).Sublist (l.map (·.1)) := by
  induction l with
  | nil => exact .slnil
  | cons x l ih =>
    cases hd : x.2.info.deleted with
    | true => simpa [List.filterMap_cons, hd] using ih.cons x.1
    | false => simpa [List.filterMap_cons, hd] using ih.cons_cons x.1

/-- A scan gives every row of the table once, in the order of the table, with the record id at which it is stored. Assumed: every page can be read. -/
theorem C77_scan_partial {d : Disk} {h : Heap} {l : List (Rid × Slot)} (t : Table h l) (hr : Readable d) :
    ∃ xs, Yields (h.scan d (h.get d)) h.start xs .done ∧ xs.map (fun x => (x.2.1, x.2.2.row)) = live l ∧ (xs.map (·.2.1)).Nodup ∧ ∀ x ∈ xs, h.get d x.2.1 = some x.2.2 := by
  obtain ⟨rs, hn, v, hl⟩ := table_visits t hr
  obtain ⟨xs, hy, hx⟩ := scan_visits (get := h.get d) v
  have he := real_filterMap (h := h) rs (h.get d) (fun s => if s.info.deleted then none else some s) fun r _ => Heap.get_eq (hr r.page)
  rw [he, hl] at hx
  refine ⟨xs, hy, ?_, ?_, fun x hxm => ?_⟩
  · have : xs.map (fun x => (x.2.1, x.2.2.row)) = (xs.map (·.2)).map fun x => (x.1, x.2.row) := by simp
    rw [this, hx, live, List.map_filterMap]
    congr 1
    funext x
    split <;> rfl
  · have : xs.map (·.2.1) = (xs.map (·.2)).map (·.1) := by simp
    rw [this, hx]
    exact List.Nodup.sublist (live_sublist l) t.nodup
  · have : x.2 ∈ xs.map (·.2) := List.mem_map_of_mem hxm
    rw [hx] at this
    obtain ⟨y, hy, hyx⟩ := List.mem_filterMap.1 this
    have hsl := t.slot hy
    rw [Heap.get_eq (hr _)]
    split at hyx
    · cases hyx
    · rename_i hd
      simp only [Option.map_some, Option.some.injEq] at hyx
      rw [← hyx]
      simp [hsl, hd]

end Verif.Dml
