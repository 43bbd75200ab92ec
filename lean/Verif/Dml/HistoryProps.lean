import Verif.Dml.HistorySpec
import Verif.Dml.Witness

/-!
# C123: statements outside a transaction
-/

namespace Verif.Dml

open Verif.Wire Verif.Bytes Verif.Sql Verif.Exec

/-! ## Metadata -/

theorem setInfo_some {d : Disk} {h : Heap} {r : Rid} {s : Slot} (hr : Readable d) (i : Info) (hs : h.slot? r = some s) :
    ∃ h', h.setInfo d r i = some h' ∧ Shape h h' ∧ h'.slot? r = some ⟨i, s.row⟩ ∧ ∀ q, q ≠ r → h'.slot? q = h.slot? q := by
  simp only [Heap.slot?] at hs
  split at hs
  · rename_i pg hpg
    refine ⟨h.set r.page { pg with slots := pg.slots.set r.slot ⟨i, s.row⟩ }, by simp [Heap.setInfo, Heap.getPage, hr r.page, hpg, hs], ⟨rfl, rfl, fun p => ?_⟩, ?_, fun q hq => ?_⟩
    · simp only [Heap.set]
      split
      · rename_i e
        subst e
        simp [hpg]
      · rfl
    · obtain ⟨hlt, _⟩ := List.getElem?_eq_some_iff.1 hs
      simp [Heap.slot?, Heap.set, hlt]
    · simp only [Heap.slot?, Heap.set]
      by_cases hp : q.page = r.page
      · have : r.slot ≠ q.slot := fun h => hq (by cases q; cases r; simp_all)
        simp only [hp, if_true, hpg]
        rw [List.getElem?_set_ne this]
      · simp [hp]
  · cases hs

theorem setInfo_none {d : Disk} {h : Heap} {r : Rid} (i : Info) (hs : h.slot? r = none) : h.setInfo d r i = none := by
  simp only [Heap.slot?] at hs
  simp only [Heap.setInfo, Heap.getPage]
  split
  · rfl
  · rename_i pg hpg
    split at hpg
    · rw [hpg] at hs
      simp only at hs
      rw [hs]
    · cases hpg

/-- The slot after the commit of `txn`. -/
def stamped (txn : Nat) (order : List Rid) (q : Rid) (s : Slot) : Slot := if q ∈ order ∧ s.info.creator = txn then ⟨{ s.info with committed := true }, s.row⟩ else s

theorem commitRow_spec {d : Disk} (hr : Readable d) (txn : Nat) (h : Heap) (r : Rid) :
    Shape h (commitRow d txn h r) ∧ ∀ q, (commitRow d txn h r).slot? q = (h.slot? q).map (stamped txn [r] q) := by
  have stay : ∀ q, q ≠ r → (h.slot? q).map (stamped txn [r] q) = h.slot? q := fun q hq => by cases h.slot? q <;> simp [stamped, hq]
  cases hs : h.slot? r with
  | none =>
    have : commitRow d txn h r = h := by
      simp only [Heap.slot?] at hs
      simp only [commitRow, Heap.getPage, hr r.page, if_true]
      split
      · rfl
      · rename_i pg hpg
        rw [hpg] at hs
        simp only at hs
        rw [hs]
    rw [this]
    refine ⟨.refl _, fun q => ?_⟩
    by_cases hq : q = r
    · subst hq; rw [hs]; rfl
    · rw [stay q hq]
  | some s =>
    have heq : commitRow d txn h r = if s.info.creator = txn then (h.setInfo d r { s.info with committed := true }).getD h else h := by
      simp only [Heap.slot?] at hs
      simp only [commitRow, Heap.getPage, hr r.page, if_true]
      split at hs
      · rename_i pg hpg
        rw [hpg]
        simp only [hs]
      · cases hs
    rw [heq]
    split
    · rename_i hc
      obtain ⟨h', e1, e2, e3, e4⟩ := setInfo_some hr { s.info with committed := true } hs
      rw [e1]
      refine ⟨e2, fun q => ?_⟩
      by_cases hq : q = r
      · subst hq
        rw [hs]
        simp only [Option.getD_some, e3, Option.map_some, stamped, List.mem_singleton, hc, and_self, if_true]
      · rw [stay q hq]
        exact e4 q hq
    · rename_i hc
      refine ⟨.refl _, fun q => ?_⟩
      by_cases hq : q = r
      · subst hq
        rw [hs]
        simp [stamped, hc]
      · rw [stay q hq]

theorem commit_spec {d : Disk} (hr : Readable d) (txn : Nat) (order : List Rid) (h : Heap) :
    Shape h (order.foldl (commitRow d txn) h) ∧ ∀ q, (order.foldl (commitRow d txn) h).slot? q = (h.slot? q).map (stamped txn order q) := by
  induction order generalizing h with
  | nil => exact ⟨.refl _, fun q => by simp only [List.foldl_nil]; cases h.slot? q <;> simp [stamped]⟩
  | cons r order ih =>
    obtain ⟨a1, a2⟩ := commitRow_spec hr txn h r
    obtain ⟨b1, b2⟩ := ih (commitRow d txn h r)
    refine ⟨a1.trans b1, fun q => ?_⟩
    rw [List.foldl_cons, b2, a2]
    cases h.slot? q with
    | none => rfl
    | some s =>
      simp only [Option.map_some, Option.some.injEq, stamped, List.mem_singleton, List.mem_cons]
      by_cases h1 : q = r <;> by_cases h2 : q ∈ order <;> by_cases h3 : s.info.creator = txn <;> simp [h1, h2, h3]
      all_goals (subst h1; simp [h2])

/-- The slot after the abort of `txn`. -/
def rolled (txn : Nat) (tr : Trace) (q : Rid) (s : Slot) : Slot := match tr.undo q with
  | some (row, c) => ⟨⟨txn, c, false⟩, row⟩
  | none => ⟨⟨txn, false, true⟩, s.row⟩

theorem rolled_rolled (txn : Nat) (tr : Trace) (q : Rid) (s : Slot) : rolled txn tr q (rolled txn tr q s) = rolled txn tr q s := by
  unfold rolled
  cases tr.undo q <;> rfl

theorem abortRow_spec {d : Disk} (hr : Readable d) {txn : Nat} {tr : Trace} {x : Heap × Bool} {r : Rid} (h : (abortRow d txn tr x r).2 = true) :
    x.2 = true ∧ Shape x.1 (abortRow d txn tr x r).1 ∧ (∀ q, q ≠ r → (abortRow d txn tr x r).1.slot? q = x.1.slot? q) ∧
      ∀ s, x.1.slot? r = some s → (abortRow d txn tr x r).1.slot? r = some (rolled txn tr r s) := by
  cases hs : x.1.slot? r with
  | none =>
    exfalso
    simp only [abortRow, setInfo_none _ hs] at h
    cases hu : tr.undo r <;> rw [hu] at h <;> cases h
  | some s =>
    cases hu : tr.undo r with
    | none =>
      obtain ⟨h', e1, e2, e3, e4⟩ := setInfo_some hr ⟨txn, false, true⟩ hs
      have heq : abortRow d txn tr x r = (h', x.2) := by simp only [abortRow, hu, e1]
      rw [heq] at h ⊢
      exact ⟨h, e2, e4, fun s' hs' => by cases hs'; simp only [rolled, hu]; exact e3⟩
    | some rc =>
      obtain ⟨row, c⟩ := rc
      obtain ⟨h', e1, e2, e3, e4⟩ := setInfo_some hr ⟨txn, c, false⟩ hs
      cases hw : h'.write d r ⟨⟨txn, c, false⟩, row⟩ with
      | none =>
        have heq : abortRow d txn tr x r = (h', false) := by simp only [abortRow, hu, e1, hw]
        rw [heq] at h
        cases h
      | some h'' =>
        have heq : abortRow d txn tr x r = (h'', x.2) := by simp only [abortRow, hu, e1, hw]
        rw [heq] at h ⊢
        obtain ⟨w1, _, w3, w4⟩ := Heap.write_ok hw
        exact ⟨h, e2.trans w1, fun q hq => (w4 q hq).trans (e4 q hq), fun s' hs' => by cases hs'; simp only [rolled, hu]; exact w3⟩

theorem abort_spec {d : Disk} (hr : Readable d) {txn : Nat} {tr : Trace} {order : List Rid} {x : Heap × Bool} (h : (order.foldl (abortRow d txn tr) x).2 = true) :
    x.2 = true ∧ Shape x.1 (order.foldl (abortRow d txn tr) x).1 ∧ (∀ q, q ∉ order → (order.foldl (abortRow d txn tr) x).1.slot? q = x.1.slot? q) ∧
      ∀ q ∈ order, ∀ s, x.1.slot? q = some s → (order.foldl (abortRow d txn tr) x).1.slot? q = some (rolled txn tr q s) := by
  induction order generalizing x with
  | nil => exact ⟨h, .refl _, fun _ _ => rfl, nofun⟩
  | cons r order ih =>
    rw [List.foldl_cons] at h ⊢
    obtain ⟨b1, b2, b3, b4⟩ := ih h
    obtain ⟨a1, a2, a3, a4⟩ := abortRow_spec hr b1
    refine ⟨a1, a2.trans b2, fun q hq => ?_, fun q hq s hs => ?_⟩
    · rw [List.mem_cons, not_or] at hq
      rw [b3 q hq.2, a3 q hq.1]
    · have hstep : ∃ s', (abortRow d txn tr x r).1.slot? q = some s' ∧ (s' = s ∧ q ≠ r ∨ s' = rolled txn tr q s) := by
        by_cases hqr : q = r
        · subst hqr
          exact ⟨_, a4 s hs, .inr rfl⟩
        · exact ⟨s, (a3 q hqr).trans hs, .inl ⟨rfl, hqr⟩⟩
      obtain ⟨s', e1, e2⟩ := hstep
      by_cases hin : q ∈ order
      · rw [b4 q hin s' e1]
        rcases e2 with ⟨rfl, _⟩ | rfl
        · rfl
        · rw [rolled_rolled]
      · rw [b3 q hin, e1]
        rcases e2 with ⟨rfl, hne⟩ | rfl
        · exact absurd (List.mem_cons.1 hq) (by simp [hne, hin])
        · rfl

/-! ## The notes of a statement -/

theorem undo_eq {tr : Trace} {r : Rid} {v : Option (Row × Bool)} (h : ∀ w ∈ tr, w.1 = r → w.2 = v) (he : ∃ w ∈ tr, w.1 = r) : tr.undo r = v := by
  have key : ∀ t : Trace, (∀ w ∈ t, w.1 = r → w.2 = v) → (t.findSome? fun w => if w.1 = r then w.2 else none) = none ∨ (t.findSome? fun w => if w.1 = r then w.2 else none) = v := by
    intro t
    induction t with
    | nil => exact fun _ => .inl rfl
    | cons w t ih =>
      intro ht
      have ih := ih fun w' hw' => ht w' (List.mem_cons_of_mem _ hw')
      by_cases hw : w.1 = r
      · have := ht w List.mem_cons_self hw
        simp only [List.findSome?_cons, hw, if_true, this]
        cases v with
        | none => rcases ih with ih | ih <;> exact .inl ih
        | some _ => exact .inr rfl
      · simp only [List.findSome?_cons, hw, if_false]
        exact ih
  cases v with
  | none => rcases key tr.reverse (fun w hw => h w (List.mem_reverse.1 hw)) with h | h <;> exact h
  | some rc =>
    rcases key tr.reverse (fun w hw => h w (List.mem_reverse.1 hw)) with hn | hs
    · obtain ⟨w, hw, hwr⟩ := he
      have := List.findSome?_eq_none_iff.1 hn w (List.mem_reverse.2 hw)
      rw [if_pos hwr, h w hw hwr] at this
      cases this
    · exact hs

theorem ran_plain {d : Disk} {p : Option Expr} {change : Heap → Rid → Row → Except End Heap} {x y : Run × Trace} {e : End} (R : Ran (changeStepL d p change) x y e) :
    Ran (changeStep d p change) x.1 y.1 e := by
  induction R with
  | @stop s e h =>
    refine .stop ?_
    simp only [changeStepL] at h
    simp only [changeStep]
    cases hl : s.1.heap.look d (s.1.heap.get d) s.1.pos with
    | ended => rw [hl] at h; cases h; rfl
    | moved q => rw [hl] at h; cases h
    | found c r slot q =>
      rw [hl] at h
      simp only at h ⊢
      cases hk : keep p slot.row with
      | none => rw [hk] at h; cases h; rfl
      | some b =>
        rw [hk] at h
        cases b with
        | false => cases h
        | true =>
          simp only at h ⊢
          cases hc : change s.1.heap r slot.row with
          | ok h' => rw [hc] at h; cases h
          | error e' => rw [hc] at h; cases h; rfl
  | @step s s' t e h _ ih =>
    refine .step (s' := s'.1) ?_ ih
    simp only [changeStepL] at h
    simp only [changeStep]
    cases hl : s.1.heap.look d (s.1.heap.get d) s.1.pos with
    | ended => rw [hl] at h; cases h
    | moved q => rw [hl] at h; cases h; rfl
    | found c r slot q =>
      rw [hl] at h
      simp only at h ⊢
      cases hk : keep p slot.row with
      | none => rw [hk] at h; cases h
      | some b =>
        rw [hk] at h
        cases b with
        | false => cases h; rfl
        | true =>
          simp only at h ⊢
          cases hc : change s.1.heap r slot.row with
          | ok h' => rw [hc] at h; cases h; rfl
          | error e' => rw [hc] at h; cases h

/-- What is noted: the rows that were changed, as they were. -/
theorem change_log {d : Disk} {p : Option Expr} {change : Heap → Rid → Row → Except End Heap} {new : Slot → Slot} (hr : Readable d) (hc : Local d change new) {x y : Run × Trace} {e : End}
    (R : Ran (changeStepL d p change) x y e) {rs : List Rid} (hn : rs.Nodup) (v : Visits d x.1.heap x.1.pos rs) :
    ∃ ws, y.2 = x.2 ++ ws ∧ Shape x.1.heap y.1.heap ∧
      (∀ w ∈ ws, w.1 ∈ rs ∧ ∃ s, x.1.heap.slot? w.1 = some s ∧ s.info.deleted = false ∧ keep p s.row = some true ∧ w.2 = some (s.row, s.info.committed) ∧
        y.1.heap.slot? w.1 = some (new s) ∧ ∃ h h', h.get d w.1 = some s ∧ change h w.1 s.row = .ok h') ∧
      (∀ q, (∀ w ∈ ws, w.1 ≠ q) → y.1.heap.slot? q = x.1.heap.slot? q) ∧
      (e = .done → ∀ r ∈ rs, ∀ s, x.1.heap.slot? r = some s → s.info.deleted = false → keep p s.row = some true → ∃ w ∈ ws, w.1 = r) ∧
      (e = .err → ∃ h r s, r ∈ rs ∧ x.1.heap.slot? r = some s ∧ Shape x.1.heap h ∧ h.get d r = some s ∧ keep p s.row = some true ∧ change h r s.row = .error .err) := by
  induction R generalizing rs with
  | @stop s e h1 =>
    refine ⟨[], by simp, .refl _, nofun, fun _ _ => rfl, fun he => ?_, fun he => ?_⟩
    · subst he
      rcases look_cases (get := s.1.heap.get d) v with ⟨h2, rfl⟩ | ⟨q, h2, _⟩ | ⟨c, r, rs', rfl, ⟨q, _, h2, _⟩ | ⟨a, q, _, h2, _⟩⟩
      · exact nofun
      · simp only [changeStepL, h2] at h1; cases h1
      · simp only [changeStepL, h2] at h1; cases h1
      · simp only [changeStepL, h2] at h1
        split at h1
        · cases h1
        · cases h1
        · split at h1
          · cases h1
          · rename_i e' hch
            cases h1
            exact absurd hch (hc.err _ _ _)
    · subst he
      rcases look_cases (get := s.1.heap.get d) v with ⟨h2, rfl⟩ | ⟨q, h2, _⟩ | ⟨c, r, rs', rfl, ⟨q, _, h2, _⟩ | ⟨a, q, hg, h2, _⟩⟩
      · simp only [changeStepL, h2] at h1; cases h1
      · simp only [changeStepL, h2] at h1; cases h1
      · simp only [changeStepL, h2] at h1; cases h1
      · simp only [changeStepL, h2] at h1
        split at h1
        · cases h1
        · cases h1
        · rename_i hk
          split at h1
          · cases h1
          · rename_i e' hch
            cases h1
            refine ⟨s.1.heap, r, a, List.mem_cons_self, ?_, .refl _, hg, hk, hch⟩
            rw [Heap.get_eq (hr r.page)] at hg
            cases hx : s.1.heap.slot? r with
            | none => rw [hx] at hg; cases hg
            | some y =>
              rw [hx] at hg
              simp only [Option.bind_some] at hg
              split at hg
              · cases hg
              · cases hg; rfl
  | @step s s' t e h1 _ ih =>
    rcases look_cases (get := s.1.heap.get d) v with ⟨h2, rfl⟩ | ⟨q, h2, v2⟩ | ⟨c, r, rs', rfl, ⟨q, hg, h2, v2⟩ | ⟨a, q, hg, h2, v2⟩⟩
    · simp only [changeStepL, h2] at h1; cases h1
    · simp only [changeStepL, h2] at h1; cases h1
      exact ih hn v2
    · simp only [changeStepL, h2] at h1; cases h1
      obtain ⟨n1, n2⟩ := List.nodup_cons.1 hn
      obtain ⟨ws, i1, i2, i3, i4, i5, i6⟩ := ih n2 v2
      refine ⟨ws, i1, i2, fun w hw => ?_, i4, fun he r' hr' x hx hd hk => ?_, fun he => ?_⟩
      · obtain ⟨a, b⟩ := i3 w hw
        exact ⟨List.mem_cons_of_mem _ a, b⟩
      · rcases List.mem_cons.1 hr' with rfl | hr'
        · rw [Heap.get_eq (hr _), hx] at hg
          simp [hd] at hg
        · exact i5 he r' hr' x hx hd hk
      · obtain ⟨h, r', x, a, b⟩ := i6 he
        exact ⟨h, r', x, List.mem_cons_of_mem _ a, b⟩
    · obtain ⟨n1, n2⟩ := List.nodup_cons.1 hn
      have hsl : s.1.heap.slot? r = some a ∧ a.info.deleted = false := by
        rw [Heap.get_eq (hr r.page)] at hg
        cases hx : s.1.heap.slot? r with
        | none => rw [hx] at hg; cases hg
        | some x =>
          rw [hx] at hg
          simp only [Option.bind_some] at hg
          split at hg
          · cases hg
          · cases hg
            rename_i h
            exact ⟨rfl, by simpa using h⟩
      simp only [changeStepL, h2] at h1
      split at h1
      · cases h1
      · rename_i hk
        cases h1
        obtain ⟨ws, i1, i2, i3, i4, i5, i6⟩ := ih n2 v2
        refine ⟨ws, i1, i2, fun w hw => ?_, i4, fun he r' hr' x hx hd hk' => ?_, fun he => ?_⟩
        · obtain ⟨a, b⟩ := i3 w hw
          exact ⟨List.mem_cons_of_mem _ a, b⟩
        · rcases List.mem_cons.1 hr' with rfl | hr'
          · rw [hsl.1] at hx
            cases hx
            rw [hk] at hk'
            cases hk'
          · exact i5 he r' hr' x hx hd hk'
        · obtain ⟨h, r', x, a, b⟩ := i6 he
          exact ⟨h, r', x, List.mem_cons_of_mem _ a, b⟩
      · rename_i hk
        split at h1
        · rename_i h' hch
          cases h1
          obtain ⟨c1, c2, c3⟩ := hc.ok _ _ _ _ hg hch
          obtain ⟨ws, i1, i2, i3, i4, i5, i6⟩ := ih n2 (v2.shape c1)
          have hoth : ∀ q' ∈ rs', h'.slot? q' = s.1.heap.slot? q' := fun q' hq' => c3 q' fun h => n1 (h ▸ hq')
          have hnot : ∀ w ∈ ws, w.1 ≠ r := fun w hw h => n1 (h ▸ (i3 w hw).1)
          refine ⟨(r, some (a.row, a.info.committed)) :: ws, by rw [i1]; simp, c1.trans i2, fun w hw => ?_, fun q' hq' => ?_, fun he r' hr' x hx hd hk' => ?_, fun he => ?_⟩
          · rcases List.mem_cons.1 hw with rfl | hw
            · exact ⟨List.mem_cons_self, a, hsl.1, hsl.2, hk, rfl, (i4 _ hnot).trans c2, s.1.heap, h', hg, hch⟩
            · obtain ⟨g1, x, g2, g3⟩ := i3 w hw
              exact ⟨List.mem_cons_of_mem _ g1, x, (hoth _ g1).symm.trans g2, g3⟩
          · rw [i4 q' fun w hw => hq' w (List.mem_cons_of_mem _ hw)]
            exact c3 q' fun h => hq' _ List.mem_cons_self h.symm
          · rcases List.mem_cons.1 hr' with rfl | hr'
            · exact ⟨_, List.mem_cons_self, rfl⟩
            · obtain ⟨w, g1, g2⟩ := i5 he r' hr' x ((hoth r' hr').trans hx) hd hk'
              exact ⟨w, List.mem_cons_of_mem _ g1, g2⟩
          · obtain ⟨h, r', x, g1, g2, g3, g4⟩ := i6 he
            exact ⟨h, r', x, List.mem_cons_of_mem _ g1, (hoth r' g1).symm.trans g2, c1.trans g3, g4⟩
        · cases h1

theorem insertRowsL_plain {d : Disk} {ext : Value → Nat → Option Value} {seen : Seen} {txn : Nat} {names : List String} {cols : List Column} (rows : List Row) (s : Ins) (tr : Trace) :
    ((insertRowsL d ext seen txn names cols rows s tr).1.1, (insertRowsL d ext seen txn names cols rows s tr).2) = insertRows d ext seen txn names cols rows s := by
  induction rows generalizing s tr with
  | nil => rfl
  | cons row rows ih =>
    simp only [insertRowsL, insertRows]
    by_cases hk : fkOk (seen s.heap) cols (mapRow ext names cols row) = true
    · rw [if_pos hk, if_pos hk]
      cases hx : expand cols (mapRow ext names cols row) s.next with
      | none => rfl
      | some x =>
        simp only
        cases hp : s.heap.insert d ⟨⟨txn, false, false⟩, x.1⟩ with
        | ok h r => exact ih _ _
        | err h => rfl
    · rw [if_neg hk, if_neg hk]

theorem insertRowsL_log {d : Disk} {ext : Value → Nat → Option Value} {seen : Seen} {txn : Nat} {names : List String} {cols : List Column} (hf : Fresh d) {rows : List Row} {s : Ins} {tr : Trace}
    {l : List (Rid × Slot)} (t : Table s.heap l) : ∃ added, Table (insertRowsL d ext seen txn names cols rows s tr).1.1.heap (l ++ added) ∧
      (insertRowsL d ext seen txn names cols rows s tr).1.2 = tr ++ added.map fun x => (x.1, none) := by
  induction rows generalizing s tr l with
  | nil => exact ⟨[], by simpa [insertRowsL] using t, by simp [insertRowsL]⟩
  | cons row rows ih =>
    simp only [insertRowsL]
    split
    · split
      · exact ⟨[], by simpa using t, by simp⟩
      · rename_i row' n hx
        have hins := t.insert hf ⟨⟨txn, false, false⟩, row'⟩
        cases hp : s.heap.insert d ⟨⟨txn, false, false⟩, row'⟩ with
        | err h' =>
          rw [hp] at hins
          exact ⟨[], by simpa using hins, by simp⟩
        | ok h' r =>
          rw [hp] at hins
          obtain ⟨added, g1, g2⟩ := ih (s := ⟨h', n, s.count + 1⟩) (tr := tr ++ [(r, none)]) hins
          exact ⟨(r, ⟨⟨txn, false, false⟩, row'⟩) :: added, by simpa using g1, by rw [g2]; simp⟩
    · exact ⟨[], by simpa using t, by simp⟩

theorem insertStmtL_plain {d : Disk} {ext : Value → Nat → Option Value} {seen : Seen} {txn : Nat} {cols : List Column} {into : List String} {src : Source} {s s' : Ins} {tr : Trace} {e : End}
    (h : insertStmtL d ext seen txn cols into src s = ((s', tr), e)) : insertStmt d ext seen txn cols into src s = (s', e) := by
  simp only [insertStmtL] at h
  simp only [insertStmt]
  cases hs : sourceRows ext cols into src with
  | error e => rw [hs] at h; cases h; rfl
  | ok x =>
    obtain ⟨names, rows⟩ := x
    rw [hs] at h
    simp only at h ⊢
    have := insertRowsL_plain (d := d) (ext := ext) (seen := seen) (txn := txn) (names := names) (cols := cols) rows s []
    rw [h] at this
    exact this.symm

theorem insertStmtL_log {d : Disk} {ext : Value → Nat → Option Value} {seen : Seen} {txn : Nat} {cols : List Column} {into : List String} {src : Source} {s s' : Ins} {tr : Trace} {e : End}
    {l : List (Rid × Slot)} (t : Table s.heap l) (hf : Fresh d) (h : insertStmtL d ext seen txn cols into src s = ((s', tr), e)) :
    ∃ added, Table s'.heap (l ++ added) ∧ tr = added.map fun x => (x.1, none) := by
  simp only [insertStmtL] at h
  split at h
  · cases h
    exact ⟨[], by simpa using t, rfl⟩
  · rename_i names rows _
    obtain ⟨added, g1, g2⟩ := insertRowsL_log (d := d) (ext := ext) (seen := seen) (txn := txn) (names := names) (cols := cols) hf (rows := rows) (tr := []) t
    rw [h] at g1 g2
    exact ⟨added, g1, by simpa using g2⟩

/-! ## One statement -/

/-- The rows of the table are `rows`, and all are committed. -/
def Holds (h : Heap) (rows : List Row) : Prop := ∃ l, Table h l ∧ (live l).map (·.2) = rows ∧ ∀ x ∈ l, x.2.info.deleted = false → x.2.info.committed = true

theorem holds_new (first : Option Nat) : Holds (.new first) [] := by
  cases first with
  | none => exact ⟨[], ⟨[], .nil, .nil, rfl, rfl⟩, rfl, nofun⟩
  | some p => exact ⟨[], ⟨[p], .cons (if_pos rfl) .nil, by simp, rfl, by simp [slotsOf, Heap.new, slotsAt]⟩, rfl, nofun⟩

theorem live_congr {l : List (Rid × Slot)} {f : Rid → Slot → Slot} (h : ∀ x ∈ l, (f x.1 x.2).info.deleted = x.2.info.deleted ∧ (x.2.info.deleted = false → (f x.1 x.2).row = x.2.row)) :
    live (l.map fun x => (x.1, f x.1 x.2)) = live l := by
  induction l with
  | nil => rfl
  | cons x l ih =>
    have ih := ih fun y hy => h y (List.mem_cons_of_mem _ hy)
    obtain ⟨h1, h2⟩ := h x List.mem_cons_self
    simp only [live, List.map_cons, List.filterMap_cons, h1] at ih ⊢
    rw [ih]
    cases hd : x.2.info.deleted with
    | true => simp
    | false => simp [h2 hd]

theorem live_append (a b : List (Rid × Slot)) : live (a ++ b) = live a ++ live b := by simp [live]

theorem live_gone {l : List (Rid × Slot)} (h : ∀ x ∈ l, x.2.info.deleted = true) : live l = [] := by
  rw [live, List.filterMap_eq_nil_iff]
  intro x hx
  simp [h x hx]

/-- A commit keeps the rows and commits those written. -/
theorem commit_holds {d : Disk} (hr : Readable d) {txn : Nat} {h : Heap} {l : List (Rid × Slot)} (t : Table h l) {order : List Rid}
    (hw : ∀ x ∈ l, x.2.info.deleted = false → x.2.info.committed = true ∨ (x.1 ∈ order ∧ x.2.info.creator = txn)) :
    Holds (order.foldl (commitRow d txn) h) ((live l).map (·.2)) := by
  obtain ⟨c1, c2⟩ := commit_spec hr txn order h
  refine ⟨_, t.reshape c1 (stamped txn order) fun x hx => by rw [c2, t.slot hx]; rfl, ?_, fun y hy => ?_⟩
  · rw [live_congr]
    intro x _
    unfold stamped
    split <;> exact ⟨rfl, fun _ => rfl⟩
  · obtain ⟨x, hx, rfl⟩ := List.mem_map.1 hy
    simp only [stamped]
    split
    · intro _; rfl
    · rename_i hn
      intro hd
      rcases hw x hx hd with h | h
      · exact h
      · exact absurd h hn

/-- A complete rollback of a DELETE or an UPDATE. -/
theorem abort_change {d : Disk} {p : Option Expr} {change : Heap → Rid → Row → Except End Heap} {new : Slot → Slot} (hr : Readable d) (hc : Local d change new) {txn : Nat} {h : Heap}
    {l : List (Rid × Slot)} (t : Table h l) (hcm : ∀ x ∈ l, x.2.info.deleted = false → x.2.info.committed = true) {u : Run} {tr : Trace} {e : End} {order : List Rid}
    (R : Ran (changeStepL d p change) (⟨h, h.start, 0⟩, []) (u, tr) e) (ho : Order tr order) (hok : (order.foldl (abortRow d txn tr) (u.heap, true)).2 = true) :
    Holds (order.foldl (abortRow d txn tr) (u.heap, true)).1 ((live l).map (·.2)) := by
  obtain ⟨rs, hn, v, hl⟩ := table_visits t hr
  obtain ⟨ws, w1, w2, w3, w4, _, _⟩ := change_log hr hc R hn v
  simp only [List.nil_append] at w1
  subst w1
  obtain ⟨_, a2, a3, a4⟩ := abort_spec hr hok
  have key : ∀ x ∈ l, ∃ s, (order.foldl (abortRow d txn tr) (u.heap, true)).1.slot? x.1 = some s ∧
      (s = x.2 ∨ (x.2.info.deleted = false ∧ s = ⟨⟨txn, true, false⟩, x.2.row⟩)) := by
    intro x hx
    have hsl := t.slot hx
    by_cases hin : x.1 ∈ order
    · obtain ⟨w, hw, hwx⟩ := (ho.2 x.1).1 hin
      obtain ⟨_, s, g1, g2, _, g4, g5, _⟩ := w3 w hw
      rw [hwx] at g1 g5
      simp only at g1
      rw [hsl] at g1
      cases g1
      have hu : tr.undo x.1 = some (x.2.row, x.2.info.committed) := by
        refine undo_eq (fun w' hw' hwx' => ?_) ⟨w, hw, hwx⟩
        obtain ⟨_, s', g1', _, _, g4', _⟩ := w3 w' hw'
        rw [hwx'] at g1'
        simp only at g1'
        rw [hsl] at g1'
        cases g1'
        exact g4'
      refine ⟨_, a4 x.1 hin _ g5, .inr ⟨g2, ?_⟩⟩
      simp only [rolled, hu, hcm x hx g2]
    · refine ⟨x.2, ?_, .inl rfl⟩
      rw [a3 x.1 hin]
      exact (w4 x.1 fun w hw h => hin ((ho.2 x.1).2 ⟨w, hw, h⟩)).trans hsl
  have t' := t.reshape (w2.trans a2) (fun r x => ((order.foldl (abortRow d txn tr) (u.heap, true)).1.slot? r).getD x) fun x hx => by
    obtain ⟨s, g1, _⟩ := key x hx
    simp [g1]
  refine ⟨_, t', ?_, fun y hy => ?_⟩
  · rw [live_congr (f := fun r x => ((order.foldl (abortRow d txn tr) (u.heap, true)).1.slot? r).getD x)]
    intro x hx
    obtain ⟨s, g1, g2⟩ := key x hx
    rcases g2 with rfl | ⟨g2, rfl⟩
    · simp [g1]
    · simp [g1, g2]
  · obtain ⟨x, hx, rfl⟩ := List.mem_map.1 hy
    obtain ⟨s, g1, g2⟩ := key x hx
    rcases g2 with rfl | ⟨g2, rfl⟩
    · simpa [g1] using hcm x hx
    · simp [g1]

/-- A complete rollback of an INSERT. -/
theorem abort_insert {d : Disk} (hr : Readable d) {txn : Nat} {h : Heap} {l added : List (Rid × Slot)} (t : Table h (l ++ added))
    (hcm : ∀ x ∈ l, x.2.info.deleted = false → x.2.info.committed = true) {order : List Rid} (ho : Order (added.map fun x => (x.1, none)) order)
    (hok : (order.foldl (abortRow d txn (added.map fun x => (x.1, none))) (h, true)).2 = true) :
    Holds (order.foldl (abortRow d txn (added.map fun x => (x.1, none))) (h, true)).1 ((live l).map (·.2)) := by
  obtain ⟨_, a2, a3, a4⟩ := abort_spec hr hok
  have hmem : ∀ r, r ∈ order ↔ ∃ x ∈ added, x.1 = r := fun r => by
    rw [ho.2 r]
    constructor
    · rintro ⟨w, hw, h⟩
      obtain ⟨x, hx, rfl⟩ := List.mem_map.1 hw
      exact ⟨x, hx, h⟩
    · rintro ⟨x, hx, h⟩
      exact ⟨_, List.mem_map.2 ⟨x, hx, rfl⟩, h⟩
  have hdisj : ∀ x ∈ l, x.1 ∉ order := fun x hx hin => by
    obtain ⟨y, hy, e⟩ := (hmem x.1).1 hin
    have := t.nodup
    rw [List.map_append, List.nodup_append] at this
    exact this.2.2 _ (List.mem_map_of_mem hx) _ (List.mem_map_of_mem hy) e.symm
  have hundo : ∀ r ∈ order, Trace.undo (added.map fun x => (x.1, none)) r = none := fun r hin => by
    refine undo_eq (fun w hw _ => ?_) ((ho.2 r).1 hin)
    obtain ⟨x, _, rfl⟩ := List.mem_map.1 hw
    rfl
  have t' := t.reshape a2 (fun r x => if r ∈ order then ⟨⟨txn, false, true⟩, x.row⟩ else x) fun x hx => by
    by_cases hin : x.1 ∈ order
    · rw [a4 x.1 hin _ (t.slot hx), if_pos hin]
      simp only [rolled, hundo x.1 hin]
    · rw [a3 x.1 hin, if_neg hin]
      exact t.slot hx
  have hgone : ∀ x ∈ added, x.1 ∈ order := fun x hx => (hmem x.1).2 ⟨x, hx, rfl⟩
  refine ⟨_, t', ?_, fun y hy => ?_⟩
  · rw [List.map_append, live_append, live_congr (f := fun r x => if r ∈ order then ⟨⟨txn, false, true⟩, x.row⟩ else x) (l := l), live_gone (l := added.map _), List.append_nil]
    · intro y hy
      obtain ⟨x, hx, rfl⟩ := List.mem_map.1 hy
      simp [hgone x hx]
    · intro x hx
      simp [hdisj x hx]
  · obtain ⟨x, hx, rfl⟩ := List.mem_map.1 hy
    rcases List.mem_append.1 hx with hx | hx
    · simp only [hdisj x hx, if_false]
      exact hcm x hx
    · simp [hgone x hx]

theorem deleteRow_local (d : Disk) (txn : Nat) : Local d (deleteRow d txn) (tomb txn) := delete_local d txn

theorem updateRow_local (d : Disk) (txn : Nat) (as : List (Nat × Expr)) : Local d (updateRow d txn as) (updated txn as) := update_local d txn as

theorem map_filter_rows (l : List (Rid × Row)) (q : Row → Bool) : (l.filter fun x => q x.2).map (·.2) = (l.map (·.2)).filter q := by
  rw [List.filter_map]; rfl

theorem length_filter_rows (l : List (Rid × Row)) (q : Row → Bool) : (l.filter fun x => q x.2).length = ((l.map (·.2)).filter q).length := by
  rw [← map_filter_rows, List.length_map]

/-- A slot whose record id is not noted is as it was. -/
theorem change_same {d : Disk} {p : Option Expr} {change : Heap → Rid → Row → Except End Heap} {new : Slot → Slot} (hr : Readable d) (hc : Local d change new) {h : Heap}
    {l l' : List (Rid × Slot)} (t : Table h l) {u : Run} {tr : Trace} {e : End} (R : Ran (changeStepL d p change) (⟨h, h.start, 0⟩, []) (u, tr) e) (t' : Table u.heap l')
    {y : Rid × Slot} (hy : y ∈ l') (hn : ∀ w ∈ tr, w.1 ≠ y.1) : y ∈ l := by
  obtain ⟨rs, hnd, v, hl⟩ := table_visits t hr
  obtain ⟨ws, w1, _, _, w4, _, _⟩ := change_log hr hc R hnd v
  simp only [List.nil_append] at w1
  subst w1
  have hsame : l'.map (·.1) = l.map (·.1) := by
    obtain ⟨f, h1, _⟩ := table_any t hr hc (ran_plain R)
    rw [t'.det h1]
    simp
  have : y.1 ∈ l.map (·.1) := hsame ▸ List.mem_map_of_mem hy
  obtain ⟨z, hz, e⟩ := List.mem_map.1 this
  have h1 := w4 y.1 hn
  simp only at h1
  rw [t'.slot hy, ← e, t.slot hz] at h1
  cases y
  cases z
  simp only at e h1
  cases h1
  rw [← e]
  exact hz

open Classical in
/-- One statement outside a transaction, on a table all of whose rows are committed. -/
theorem step_effect {d : Disk} {ext : Value → Nat → Option Value} {seen : Seen} {cols : List Column} (hr : Readable d) (hs : Sane d) (hf : Fresh d) (hx : TypedExt ext) (hd : Distinct cols)
    {db db' : Db} {x : Step} {rows : List Row} (S : Db.Step d ext seen cols db x db') (hreg : db.registered = true) (hcomp : x.complete = true) (hconst : x.stmt.Const)
    (hclear : ∀ row ∈ rows, Clear x.stmt.filter row) (hh : Holds db.heap rows) :
    ∃ rows', Effect d ext cols x.stmt rows x.reply rows' ∧ Holds db'.heap rows' ∧ db'.registered = true := by
  obtain ⟨l, t, rfl, hcm⟩ := hh
  cases S with
  | @ok s i tr order hrun ho =>
    simp only [hreg, if_true]
    cases hrun with
    | @insert into vals _ _ _ h =>
      obtain ⟨added, g1, g2⟩ := insertStmtL_log (s := ⟨db.heap, db.next, 0⟩) t hf h
      obtain ⟨added', k1, k2, k3, k4⟩ := C78_insert_values_partial (s := ⟨db.heap, db.next, 0⟩) t hf hx hd hconst (insertStmtL_plain h)
      have e : added' = added := List.append_cancel_left (k1.det g1)
      subst e
      have hnew : ∀ y ∈ added', y.2.info = ⟨db.txn, false, false⟩ := fun y hy => by
        obtain ⟨j, hj⟩ := List.getElem?_of_mem hy
        obtain ⟨hlt, _⟩ := List.getElem?_eq_some_iff.1 hj
        obtain ⟨r, row, e1, _⟩ := k4 j vals[j] (List.getElem?_eq_getElem (by omega))
        rw [hj] at e1
        cases e1
        rfl
      have hlive : (live added').map (·.2) = added'.map fun y => y.2.row := by
        clear g1 g2 k1 k2 k3 k4
        induction added' with
        | nil => rfl
        | cons y ys ih =>
          have := hnew y List.mem_cons_self
          have ih := ih fun z hz => hnew z (List.mem_cons_of_mem _ hz)
          simp only [live, List.filterMap_cons, this, List.map_cons] at ih ⊢
          simp [ih]
      refine ⟨(live l).map (·.2) ++ added'.map (fun y => y.2.row), ?_, ?_, trivial⟩
      · have hcount : i.count = vals.length := by simpa using k3
        rw [hcount]
        refine .insert (by simpa using k2) fun j es row he hrow => ?_
        obtain ⟨r, row', e1, e2, e3⟩ := k4 j es he
        simp only [List.getElem?_map, e1, Option.map_some, Option.some.injEq] at hrow
        subst hrow
        exact ⟨e2, e3⟩
      · have := commit_holds hr (txn := db.txn) (order := order) g1 fun y hy hyd => by
          rcases List.mem_append.1 hy with hy | hy
          · exact .inl (hcm y hy hyd)
          · refine .inr ⟨(ho.2 y.1).2 ⟨(y.1, none), by rw [g2]; exact List.mem_map.2 ⟨y, hy, rfl⟩, rfl⟩, by rw [hnew y hy]⟩
        rw [live_append, List.map_append, hlive] at this
        exact this
    | @delete p u _ _ R =>
      have hc : ∀ y ∈ live l, Clear p y.2 := fun y hy => hclear y.2 (List.mem_map_of_mem hy)
      obtain ⟨u', l', k1, k2, k3, k4⟩ := C75_delete_partial (txn := db.txn) (p := p) t hr hs hc fun y hy hyd _ => .inr (hcm y hy hyd)
      obtain ⟨e1, _⟩ := (ran_plain R).det k1
      simp only at e1
      subst e1
      obtain ⟨rs, hn, v, hl⟩ := table_visits t hr
      obtain ⟨ws, w1, w2, w3, w4, _, _⟩ := change_log hr (deleteRow_local d db.txn) R hn v
      simp only [List.nil_append] at w1
      subst w1
      refine ⟨((live l).map (·.2)).filter (fun row => decide ¬Selected p row), ?_, ?_, trivial⟩
      · rw [k4, length_filter_rows (live l) fun row => decide (Selected p row)]
        exact .delete
      · rw [← map_filter_rows, ← k3]
        refine commit_holds hr k2 fun y hy hyd => ?_
        have hsl := k2.slot hy
        by_cases hin : y.1 ∈ order
        · obtain ⟨w, hw, hwy⟩ := (ho.2 y.1).1 hin
          obtain ⟨_, s, g1, g2, g3, g4, g5, _⟩ := w3 w hw
          rw [hwy] at g5
          simp only at g5
          rw [hsl] at g5
          rw [Option.some.inj g5] at hyd
          cases hyd
        · exact .inl (hcm y (change_same hr (deleteRow_local d db.txn) t R k2 hy fun w hw h => hin ((ho.2 y.1).2 ⟨w, hw, h⟩)) hyd)
    | @update as p u _ _ R =>
      have hc : ∀ y ∈ live l, Clear p y.2 := fun y hy => hclear y.2 (List.mem_map_of_mem hy)
      obtain ⟨rs, hn, v, hl⟩ := table_visits t hr
      obtain ⟨ws, w1, w2, w3, w4, w5, _⟩ := change_log hr (updateRow_local d db.txn as) R hn v
      simp only [List.nil_append] at w1
      subst w1
      obtain ⟨f, k2, _, kd⟩ := table_any t hr (updateRow_local d db.txn as) (ran_plain R)
      obtain ⟨k3, k4⟩ := kd rfl
      have hok : ∀ (h : Heap) (r : Rid) (row : Row) (h' : Heap), updateRow d db.txn as h r row = .ok h' → ∃ row', assign row as row = .ok row' := fun h r row h' e => by
        simp only [updateRow] at e
        cases ha : assign row as row with
        | error e' => rw [ha] at e; cases e
        | ok row' => exact ⟨row', rfl⟩
      have hsel : ∀ y ∈ live l, Selected p y.2 → ∃ row', assign y.2 as y.2 = .ok row' := fun y hy hys => by
        obtain ⟨s, hs1, hs2, hs3⟩ := mem_live.1 (show (y.1, y.2) ∈ live l from hy)
        have hm := mem_real.1 (show (y.1, s) ∈ db.heap.real rs from hl ▸ hs1)
        obtain ⟨w, hw, hwy⟩ := w5 rfl y.1 hm.1 s hm.2 hs2 (by rw [hs3]; exact (keep_true (hc y hy)).2 hys)
        obtain ⟨_, s', g1, _, _, _, _, h, h', _, g6⟩ := w3 w hw
        rw [hwy] at g1
        have : s' = s := Option.some.inj (g1.symm.trans hm.2)
        subst this
        rw [← hs3]
        exact hok _ _ _ _ g6
      obtain ⟨g1, g2⟩ := live_update l p db.txn as (fun y => decide (Selected p y.2)) (fun y hy => by rw [decide_eq_true_iff, keep_true (hc y hy)]) fun y hy hys => hsel y hy (of_decide_eq_true hys)
      have hl' : (l.map fun y => (y.1, f y.1 y.2)) = l.map fun y => (y.1, after p (updated db.txn as) y.2) := List.map_congr_left fun y hy => by rw [k3 y hy]
      refine ⟨((live l).map (·.2)).map fun row => if Selected p row then (updated db.txn as ⟨⟨db.txn, false, false⟩, row⟩).row else row, ?_, ?_, trivial⟩
      · simp only at k4
        rw [k4, g2, length_filter_rows (live l) fun row => decide (Selected p row)]
        refine .update fun row hrow hrs => ?_
        obtain ⟨y, hy, rfl⟩ := List.mem_map.1 hrow
        obtain ⟨row', hrow'⟩ := hsel y hy hrs
        simp only [updated, hrow']
        exact assign_assigned hrow'
      · have e : ((live l).map (·.2)).map (fun row => if Selected p row then (updated db.txn as ⟨⟨db.txn, false, false⟩, row⟩).row else row) =
            (live (l.map fun y => (y.1, f y.1 y.2))).map (·.2) := by
          rw [hl', g1, List.map_map, List.map_map]
          refine List.map_congr_left fun y _ => ?_
          simp only [Function.comp_apply, decide_eq_true_eq]
          split <;> rfl
        rw [e]
        refine commit_holds hr k2 fun y hy hyd => ?_
        by_cases hin : y.1 ∈ order
        · refine .inr ⟨hin, ?_⟩
          obtain ⟨w, hw, hwy⟩ := (ho.2 y.1).1 hin
          obtain ⟨_, s, _, _, _, _, g5, h, h', _, g6⟩ := w3 w hw
          rw [hwy] at g5
          have : y.2 = updated db.txn as s := Option.some.inj ((k2.slot hy).symm.trans g5)
          obtain ⟨row', hrow'⟩ := hok _ _ _ _ g6
          rw [this]
          simp only [updated, hrow']
        · exact .inl (hcm y (change_same hr (updateRow_local d db.txn as) t R k2 hy fun w hw h => hin ((ho.2 y.1).2 ⟨w, hw, h⟩)) hyd)
  | @err s i tr order hrun ho =>
    simp only [hreg, if_true] at hcomp ⊢
    cases hrun with
    | @insert into vals _ _ _ h =>
      obtain ⟨added, g1, rfl⟩ := insertStmtL_log (s := ⟨db.heap, db.next, 0⟩) t hf h
      refine ⟨_, .error ?_, abort_insert hr g1 hcm ho hcomp, trivial⟩
      by_cases hsound : Sound ext cols into vals
      · obtain ⟨hk, target, a1, a2, a3, a4⟩ := hsound
        rcases C78_insert_values_runs_partial (s := ⟨db.heap, db.next, 0⟩) (seen := seen) (txn := db.txn) t hf hk a1 a2 hd a3 a4 with h' | ⟨_, h', _, slot, _, h''⟩
        · rw [insertStmtL_plain h] at h'
          cases h'
        · exact .inr ⟨_, _, _, h''⟩
      · exact .inl hsound
    | @delete p u _ _ R =>
      have hc : ∀ y ∈ live l, Clear p y.2 := fun y hy => hclear y.2 (List.mem_map_of_mem hy)
      obtain ⟨u', l', k1, _⟩ := C75_delete_partial (txn := db.txn) (p := p) t hr hs hc fun y hy hyd _ => .inr (hcm y hy hyd)
      obtain ⟨_, e⟩ := (ran_plain R).det k1
      cases e
    | @update as p u _ _ R =>
      refine ⟨_, .error ?_, abort_change hr (updateRow_local d db.txn as) t hcm R ho hcomp, trivial⟩
      obtain ⟨rs, hn, v, hl⟩ := table_visits t hr
      obtain ⟨ws, _, _, _, _, _, w6⟩ := change_log hr (updateRow_local d db.txn as) R hn v
      obtain ⟨h, r, s, g1, g2, g3, g4, g5, g6⟩ := w6 rfl
      have hm : (r, s) ∈ l := hl ▸ mem_real.2 ⟨g1, g2⟩
      have hsl : h.slot? r = some s ∧ s.info.deleted = false := by
        rw [Heap.get_eq (hr r.page)] at g4
        cases hx : h.slot? r with
        | none => rw [hx] at g4; cases g4
        | some y =>
          rw [hx] at g4
          simp only [Option.bind_some] at g4
          split at g4
          · cases g4
          · rename_i hnd
            cases g4
            exact ⟨rfl, by simpa using hnd⟩
      have hlv : (r, s.row) ∈ live l := mem_live.2 ⟨s, hm, hsl.2, rfl⟩
      refine ⟨s.row, List.mem_map.2 ⟨_, hlv, rfl⟩, (keep_true (hclear s.row (List.mem_map.2 ⟨_, hlv, rfl⟩))).1 g5, ?_⟩
      by_cases hev : ∀ a ∈ as, ∃ v, eval false (rowEnv s.row) a.2 = .ok v
      · obtain ⟨row', hrow⟩ := assign_total hev s.row
        refine .inr ⟨row', ?_⟩
        refine Classical.byContradiction fun hno => ?_
        obtain ⟨h'', hwr⟩ := Heap.write_some (d := d) (s := ⟨⟨db.txn, false, false⟩, row'⟩) (hr r.page) hsl.1 fun pg _ => by
          cases hrw : d.rewrite pg.slots r.slot ⟨⟨db.txn, false, false⟩, row'⟩ with
          | true => rfl
          | false => exact absurd ⟨_, _, _, assign_assigned hrow, hrw⟩ hno
        have hcc := hcm _ hm hsl.2
        have : ¬(s.info.creator ≠ 0 ∧ s.info.committed = false) := by
          rintro ⟨_, b'⟩
          simp only [b'] at hcc
          cases hcc
        simp only [updateRow, hrow, Heap.update, g4, if_neg this, hwr] at g6
        cases g6
      · refine .inl (Classical.byContradiction fun hno => hev fun a ha => Classical.byContradiction fun hnv => hno ⟨a, ha, fun v hv => hnv ⟨v, hv⟩⟩)

/-! ## Histories -/

theorem run_effect {d : Disk} {ext : Value → Nat → Option Value} {seen : Seen} {cols : List Column} (hr : Readable d) (hs : Sane d) (hf : Fresh d) (hx : TypedExt ext) (hd : Distinct cols)
    {db db' : Db} {xs : List Step} {rows : List Row} (R : Db.Run d ext seen cols db xs db') (hreg : db.registered = true) (hcomp : ∀ x ∈ xs, x.complete = true)
    (hconst : ∀ x ∈ xs, x.stmt.Const)
    (hclear : ∀ pre x post, xs = pre ++ x :: post → ∀ rows', Follows d ext cols rows pre rows' → ∀ row ∈ rows', Clear x.stmt.filter row) (hh : Holds db.heap rows) :
    ∃ rows', Follows d ext cols rows xs rows' ∧ Holds db'.heap rows' := by
  induction R generalizing rows with
  | nil => exact ⟨rows, .nil, hh⟩
  | @cons db x db1 xs db2 S _ ih =>
    obtain ⟨rows1, g1, g2, g3⟩ := step_effect hr hs hf hx hd S hreg (hcomp x List.mem_cons_self) (hconst x List.mem_cons_self) (hclear [] x xs rfl rows .nil) hh
    obtain ⟨rows2, k1, k2⟩ := ih g3 (fun y hy => hcomp y (List.mem_cons_of_mem _ hy)) (fun y hy => hconst y (List.mem_cons_of_mem _ hy))
      (fun pre y post e rows' hf' => hclear (x :: pre) y post (by rw [e]; rfl) rows' (.cons g1 hf')) g2
    exact ⟨rows2, .cons g1 k1, k2⟩

/-- The statements of one client outside a transaction act on a new table as on a list of rows, each wholly or, if it is answered with an error, not at all; and what a scan gives
in the end are the rows of that list, in its order. Assumed: every page can be read and a slot rewritten by the same row; the WHERE clauses are `Tame`; the values of INSERT are
constants; the rollbacks did what they had to (`C123_rollback_fails`); the table was created, not read back at a restart (`C123_restart_fails`). Missing from the full property:
these, and clients that work on the table at the same time. -/
theorem C123_statements_partial {d : Disk} {ext : Value → Nat → Option Value} {seen : Seen} {cols : List Column} {first : Option Nat} {next : Int} {txn : Nat} {xs : List Step} {db : Db}
    (hr : Readable d) (hs : Sane d) (hf : Fresh d) (hx : TypedExt ext) (hd : Distinct cols) (R : Db.Run d ext seen cols (.new first next txn) xs db)
    (hcomp : ∀ x ∈ xs, x.complete = true) (hconst : ∀ x ∈ xs, x.stmt.Const) (htame : Tame d ext cols xs) :
    ∃ rows, Follows d ext cols [] xs rows ∧ ∃ ys, Yields (db.heap.scan d (db.heap.get d)) db.heap.start ys .done ∧ ys.map (·.2.2.row) = rows := by
  obtain ⟨rows, h1, l, h2, h3, _⟩ := run_effect hr hs hf hx hd R rfl hcomp hconst htame (holds_new _)
  obtain ⟨ys, y1, y2, _⟩ := C77_scan_partial h2 hr
  refine ⟨rows, h1, ys, y1, ?_⟩
  rw [← h3, ← y2, List.map_map]
  rfl

/-! ## Cases -/

/-- Two columns of integers. -/
def abCols : List Column := [{ name := "a", ty := 3 }, { name := "b", ty := 3 }]

/-- `VALUES (1, 10), (2, 0)`. -/
def abRows : List (List Expr) := [[.lit (i32 1), .lit (i32 10)], [.lit (i32 2), .lit (i32 0)]]

/-- `SET a = 7, b = 100 / b`. -/
def quot : List (Nat × Expr) := [(0, .lit (i32 7)), (1, .arith .div (.lit (i32 100)) (.col 0 1))]

/-- Running a loop for at most `n` rounds. -/
def ranFor {σ : Type} (f : σ → σ ⊕ End) : Nat → σ → Option (σ × End)
  | 0, _ => none
  | n + 1, s => match f s with
    | .inl s' => ranFor f n s'
    | .inr e => some (s, e)

theorem ranFor_ran {σ : Type} {f : σ → σ ⊕ End} {n : Nat} {s t : σ} {e : End} (h : ranFor f n s = some (t, e)) : Ran f s t e := by
  induction n generalizing s with
  | zero => cases h
  | succ n ih =>
    simp only [ranFor] at h
    split at h
    · rename_i h1
      exact .step h1 (ih h)
    · rename_i h1
      cases h
      exact .stop h1

theorem order_self {tr : Trace} (h : (tr.map (·.1)).Nodup) : Order tr (tr.map (·.1)) := ⟨h, fun r => by simp⟩

/-- A statement run for at most 100 rounds: what it leaves. -/
def Stmt.runFor (d : Disk) (ext : Value → Nat → Option Value) (seen : Seen) (cols : List Column) (db : Db) : Stmt → Option ((Ins × Trace) × End)
  | .insert into rows => some (insertStmtL d ext seen db.txn cols into (.values rows) ⟨db.heap, db.next, 0⟩)
  | .delete p => (ranFor (changeStepL d p (deleteRow d db.txn)) 100 (⟨db.heap, db.heap.start, 0⟩, [])).map fun x => ((⟨x.1.1.heap, db.next, x.1.1.count⟩, x.1.2), x.2)
  | .update as p => (ranFor (changeStepL d p (updateRow d db.txn as)) 100 (⟨db.heap, db.heap.start, 0⟩, [])).map fun x => ((⟨x.1.1.heap, db.next, x.1.1.count⟩, x.1.2), x.2)

theorem runFor_runs {d : Disk} {ext : Value → Nat → Option Value} {seen : Seen} {cols : List Column} {db : Db} {s : Stmt} {i : Ins} {tr : Trace} {e : End}
    (h : s.runFor d ext seen cols db = some ((i, tr), e)) : Stmt.Runs d ext seen cols db s i tr e := by
  cases s with
  | insert into rows => exact .insert (Option.some.inj h)
  | delete p =>
    obtain ⟨x, h1, h2⟩ := Option.map_eq_some_iff.1 h
    cases h2
    exact .delete (ranFor_ran h1)
  | update as p =>
    obtain ⟨x, h1, h2⟩ := Option.map_eq_some_iff.1 h
    cases h2
    exact .update (ranFor_ran h1)

/-- Statements outside a transaction, each for at most 100 rounds; the write sets come in the order of the writes. -/
def Db.runFor (d : Disk) (ext : Value → Nat → Option Value) (seen : Seen) (cols : List Column) : Db → List Stmt → Option (List Dml.Step × Db)
  | db, [] => some ([], db)
  | db, s :: ss => match s.runFor d ext seen cols db with
    | some ((i, tr), .done) =>
      if (tr.map (·.1)).Nodup then
        (Db.runFor d ext seen cols ⟨if db.registered then (tr.map (·.1)).foldl (commitRow d db.txn) i.heap else i.heap, i.next, db.txn + 1, db.registered⟩ ss).map fun x =>
          (⟨s, .count i.count, true⟩ :: x.1, x.2)
      else none
    | some ((i, tr), .err) =>
      if (tr.map (·.1)).Nodup then
        (Db.runFor d ext seen cols ⟨if db.registered then ((tr.map (·.1)).foldl (abortRow d db.txn tr) (i.heap, true)).1 else i.heap, i.next, db.txn + 1, db.registered⟩ ss).map fun x =>
          (⟨s, .error, if db.registered then ((tr.map (·.1)).foldl (abortRow d db.txn tr) (i.heap, true)).2 else true⟩ :: x.1, x.2)
      else none
    | _ => none

theorem Db.runFor_run {d : Disk} {ext : Value → Nat → Option Value} {seen : Seen} {cols : List Column} {db : Db} {ss : List Stmt} {x : List Dml.Step × Db}
    (h : Db.runFor d ext seen cols db ss = some x) : Db.Run d ext seen cols db x.1 x.2 := by
  induction ss generalizing db x with
  | nil => cases h; exact .nil
  | cons s ss ih =>
    simp only [Db.runFor] at h
    split at h
    · rename_i i tr h1
      split at h
      · rename_i hn
        obtain ⟨y, h2, h3⟩ := Option.map_eq_some_iff.1 h
        subst h3
        exact .cons (.ok (runFor_runs h1) (order_self hn)) (ih h2)
      · cases h
    · rename_i i tr h1
      split at h
      · rename_i hn
        obtain ⟨y, h2, h3⟩ := Option.map_eq_some_iff.1 h
        subst h3
        exact .cons (.err (runFor_runs h1) (order_self hn)) (ih h2)
      · cases h
    · cases h

/-- The rows on page 0 that are not deleted. -/
def Db.rows (db : Db) : List Row := match db.heap.page 0 with
  | some pg => (pg.slots.filter fun s => !s.info.deleted).map (·.row)
  | none => []

/-- INSERT two rows; UPDATE them, which fails on the second; DELETE one. -/
def exHistory : Option (List Step × Db) := Db.runFor exDisk noExt noSeen abCols (.new (some 0) 1 1) [.insert [] abRows, .update quot none, .delete (some isOne)]

def exSteps : List Step := [⟨.insert [] abRows, .count 2, true⟩, ⟨.update quot none, .error, true⟩, ⟨.delete (some isOne), .count 1, true⟩]

theorem exHistory_runs : ∃ db, exHistory = some (exSteps, db) ∧ db.rows = [[i32 2, i32 0]] := ⟨_, rfl, rfl⟩

theorem isOne_int {row : Row} {v : Value} (h : row[0]? = some v) (ht : ty v = 3) : Clear (some isOne) row := by
  refine .inl ?_
  have hev : eval false (rowEnv row) isOne = comparison .eq v (i32 1) := by
    simp only [isOne, eval, rowEnv, h]
    rfl
  simp only [EvalsTo, hev, comparison]
  by_cases hn : isNull v || isNull (i32 1)
  · exact ⟨.n, _, by rw [if_pos hn], rfl⟩
  · rw [if_neg hn, if_neg (by rw [ht]; exact fun h => h rfl)]
    exact ⟨compareOp .eq v (i32 1), _, rfl, by cases compareOp .eq v (i32 1) <;> rfl⟩

theorem exSteps_tame : Tame exDisk noExt abCols exSteps := by
  intro pre x post h rows hf row hrow
  rcases pre with _ | ⟨a, _ | ⟨b, _ | ⟨c, _ | ⟨e, pre⟩⟩⟩⟩
  · cases h; trivial
  · cases h; trivial
  · cases h
    cases hf with
    | cons h1 h2 => cases h2 with
      | cons h2 h3 => cases h3; cases h2; cases h1 with
        | @insert _ _ _ new hl hst =>
          obtain ⟨i, hi⟩ := List.getElem?_of_mem (show row ∈ new from hrow)
          obtain ⟨hlt, _⟩ := List.getElem?_eq_some_iff.1 hi
          obtain ⟨_, hcol⟩ := hst i abRows[i] row (List.getElem?_eq_getElem (by omega)) hi
          obtain ⟨v, hv, hk⟩ := hcol 0 { name := "a", ty := 3 } rfl
          refine isOne_int hv ?_
          split at hk
          · obtain ⟨v0, w, _, h2, h3⟩ := hk
            have hvw : v = w := by simpa [Kept] using h3
            rw [hvw]
            exact cast_ty noExt_typed h2
          · have hvw : v = newTyped .null 3 := by simpa [Kept] using hk
            rw [hvw]
            rfl
  · cases h
  · cases h

example : True := by
  obtain ⟨db, h, _⟩ := exHistory_runs
  have := C123_statements_partial exDisk_readable exDisk_sane exDisk_fresh noExt_typed (by unfold Distinct; decide) (Db.runFor_run h)
    (by intro x hx; simp only [exSteps, List.mem_cons, List.not_mem_nil, or_false] at hx; rcases hx with rfl | rfl | rfl <;> rfl)
    (by
      intro x hx
      simp only [exSteps, List.mem_cons, List.not_mem_nil, or_false] at hx
      rcases hx with rfl | rfl | rfl
      · intro es hes e he ρ ρ'
        simp only [abRows, List.mem_cons, List.not_mem_nil, or_false] at hes
        rcases hes with rfl | rfl <;> (simp only [List.mem_cons, List.not_mem_nil, or_false] at he; rcases he with rfl | rfl <;> rfl)
      · trivial
      · trivial) exSteps_tame
  trivial

/-! ## Where the property fails -/

/-- The length of a text. -/
def textLen (v : Value) : Nat := match val v with
  | .varLen b => b.length
  | _ => 0

/-- A full page: a slot can only be overwritten by a row that is not longer (table_page.rs:312-356). -/
def fullDisk : Disk := { exDisk with
  rewrite := fun slots i s => match slots[i]? with
    | some s0 => (s.row.map textLen).sum ≤ (s0.row.map textLen).sum
    | none => false }

def tbCols : List Column := [{ name := "a", ty := 11 }, { name := "b", ty := 3 }]

/-- An UPDATE makes the first row shorter and fails on the second; the rollback cannot write the first row back as it was, because there is no space for it, and only logs that: the
client is told of an error, and one of the two rows is changed. -/
theorem C123_rollback_fails : Sane fullDisk ∧ ∃ xs db, Db.Run fullDisk noExt noSeen tbCols (.new (some 0) 1 1) xs db ∧
    xs.map (·.reply) = [.count 2, .error] ∧
    xs.map (·.stmt) = [.insert [] [[.lit (text [65, 66]), .lit (i32 10)], [.lit (text [67, 68]), .lit (i32 0)]],
      .update [(0, .lit (text [])), (1, .arith .div (.lit (i32 100)) (.col 0 1))] none] ∧
    db.rows = [[text [], i32 10], [text [67, 68], i32 0]] := by
  refine ⟨fun slots i s s' h1 h2 => by simp only [fullDisk, h1, h2, decide_eq_true_eq, Nat.le_refl], ?_⟩
  obtain ⟨x, h, h1, h2, h3⟩ : ∃ x, Db.runFor fullDisk noExt noSeen tbCols (.new (some 0) 1 1) [.insert [] [[.lit (text [65, 66]), .lit (i32 10)], [.lit (text [67, 68]), .lit (i32 0)]],
      .update [(0, .lit (text [])), (1, .arith .div (.lit (i32 100)) (.col 0 1))] none] = some x ∧ x.1.map (·.reply) = [.count 2, .error] ∧
      x.1.map (·.stmt) = [.insert [] [[.lit (text [65, 66]), .lit (i32 10)], [.lit (text [67, 68]), .lit (i32 0)]],
        .update [(0, .lit (text [])), (1, .arith .div (.lit (i32 100)) (.col 0 1))] none] ∧
      x.2.rows = [[text [], i32 10], [text [67, 68], i32 0]] := ⟨_, rfl, rfl, rfl, rfl⟩
  exact ⟨x.1, x.2, Db.runFor_run h, h1, h2, h3⟩

/-- After a restart a row is inserted, and the client is told so; then no DELETE can remove it, because the transaction manager does not know the table and so has not marked the row
as committed. -/
theorem C123_restart_fails : ∃ xs db, Db.Run exDisk noExt noSeen abCols ⟨.new (some 0), 1, 1, false⟩ xs db ∧ xs.map (·.stmt) = [.insert [] abRows, .delete none, .delete none] ∧
    xs.map (·.reply) = [.count 2, .error, .error] ∧ db.rows = [[i32 1, i32 10], [i32 2, i32 0]] := by
  obtain ⟨x, h, h1, h2, h3⟩ : ∃ x, Db.runFor exDisk noExt noSeen abCols ⟨.new (some 0), 1, 1, false⟩ [.insert [] abRows, .delete none, .delete none] = some x ∧
      x.1.map (·.stmt) = [.insert [] abRows, .delete none, .delete none] ∧ x.1.map (·.reply) = [.count 2, .error, .error] ∧
      x.2.rows = [[i32 1, i32 10], [i32 2, i32 0]] := ⟨_, rfl, rfl, rfl, rfl⟩
  exact ⟨x.1, x.2, Db.runFor_run h, h1, h2, h3⟩

end Verif.Dml
