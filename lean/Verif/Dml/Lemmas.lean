import Verif.Dml.HeapLemmas
import Verif.Dml.Model

/-!
# Lemmas about statements
-/

namespace Verif.Dml

open Verif.Wire Verif.Bytes Verif.Sql Verif.Exec

theorem Ran.det {σ : Type} {f : σ → σ ⊕ End} {s t t' : σ} {e e' : End} (h : Ran f s t e) (h' : Ran f s t' e') : t = t' ∧ e = e' := by
  induction h with
  | stop h1 => cases h' with
    | stop g1 => rw [h1] at g1; cases g1; exact ⟨rfl, rfl⟩
    | step g1 _ => rw [h1] at g1; cases g1
  | step h1 _ ih => cases h' with
    | stop g1 => rw [h1] at g1; cases g1
    | step g1 g2 => rw [h1] at g1; cases g1; exact ih g2

section
variable {d : Disk} {p : Option Expr} {change : Heap → Rid → Row → Except End Heap} {new : Slot → Slot}

theorem look_cases {α : Type} {get : Rid → Option α} {h : Heap} {pos : Pos} {rs : List Rid} (v : Visits d h pos rs) :
    (h.look d get pos = .ended ∧ rs = []) ∨ (∃ q, h.look d get pos = .moved q ∧ Visits d h q rs) ∨
    ∃ c r rs', rs = r :: rs' ∧ ((∃ q, get r = none ∧ h.look d get pos = .moved q ∧ Visits d h q rs') ∨
      ∃ a q, get r = some a ∧ h.look d get pos = .found c r a q ∧ Visits d h q rs') := by
  cases v with
  | stop => exact .inl ⟨rfl, rfl⟩
  | none => exact .inl ⟨rfl, rfl⟩
  | walk h1 h2 v => exact .inr (.inl ⟨_, by simp only [Heap.look, h1, h2, if_true], v⟩)
  | enter h1 h2 v => exact .inr (.inl ⟨_, by simp only [Heap.look, h1, h2, if_false], v⟩)
  | @here s r _ h1 =>
    obtain ⟨rs', e, v1, v2⟩ := visits_next h1 s
    refine .inr (.inr ⟨s, r, rs', e, ?_⟩)
    cases hg : get r with
    | none => exact .inl ⟨_, rfl, by simp only [Heap.look, hg], v2⟩
    | some a => exact .inr ⟨a, _, rfl, by simp only [Heap.look, hg], v1⟩

/-- What a row becomes. -/
def after (p : Option Expr) (new : Slot → Slot) (x : Slot) : Slot := if x.info.deleted = false ∧ keep p x.row = some true then new x else x

/-- The rows which are changed. -/
def hit (p : Option Expr) (x : Rid × Slot) : Bool := x.2.info.deleted == false && keep p x.2.row == some true

/-- A change writes the new slot at the place of the old one and nothing else, or it fails. -/
structure Local (d : Disk) (change : Heap → Rid → Row → Except End Heap) (new : Slot → Slot) : Prop where
  ok : ∀ h r s h', h.get d r = some s → change h r s.row = .ok h' → Shape h h' ∧ h'.slot? r = some (new s) ∧ ∀ q, q ≠ r → h'.slot? q = h.slot? q
  err : ∀ h r row, change h r row ≠ .error .done

theorem real_congr {h h' : Heap} {rs : List Rid} (e : ∀ r ∈ rs, h'.slot? r = h.slot? r) : h'.real rs = h.real rs := by
  induction rs with
  | nil => rfl
  | cons r rs ih =>
    have ih := ih fun q hq => e q (List.mem_cons_of_mem _ hq)
    simp only [Heap.real, List.filterMap_cons, e r List.mem_cons_self] at ih ⊢
    rw [ih]

/-- Every end of a statement: rows are as before, or they were selected and are changed. At a regular end all selected rows are changed, and they were counted. -/
theorem change_any (hr : ∀ q, d.readable q = true) (hc : Local d change new) {s t : Run} {e : End} (R : Ran (changeStep d p change) s t e) {rs : List Rid} (hn : rs.Nodup)
    (v : Visits d s.heap s.pos rs) :
    Shape s.heap t.heap ∧ (∀ q, q ∉ rs → t.heap.slot? q = s.heap.slot? q) ∧
    (∀ r ∈ rs, ∀ x, s.heap.slot? r = some x → t.heap.slot? r = some x ∨ (x.info.deleted = false ∧ keep p x.row = some true ∧ t.heap.slot? r = some (new x))) ∧
    (e = .done → (∀ r ∈ rs, ∀ x, s.heap.slot? r = some x → t.heap.slot? r = some (after p new x)) ∧ t.count = s.count + ((s.heap.real rs).filter (hit p)).length) := by
  induction R generalizing rs with
  | @stop s e h1 =>
    refine ⟨.refl _, fun _ _ => rfl, fun r _ x hx => .inl hx, fun he => ?_⟩
    subst he
    rcases look_cases (get := s.heap.get d) v with ⟨h2, rfl⟩ | ⟨q, h2, _⟩ | ⟨c, r, rs', rfl, ⟨q, _, h2, _⟩ | ⟨a, q, _, h2, _⟩⟩
    · exact ⟨fun r hr => absurd hr List.not_mem_nil, rfl⟩
    · simp only [changeStep, h2] at h1; cases h1
    · simp only [changeStep, h2] at h1; cases h1
    · simp only [changeStep, h2] at h1
      split at h1
      · cases h1
      · cases h1
      · split at h1
        · cases h1
        · rename_i e' hch
          cases h1
          exact absurd hch (hc.err _ _ _)
  | @step s s' t e h1 _ ih =>
    rcases look_cases (get := s.heap.get d) v with ⟨h2, rfl⟩ | ⟨q, h2, v2⟩ | ⟨c, r, rs', rfl, ⟨q, hg, h2, v2⟩ | ⟨a, q, hg, h2, v2⟩⟩
    · simp only [changeStep, h2] at h1; cases h1
    · simp only [changeStep, h2] at h1; cases h1
      exact ih hn v2
    · simp only [changeStep, h2] at h1; cases h1
      obtain ⟨n1, n2⟩ := List.nodup_cons.1 hn
      obtain ⟨i1, i2, i3, i4⟩ := ih n2 v2
      have hdel : ∀ x, s.heap.slot? r = some x → x.info.deleted = true := fun x hx => by
        rw [Heap.get_eq (hr r.page), hx] at hg
        simpa using hg
      refine ⟨i1, fun q' hq' => i2 q' fun h => hq' (List.mem_cons_of_mem _ h), fun r' hr' x hx => ?_, fun he => ⟨fun r' hr' x hx => ?_, ?_⟩⟩
      · rcases List.mem_cons.1 hr' with rfl | hr'
        · exact .inl ((i2 _ n1).trans hx)
        · exact i3 r' hr' x hx
      · rcases List.mem_cons.1 hr' with rfl | hr'
        · rw [i2 _ n1, hx, after, if_neg]
          simp [hdel x hx]
        · exact (i4 he).1 r' hr' x hx
      · rw [(i4 he).2]
        have : s.heap.real (r :: rs') = (match s.heap.slot? r with | some x => [(r, x)] | none => []) ++ s.heap.real rs' := by
          simp only [Heap.real, List.filterMap_cons]
          cases s.heap.slot? r <;> rfl
        rw [this]
        cases hx : s.heap.slot? r with
        | none => rfl
        | some x => simp [hit, hdel x hx]
    · obtain ⟨n1, n2⟩ := List.nodup_cons.1 hn
      have hsl : s.heap.slot? r = some a ∧ a.info.deleted = false := by
        rw [Heap.get_eq (hr r.page)] at hg
        cases hx : s.heap.slot? r with
        | none => rw [hx] at hg; cases hg
        | some x =>
          rw [hx] at hg
          simp only [Option.bind_some] at hg
          split at hg
          · cases hg
          · cases hg
            rename_i h
            exact ⟨rfl, by simpa using h⟩
      have hreal : s.heap.real (r :: rs') = (r, a) :: s.heap.real rs' := by
        simp [Heap.real, List.filterMap_cons, hsl.1]
      simp only [changeStep, h2] at h1
      split at h1
      · cases h1
      · rename_i hk
        cases h1
        obtain ⟨i1, i2, i3, i4⟩ := ih n2 v2
        refine ⟨i1, fun q' hq' => i2 q' fun h => hq' (List.mem_cons_of_mem _ h), fun r' hr' x hx => ?_, fun he => ⟨fun r' hr' x hx => ?_, ?_⟩⟩
        · rcases List.mem_cons.1 hr' with rfl | hr'
          · exact .inl ((i2 _ n1).trans hx)
          · exact i3 r' hr' x hx
        · rcases List.mem_cons.1 hr' with rfl | hr'
          · rw [hsl.1] at hx
            cases hx
            have := i2 _ n1
            simp only at this
            rw [this, hsl.1, after, if_neg]
            simp [hk]
          · exact (i4 he).1 r' hr' x hx
        · rw [(i4 he).2, hreal]
          simp [hit, hk]
      · rename_i hk
        split at h1
        · rename_i h' hch
          cases h1
          obtain ⟨c1, c2, c3⟩ := hc.ok _ _ _ _ hg hch
          obtain ⟨i1, i2, i3, i4⟩ := ih n2 (v2.shape c1)
          have hoth : ∀ q' ∈ rs', h'.slot? q' = s.heap.slot? q' := fun q' hq' => c3 q' fun h => n1 (h ▸ hq')
          refine ⟨c1.trans i1, fun q' hq' => ?_, fun r' hr' x hx => ?_, fun he => ⟨fun r' hr' x hx => ?_, ?_⟩⟩
          · rw [i2 q' fun h => hq' (List.mem_cons_of_mem _ h)]
            exact c3 q' fun h => hq' (h ▸ List.mem_cons_self)
          · rcases List.mem_cons.1 hr' with rfl | hr'
            · rw [hsl.1] at hx
              cases hx
              exact .inr ⟨hsl.2, hk, (i2 _ n1).trans c2⟩
            · exact i3 r' hr' x ((hoth r' hr').trans hx)
          · rcases List.mem_cons.1 hr' with rfl | hr'
            · rw [hsl.1] at hx
              cases hx
              rw [i2 _ n1, after, if_pos ⟨hsl.2, hk⟩]
              exact c2
            · exact (i4 he).1 r' hr' x ((hoth r' hr').trans hx)
          · rw [(i4 he).2, hreal, real_congr hoth]
            simp [hit, hk, hsl.2]
            omega
        · cases h1

/-- A statement whose changes all succeed runs to a regular end. -/
theorem change_total (hr : ∀ q, d.readable q = true) (hc : Local d change new) {h0 : Heap} {s : Run} {rs : List Rid} (hn : rs.Nodup) (v : Visits d s.heap s.pos rs)
    (h1 : Shape h0 s.heap) (h2 : ∀ r ∈ rs, s.heap.slot? r = h0.slot? r)
    (hs : ∀ h' r x, Shape h0 h' → r ∈ rs → h0.slot? r = some x → h'.slot? r = some x → x.info.deleted = false → ∃ b, keep p x.row = some b ∧ (b = true → ∃ h'', change h' r x.row = .ok h'')) :
    ∃ t, Ran (changeStep d p change) s t .done := by
  obtain ⟨h, pos, n⟩ := s
  simp only at v h1 h2
  induction rs generalizing h pos n with
  | nil =>
    generalize hrs : ([] : List Rid) = rs at v
    induction v with
    | stop => exact ⟨_, .stop rfl⟩
    | none => exact ⟨_, .stop rfl⟩
    | walk g1 g2 _ ih =>
      obtain ⟨t, R⟩ := ih hrs
      exact ⟨t, .step (by simp only [changeStep, Heap.look, g1, g2, if_true]) R⟩
    | enter g1 g2 _ ih =>
      obtain ⟨t, R⟩ := ih hrs
      exact ⟨t, .step (by simp only [changeStep, Heap.look, g1, g2, if_false]) R⟩
    | here g1 => cases g1; cases hrs
  | cons r rs ih =>
    obtain ⟨n1, n2⟩ := List.nodup_cons.1 hn
    generalize hrs : r :: rs = rs' at v
    induction v with
    | stop => cases hrs
    | none => cases hrs
    | walk g1 g2 _ ih' =>
      obtain ⟨t, R⟩ := ih' hrs
      exact ⟨t, .step (by simp only [changeStep, Heap.look, g1, g2, if_true]) R⟩
    | enter g1 g2 _ ih' =>
      obtain ⟨t, R⟩ := ih' hrs
      exact ⟨t, .step (by simp only [changeStep, Heap.look, g1, g2, if_false]) R⟩
    | @here c r' _ g1 =>
      obtain ⟨rs2, e1, v1, v2⟩ := visits_next g1 c
      rw [e1] at hrs
      obtain ⟨rfl, rfl⟩ := List.cons.inj hrs
      cases hg : h.get d r with
      | none =>
        obtain ⟨t, R⟩ := ih n2 (fun h' q y a b => hs h' q y a (List.mem_cons_of_mem _ b)) h _ n v2 h1 fun q hq => h2 q (List.mem_cons_of_mem _ hq)
        exact ⟨t, .step (by simp only [changeStep, Heap.look, hg]) R⟩
      | some x =>
        have hsl : h.slot? r = some x ∧ x.info.deleted = false := by
          rw [Heap.get_eq (hr r.page)] at hg
          cases hx : h.slot? r with
          | none => rw [hx] at hg; cases hg
          | some y =>
            rw [hx] at hg
            simp only [Option.bind_some] at hg
            split at hg
            · cases hg
            · cases hg
              rename_i h
              exact ⟨rfl, by simpa using h⟩
        obtain ⟨b, hb, hch⟩ := hs h r x h1 List.mem_cons_self ((h2 r List.mem_cons_self).symm.trans hsl.1) hsl.1 hsl.2
        cases b with
        | false =>
          obtain ⟨t, R⟩ := ih n2 (fun h' q y a b => hs h' q y a (List.mem_cons_of_mem _ b)) h _ n v1 h1 fun q hq => h2 q (List.mem_cons_of_mem _ hq)
          exact ⟨t, .step (by simp only [changeStep, Heap.look, hg, hb]) R⟩
        | true =>
          obtain ⟨h'', hch⟩ := hch rfl
          obtain ⟨c1, c2, c3⟩ := hc.ok _ _ _ _ hg hch
          obtain ⟨t, R⟩ := ih n2 (fun h' q y a b => hs h' q y a (List.mem_cons_of_mem _ b)) h'' _ (n + 1) (v1.shape c1) (h1.trans c1) fun q hq => (c3 q fun h => n1 (h ▸ hq)).trans (h2 q (List.mem_cons_of_mem _ hq))
          exact ⟨t, .step (by simp only [changeStep, Heap.look, hg, hb, hch]) R⟩

/-- The slots of a table are among those a scan comes to. -/
theorem table_visits {h : Heap} {l : List (Rid × Slot)} (t : Table h l) (hr : ∀ q, d.readable q = true) : ∃ rs, rs.Nodup ∧ Visits d h h.start rs ∧ h.real rs = l := by
  obtain ⟨ids, h1, h2, _, rfl⟩ := t.chain
  obtain ⟨rs, v, e, n⟩ := visits_start hr h1
  exact ⟨rs, n h2, v, e⟩

theorem mem_real {h : Heap} {rs : List Rid} {x : Rid × Slot} : x ∈ h.real rs ↔ x.1 ∈ rs ∧ h.slot? x.1 = some x.2 := by
  simp only [Heap.real, List.mem_filterMap, Option.map_eq_some_iff]
  constructor
  · rintro ⟨r, hr, s, hs, rfl⟩
    exact ⟨hr, hs⟩
  · rintro ⟨hr, hs⟩
    exact ⟨_, hr, _, hs, rfl⟩

/-- Every end of a statement, for the whole table. -/
theorem table_any {h : Heap} {l : List (Rid × Slot)} (t : Table h l) (hr : ∀ q, d.readable q = true) (hc : Local d change new) {u : Run} {e : End}
    (R : Ran (changeStep d p change) ⟨h, h.start, 0⟩ u e) :
    ∃ f : Rid → Slot → Slot, Table u.heap (l.map fun x => (x.1, f x.1 x.2)) ∧
      (∀ x ∈ l, f x.1 x.2 = x.2 ∨ (x.2.info.deleted = false ∧ keep p x.2.row = some true ∧ f x.1 x.2 = new x.2)) ∧
      (e = .done → (∀ x ∈ l, f x.1 x.2 = after p new x.2) ∧ u.count = (l.filter (hit p)).length) := by
  obtain ⟨rs, hn, v, hl⟩ := table_visits t hr
  obtain ⟨c1, c2, c3, c4⟩ := change_any hr hc R hn v
  have key : ∀ x ∈ l, u.heap.slot? x.1 = some ((u.heap.slot? x.1).getD x.2) := fun x hx => by
    rw [← hl] at hx
    obtain ⟨h1, h2⟩ := mem_real.1 hx
    rcases c3 x.1 h1 x.2 h2 with h | ⟨_, _, h⟩ <;> simp [h]
  refine ⟨fun r x => (u.heap.slot? r).getD x, t.reshape c1 (fun r x => (u.heap.slot? r).getD x) key, fun x hx => ?_, fun he => ⟨fun x hx => ?_, ?_⟩⟩
  · rw [← hl] at hx
    obtain ⟨h1, h2⟩ := mem_real.1 hx
    rcases c3 x.1 h1 x.2 h2 with h | ⟨a, b, h⟩
    · exact .inl (by simp [h])
    · exact .inr ⟨a, b, by simp [h]⟩
  · rw [← hl] at hx
    obtain ⟨h1, h2⟩ := mem_real.1 hx
    simp [(c4 he).1 x.1 h1 x.2 h2]
  · have := (c4 he).2
    simp only [hl, Nat.zero_add] at this
    exact this

/-- A statement whose changes all succeed, for the whole table. -/
theorem table_total {h : Heap} {l : List (Rid × Slot)} (t : Table h l) (hr : ∀ q, d.readable q = true) (hc : Local d change new)
    (hs : ∀ h' r x, Shape h h' → (r, x) ∈ l → h'.slot? r = some x → x.info.deleted = false →
      ∃ b, keep p x.row = some b ∧ (b = true → ∃ h'', change h' r x.row = .ok h'')) :
    ∃ u, Ran (changeStep d p change) ⟨h, h.start, 0⟩ u .done ∧ Table u.heap (l.map fun x => (x.1, after p new x.2)) ∧ u.count = (l.filter (hit p)).length := by
  obtain ⟨rs, hn, v, hl⟩ := table_visits t hr
  obtain ⟨u, R⟩ := change_total (p := p) (s := ⟨h, h.start, 0⟩) hr hc hn v (.refl h) (fun _ _ => rfl) fun h' r x h1 h2 h3 h4 h5 =>
    hs h' r x h1 (by rw [← hl]; exact mem_real.2 ⟨h2, h3⟩) h4 h5
  obtain ⟨f, h1, _, h3⟩ := table_any t hr hc R
  obtain ⟨h4, h5⟩ := h3 rfl
  refine ⟨u, R, ?_, h5⟩
  have : (l.map fun x => (x.1, f x.1 x.2)) = l.map fun x => (x.1, after p new x.2) := List.map_congr_left fun x hx => by rw [h4 x hx]
  rwa [← this]

end

end Verif.Dml
