import Verif.Whole.TypedGroup

/-!
# The effect of a statement in the values of SQL
-/

namespace Verif.Whole

open Verif.Wire Verif.Bytes Verif.Sql Verif.Exec Verif.Dml
open Verif.Catalog (Cat Tab Col ColDef FkDef ObjName)

/-- A row outside a transaction, and one in it. -/
def plainRow (r : Row) : TRow × Bool := (reads r, false)
def markedRow (x : Row × Bool) : TRow × Bool := (reads x.1, x.2)

theorem bind_eq_ok {α β : Type} {r : PR α} {k : α → PR β} {y : β} (x : α) (h1 : r = .ok x) (h2 : k x = .ok y) : r.bind k = .ok y := by
  rw [h1]
  exact h2

theorem planWhere_some {ts : List Nat} {p : Option Ast} (hw : WellTyped ts p) : (∃ q, planWhere ts p = .ok q) ↔ ∀ a, p = some a → Accepted ts a := by
  cases p with
  | none => exact ⟨fun _ => nofun, fun _ => ⟨none, rfl⟩⟩
  | some a =>
    have := (C124_accepts_partial (hw a rfl).1).1
    constructor
    · rintro ⟨q, h⟩ b hb
      cases hb
      obtain ⟨x, h1, _⟩ := bind_ok h
      exact this.1 ⟨x, h1⟩
    · intro h
      obtain ⟨x, hx⟩ := this.2 (h a rfl)
      exact ⟨_, bind_eq_ok x hx rfl⟩

theorem planRow_some {ts : List Nat} {es : List Ast} (hw : RowTyped ts es) : (∃ q, planRow ts es = .ok q) ↔ es.length = ts.length ∧ ∀ a ∈ es, Accepted [] a := by
  unfold planRow
  by_cases hl : es.length = ts.length
  · rw [if_neg (by simpa using hl), list_some]
    refine ⟨fun h => ⟨hl, fun a ha => ?_⟩, fun h a ha => ?_⟩
    · obtain ⟨⟨f, w⟩, _⟩ := hw.1 a ha
      obtain ⟨y, hy⟩ := h a ha
      obtain ⟨x, hx, _⟩ := bind_ok hy
      rw [parse_closed ts a w] at hx
      exact (C124_accepts_partial w).1.1 ⟨x, hx⟩
    · obtain ⟨⟨f, w⟩, _⟩ := hw.1 a ha
      obtain ⟨x, hx⟩ := (C124_accepts_partial w).1.2 (h.2 a ha)
      rw [← parse_closed ts a w] at hx
      exact ⟨_, bind_eq_ok x hx rfl⟩
  · rw [if_pos (by simpa using hl)]
    exact ⟨nofun, fun h => absurd h.1 hl⟩

theorem plan_fits {cols : List Col} {s : TStmt} (hty : s.Typed (typesOf cols)) : (∃ q, s.plan cols = .ok q) ↔ s.Fits (typesOf cols) := by
  cases s with
  | insert vals =>
    have : (∃ q, (TStmt.insert vals).plan cols = .ok q) ↔ ∃ xss, PR.list (planRow (typesOf cols)) vals = .ok xss :=
      ⟨fun ⟨q, h⟩ => let ⟨x, h1, _⟩ := bind_ok h; ⟨x, h1⟩, fun ⟨x, h⟩ => ⟨_, bind_eq_ok x h rfl⟩⟩
    rw [this, list_some]
    exact ⟨fun h es hes => (planRow_some (hty es hes)).1 (h es hes), fun h es hes => (planRow_some (hty es hes)).2 (h es hes)⟩
  | insertInto into vals =>
    obtain ⟨h0, hty⟩ := hty
    have hlen : (typesOf cols).length = cols.length := by simp [typesOf]
    by_cases hr : ∀ i ∈ into, i < cols.length
    · have e : (TStmt.insertInto into vals).plan cols =
          (PR.list (planRow (typesOf (colsAt cols into))) vals).bind fun rows => .ok (.insert ((colsAt cols into).map fun c => str c.name) rows) :=
        if_pos (by simpa using hr)
      have : (∃ q, (TStmt.insertInto into vals).plan cols = .ok q) ↔ ∃ xss, PR.list (planRow (typesOf (colsAt cols into))) vals = .ok xss := by
        rw [e]
        exact ⟨fun ⟨q, h⟩ => let ⟨x, h1, _⟩ := bind_ok h; ⟨x, h1⟩, fun ⟨x, h⟩ => ⟨_, bind_eq_ok x h rfl⟩⟩
      have hl : (typesAt (typesOf cols) into).length = into.length := by
        rw [← types_pick]
        unfold typesOf colsAt
        rw [List.length_map, pick_length (in_range hr)]
      rw [this, list_some, types_pick]
      refine ⟨fun h => ⟨fun i hi => hlen ▸ hr i hi, fun es hes => ?_⟩, fun h es hes => ?_⟩
      · rw [← hl]
        exact (planRow_some (hty es hes)).1 (h es hes)
      · refine (planRow_some (hty es hes)).2 ?_
        rw [hl]
        exact h.2 es hes
    · have e : (TStmt.insertInto into vals).plan cols = .err := if_neg (by simpa using hr)
      rw [e]
      exact ⟨nofun, fun h => absurd (fun i hi => hlen ▸ h.1 i hi) hr⟩
  | delete p =>
    have : (∃ q, (TStmt.delete p).plan cols = .ok q) ↔ ∃ xss, planWhere (typesOf cols) p = .ok xss :=
      ⟨fun ⟨q, h⟩ => let ⟨x, h1, _⟩ := bind_ok h; ⟨x, h1⟩, fun ⟨x, h⟩ => ⟨_, bind_eq_ok x h rfl⟩⟩
    rw [this]
    exact planWhere_some hty
  | update as p =>
    have : (∃ q, (TStmt.update as p).plan cols = .ok q) ↔ (∃ q, planWhere (typesOf cols) p = .ok q) ∧ ∃ xs, PR.list (planAssign (typesOf cols)) as = .ok xs :=
      ⟨fun ⟨q, h⟩ => let ⟨x, h1, h⟩ := bind_ok h; let ⟨y, h2, _⟩ := bind_ok h; ⟨⟨x, h1⟩, y, h2⟩,
        fun ⟨⟨x, h1⟩, y, h2⟩ => ⟨_, bind_eq_ok x h1 (bind_eq_ok y h2 rfl)⟩⟩
    rw [this, planWhere_some hty.1, list_some]
    refine and_congr_right fun _ => ⟨fun h x hx => ?_, fun h x hx => ?_⟩
    · obtain ⟨_, ⟨f, w⟩, _⟩ := hty.2 x hx
      obtain ⟨y, hy⟩ := h x hx
      obtain ⟨_, h2, t, h3⟩ := planAssign_ok hy
      exact ⟨h2, (C124_accepts_partial w).1.1 ⟨_, h3⟩⟩
    · obtain ⟨_, ⟨f, w⟩, _⟩ := hty.2 x hx
      obtain ⟨h1, h2⟩ := h x hx
      obtain ⟨y, hy⟩ := (C124_accepts_partial w).1.2 h2
      refine ⟨(x.1, y.1), ?_⟩
      unfold planAssign
      rw [if_pos h1]
      exact bind_eq_ok y hy rfl

theorem planSel_some {cols : List Col} {items : List (Ast × String)} {p : Option Ast} {order : List (Nat × Dir)} {limit offset : Option Nat} (hwp : WellTyped (typesOf cols) p)
    (hw : ∀ x ∈ items, (∃ f, WT (typesOf cols) x.1 f) ∧ LitItems x.1) :
    (∃ q, planSel cols items p order limit offset = .ok q) ↔
      (∀ a, p = some a → Accepted (typesOf cols) a) ∧ (∀ x ∈ items, Accepted (typesOf cols) x.1) ∧ ∀ k ∈ order, k.1 < cols.length := by
  have : (∃ q, planSel cols items p order limit offset = .ok q) ↔
      (∃ q, planWhere (typesOf cols) p = .ok q) ∧ (∃ xs, PR.list (planItem cols) items = .ok xs) ∧ ∃ ks, PR.list (planKey cols) order = .ok ks :=
    ⟨fun ⟨q, h⟩ => let ⟨x, h1, h⟩ := bind_ok h; let ⟨y, h2, h⟩ := bind_ok h; let ⟨z, h3, _⟩ := bind_ok h; ⟨⟨x, h1⟩, ⟨y, h2⟩, z, h3⟩,
      fun ⟨⟨x, h1⟩, ⟨y, h2⟩, z, h3⟩ => ⟨_, bind_eq_ok x h1 (bind_eq_ok y h2 (bind_eq_ok z h3 rfl))⟩⟩
  rw [this, planWhere_some hwp, list_some, list_some]
  refine and_congr_right fun _ => and_congr ⟨fun h x hx => ?_, fun h x hx => ?_⟩ ⟨fun h k hk => ?_, fun h k hk => ?_⟩
  · obtain ⟨⟨f, w⟩, _⟩ := hw x hx
    obtain ⟨y, hy⟩ := h x hx
    obtain ⟨z, h1, _⟩ := bind_ok hy
    exact (C124_accepts_partial w).1.1 ⟨_, h1⟩
  · obtain ⟨⟨f, w⟩, _⟩ := hw x hx
    obtain ⟨y, hy⟩ := (C124_accepts_partial w).1.2 (h x hx)
    exact ⟨_, bind_eq_ok y hy rfl⟩
  · obtain ⟨y, hy⟩ := h k hk
    unfold planKey at hy
    split at hy
    · assumption
    · cases hy
  · exact ⟨_, if_pos (h k hk)⟩

theorem planGroup_some {cols : List Col} {gs : List Nat} {fs : List TAgg} {p : Option Ast} {order : List (Nat × Dir)} {limit offset : Option Nat} (hwp : WellTyped (typesOf cols) p)
    (ho : ∀ k ∈ order, k.1 < gs.length) :
    (∃ q, planGroup cols gs fs p order limit offset = .ok q) ↔
      (∀ a, p = some a → Accepted (typesOf cols) a) ∧ (∀ i ∈ gs, i < cols.length) ∧ ∀ a ∈ fs, a.arg < cols.length := by
  constructor
  · rintro ⟨q, h⟩
    obtain ⟨x, h1, h⟩ := bind_ok h
    obtain ⟨y, h2, h⟩ := bind_ok h
    obtain ⟨z, h3, _⟩ := bind_ok h
    exact ⟨(planWhere_some hwp).1 ⟨x, h1⟩, (cols_ok h2).2, (aggs_ok h3).2⟩
  · rintro ⟨h1, h2, h3⟩
    obtain ⟨x, h1⟩ := (planWhere_some hwp).2 h1
    obtain ⟨y, hy⟩ := (list_some (f := planCol cols)).2 fun i hi => ⟨_, if_pos (h2 i hi)⟩
    obtain ⟨z, hz⟩ := (list_some (f := planAgg cols)).2 fun a ha => ⟨_, bind_eq_ok _ (if_pos (h3 a ha)) rfl⟩
    obtain ⟨w, hw⟩ := (list_some (f := planGroupKey cols gs) (xs := order)).2 fun k hk => by
      have hg := List.getElem?_eq_getElem (ho k hk)
      refine ⟨keyOn cols (gs[k.1]'(ho k hk), k.2), ?_⟩
      unfold planGroupKey
      rw [hg]
      exact if_pos (h2 _ (List.mem_of_getElem? hg))
    exact ⟨_, bind_eq_ok x h1 (bind_eq_ok y hy (bind_eq_ok z hz (bind_eq_ok w hw rfl)))⟩

theorem planInto_ok {cols : List Col} {into : List Nat} {vals : List (List Ast)} {q : Stmt} (h : (TStmt.insertInto into vals).plan cols = .ok q) : (∀ i ∈ into, i < cols.length) ∧
    ∃ xss, PR.list (planRow (typesOf (colsAt cols into))) vals = .ok xss ∧ q = .insert (listed cols into) xss := by
  by_cases hr : ∀ i ∈ into, i < cols.length
  · have e : (TStmt.insertInto into vals).plan cols =
        (PR.list (planRow (typesOf (colsAt cols into))) vals).bind fun rows => .ok (.insert ((colsAt cols into).map fun c => str c.name) rows) :=
      if_pos (by simpa using hr)
    rw [e] at h
    obtain ⟨x, h1, h2⟩ := bind_ok h
    cases h2
    exact ⟨hr, x, h1, rfl⟩
  · have e : (TStmt.insertInto into vals).plan cols = .err := if_neg (by simpa using hr)
    rw [e] at h
    cases h

/-! ## What is left to a statement -/

/-- What `FineT` asks of a statement on the rows of its table. -/
structure StmtOk (cols : List Col) (s : TStmt) (q : Stmt) (rows : List Row) : Prop where
  nodup : (cols.map Col.name).Nodup
  plan : s.plan cols = .ok q
  typed : s.Typed (typesOf cols)
  safe : ∀ r ∈ rows, ∀ a, s.filter = some a → Calm (typesOf cols) (reads r) a
  rows : RowsIn (typesOf cols) rows

theorem StmtOk.covered {cols : List Col} {s : TStmt} {q : Stmt} {rows : List Row} (h : StmtOk cols s q rows) : q.Const ∧ ∀ row ∈ rows, Clear q.filter row := by
  have hp := h.plan
  have ht := h.typed
  have hs := h.safe
  cases s with
  | insert vals =>
    obtain ⟨xss, h1, h2⟩ := bind_ok hp
    cases h2
    exact ⟨insert_const h1 ht, fun _ _ => trivial⟩
  | insertInto into vals =>
    obtain ⟨hr, xss, h1, rfl⟩ := planInto_ok hp
    obtain ⟨h0, ht⟩ := ht
    exact ⟨insert_const h1 (by rw [types_pick]; exact ht), fun _ _ => trivial⟩
  | delete p =>
    obtain ⟨x, h1, h2⟩ := bind_ok hp
    cases h2
    exact ⟨trivial, fun row hr => (selected_iff h1 ht (h.rows row hr) (hs row hr)).2⟩
  | update as p =>
    obtain ⟨x, h1, h2⟩ := bind_ok hp
    obtain ⟨y, h3, h4⟩ := bind_ok h2
    cases h4
    exact ⟨trivial, fun row hr => (selected_iff h1 ht.1 (h.rows row hr) (hs row hr)).2⟩

section
open Classical

theorem filter_iff {α β : Type} {g : α → β} {l : List α} {P : α → Prop} {b : β → Bool} (h : ∀ x ∈ l, P x ↔ b (g x) = true) :
    (l.map g).filter b = (l.filter fun x => decide (P x)).map g := by
  rw [List.filter_map]
  congr 1
  refine List.filter_congr fun x hx => ?_
  have := h x hx
  by_cases hp : P x
  · simp [hp, this.1 hp]
  · have : b (g x) = false := by
      cases hb : b (g x)
      · rfl
      · exact absurd (this.2 hb) hp
    simp [hp, this]

theorem filter_not_iff {α β : Type} {g : α → β} {l : List α} {P : α → Prop} {b : β → Bool} (h : ∀ x ∈ l, P x ↔ b (g x) = true) :
    (l.map g).filter (fun x => !b x) = (l.filter fun x => decide ¬P x).map g := by
  have := filter_iff (g := g) (l := l) (P := fun x => ¬P x) (b := fun x => !b x) fun x hx => by rw [h x hx]; simp
  rw [this]
  congr 1
  refine List.filter_congr fun x _ => ?_
  by_cases hp : P x <;> simp [hp]

end

theorem made_all {ext : Value → Nat → Option Value} {cols : List Col} (hnd : (cols.map Col.name).Nodup) {vals : List (List Ast)} {xss : List (List Expr)}
    (hp : PR.list (planRow (typesOf cols)) vals = .ok xss) (hty : ∀ es ∈ vals, RowTyped (typesOf cols) es) {new : List Row} (hl : new.length ≤ vals.length)
    (hst : ∀ (i : Nat) es row, xss[i]? = some es → new[i]? = some row → Stored ext (cols.map typed) [] es row) :
    (∀ (i : Nat) es row, vals[i]? = some es → (new.map reads)[i]? = some row → Made (typesOf cols) es row) ∧ RowsIn (typesOf cols) new := by
  obtain ⟨p1, p2⟩ := list_ok hp
  have key : ∀ (i : Nat) es row, vals[i]? = some es → new[i]? = some row → Made (typesOf cols) es (reads row) ∧ RowOf (typesOf cols) (reads row) row := by
    intro i es row h1 h2
    obtain ⟨xs, hx⟩ := at_lt p1 (lt_of_at h1)
    exact stored_made hnd (p2 i es xs h1 hx) (hty es (List.mem_of_getElem? h1)) (hst i xs row hx h2)
  refine ⟨fun i es row h1 h2 => ?_, fun row hr => ?_⟩
  · rw [List.getElem?_map] at h2
    obtain ⟨r, h3, rfl⟩ := Option.map_eq_some_iff.1 h2
    exact (key i es r h1 h3).1
  · obtain ⟨i, hi⟩ := List.mem_iff_getElem?.1 hr
    have := lt_of_at hi
    obtain ⟨es, hes⟩ := at_lt (rfl : vals.length = vals.length) (i := i) (by omega)
    exact (key i es row hes hi).2

theorem made_into {ext : Value → Nat → Option Value} {cols : List Col} (hnd : (cols.map Col.name).Nodup) {into : List Nat} (hr : ∀ i ∈ into, i < cols.length) (h0 : into ≠ [])
    {vals : List (List Ast)} {xss : List (List Expr)}
    (hp : PR.list (planRow (typesOf (colsAt cols into))) vals = .ok xss) (hty : ∀ es ∈ vals, RowTyped (typesAt (typesOf cols) into) es) {new : List Row} (hl : new.length ≤ vals.length)
    (hst : ∀ (i : Nat) es row, xss[i]? = some es → new[i]? = some row → Stored ext (cols.map typed) (listed cols into) es row) :
    (∀ (i : Nat) es row, vals[i]? = some es → (new.map reads)[i]? = some row → MadeInto (typesOf cols) into es row) ∧ RowsIn (typesOf cols) new := by
  obtain ⟨p1, p2⟩ := list_ok hp
  have key : ∀ (i : Nat) es row, vals[i]? = some es → new[i]? = some row → MadeInto (typesOf cols) into es (reads row) ∧ RowOf (typesOf cols) (reads row) row := by
    intro i es row h1 h2
    obtain ⟨xs, hx⟩ := at_lt p1 (lt_of_at h1)
    exact stored_into hnd hr h0 (p2 i es xs h1 hx) (hty es (List.mem_of_getElem? h1)) (hst i xs row hx h2)
  refine ⟨fun i es row h1 h2 => ?_, fun row hr => ?_⟩
  · rw [List.getElem?_map] at h2
    obtain ⟨r, h3, rfl⟩ := Option.map_eq_some_iff.1 h2
    exact (key i es r h1 h3).1
  · obtain ⟨i, hi⟩ := List.mem_iff_getElem?.1 hr
    have := lt_of_at hi
    obtain ⟨es, hes⟩ := at_lt (rfl : vals.length = vals.length) (i := i) (by omega)
    exact (key i es row hes hi).2

section
variable {d : Disk} {ext : Value → Nat → Option Value} {cols : List Col} {s : TStmt} {q : Stmt}

open Classical in
/-- Outside a transaction. -/
theorem effect_typed {rows rows' : List Row} {a : Answer} (h : StmtOk cols s q rows) {r : Dml.Reply} (E : Effect d ext (cols.map typed) q rows r rows') (ha : a = r.answer) :
    RowsIn (typesOf cols) rows' ∧
    ((∃ k R, a = .count k ∧ Done (typesOf cols) s (rows.map plainRow) k R ∧ (R.map fun x => (x.1, false)) = rows'.map plainRow) ∨
      (a = .error ∧ rows' = rows ∧ MayFailT d (typesOf cols) s (rows.map plainRow))) := by
  subst ha
  have hp := h.plan
  have ht := h.typed
  cases s with
  | insert vals =>
    obtain ⟨xss, h1, h2⟩ := bind_ok hp
    cases h2
    have hl := (list_ok h1).1
    cases E with
    | @insert _ _ _ new e1 e2 =>
      obtain ⟨m1, m2⟩ := made_all h.nodup h1 ht (by omega) e2
      refine ⟨fun r hr => (List.mem_append.1 hr).elim (h.rows r) (m2 r), .inl ⟨xss.length, rows.map plainRow ++ (new.map reads).map (·, true), rfl, ?_, ?_⟩⟩
      · rw [hl]
        exact .insert (by simp; omega) m1
      · rw [List.map_append, List.map_append, List.map_map, List.map_map, List.map_map]
        rfl
    | error e =>
      refine ⟨h.rows, .inr ⟨rfl, rfl, .insert ?_⟩⟩
      rcases e with e | e
      · exact .inl (Classical.byContradiction fun hb => e (sound_of h1 ht hb))
      · exact .inr e
  | insertInto into vals =>
    obtain ⟨hr, xss, h1, rfl⟩ := planInto_ok hp
    obtain ⟨h0, ht⟩ := ht
    have hl := (list_ok h1).1
    cases E with
    | @insert _ _ _ new e1 e2 =>
      obtain ⟨m1, m2⟩ := made_into h.nodup hr h0 h1 ht (by omega) e2
      refine ⟨fun r hrr => (List.mem_append.1 hrr).elim (h.rows r) (m2 r), .inl ⟨xss.length, rows.map plainRow ++ (new.map reads).map (·, true), rfl, ?_, ?_⟩⟩
      · rw [hl]
        exact .insertInto (by simp; omega) m1
      · rw [List.map_append, List.map_append, List.map_map, List.map_map, List.map_map]
        rfl
    | error e =>
      refine ⟨h.rows, .inr ⟨rfl, rfl, .insertInto ?_⟩⟩
      rcases e with e | e
      · exact .inl (Classical.byContradiction fun hb => e (sound_into hr h0 h1 ht hb))
      · exact .inr e
  | delete p =>
    obtain ⟨x, h1, h2⟩ := bind_ok hp
    cases h2
    have hsel := fun r hr => (selected_iff h1 ht (h.rows r hr) (h.safe r hr)).1
    cases E with
    | delete =>
      refine ⟨fun r hr => h.rows r (List.mem_filter.1 hr).1, .inl ⟨_, (rows.map plainRow).filter fun x => !holds (typesOf cols) p x.1, rfl, ?_, ?_⟩⟩
      · have := filter_iff (g := plainRow) (b := fun x => holds (typesOf cols) p x.1) hsel
        have e : (rows.filter fun r => decide (Selected x r)).length = ((rows.map plainRow).filter fun x => holds (typesOf cols) p x.1).length := by rw [this, List.length_map]
        rw [e]
        exact .delete
      · rw [filter_not_iff (g := plainRow) (b := fun x => holds (typesOf cols) p x.1) hsel, List.map_map]
        rfl
    | error e => cases e
  | update as p =>
    obtain ⟨x, h1, h2⟩ := bind_ok hp
    obtain ⟨es, h3, h4⟩ := bind_ok h2
    cases h4
    have hsel := fun r hr => (selected_iff h1 ht.1 (h.rows r hr) (h.safe r hr)).1
    cases E with
    | @update _ _ _ upd e =>
      have hu : ∀ r ∈ rows, Selected x r → reads (upd r) = after as (reads r) ∧ RowOf (typesOf cols) (reads (upd r)) (upd r) ∧ Computes (typesOf cols) as (reads r) :=
        fun r hr hs => assigned_after h3 ht.2 (h.rows r hr) (e r hr hs)
      refine ⟨fun r hr => ?_, .inl ⟨_, updated (typesOf cols) as p (rows.map plainRow), rfl, ?_, ?_⟩⟩
      · obtain ⟨r0, hr0, rfl⟩ := List.mem_map.1 hr
        split
        · next hs => exact (hu r0 hr0 hs).2.1
        · exact h.rows r0 hr0
      · have := filter_iff (g := plainRow) (b := fun x => holds (typesOf cols) p x.1) hsel
        have e : (rows.filter fun r => decide (Selected x r)).length = ((rows.map plainRow).filter fun x => holds (typesOf cols) p x.1).length := by rw [this, List.length_map]
        rw [e]
        refine .update fun y hy hh => ?_
        obtain ⟨r, hr, rfl⟩ := List.mem_map.1 hy
        exact ⟨rfl, (hu r hr ((hsel r hr).2 hh)).2.2⟩
      · unfold updated
        rw [List.map_map, List.map_map, List.map_map]
        refine List.map_congr_left fun r hr => ?_
        by_cases hs : Selected x r
        · have := (hsel r hr).1 hs
          simp [plainRow, hs, this, (hu r hr hs).1]
        · have : holds (typesOf cols) p (reads r) = false := by
            cases hb : holds (typesOf cols) p (reads r)
            · rfl
            · exact absurd ((hsel r hr).2 hb) hs
          simp [plainRow, hs, this]
    | error e =>
      refine ⟨h.rows, .inr ⟨rfl, rfl, ?_⟩⟩
      obtain ⟨r, hr, hs, hn⟩ := e
      exact .update (x := plainRow r) (List.mem_map_of_mem hr) ((hsel r hr).1 hs) (noUpdate_noChange h3 ht.2 (h.rows r hr) hn)

open Classical in
/-- In a transaction. -/
theorem within_typed {rows rows' : List (Row × Bool)} {a : Answer} (h : StmtOk cols s q (rows.map (·.1))) (W : Within d ext (cols.map typed) q rows a rows') :
    RowsIn (typesOf cols) (rows'.map (·.1)) ∧
    ((∃ k, a = .count k ∧ Done (typesOf cols) s (rows.map markedRow) k (rows'.map markedRow)) ∨
      (a = .error ∧ FailedT d (typesOf cols) s (rows.map markedRow) (rows'.map markedRow))) ∧
    (DeletesOwn q rows → s.OnOwn (typesOf cols) (rows.map markedRow)) := by
  have hp := h.plan
  have ht := h.typed
  have hrow : ∀ x ∈ rows, RowOf (typesOf cols) (reads x.1) x.1 := fun x hx => h.rows x.1 (List.mem_map_of_mem hx)
  have hsafe : ∀ x ∈ rows, ∀ a, s.filter = some a → Calm (typesOf cols) (reads x.1) a := fun x hx => h.safe x.1 (List.mem_map_of_mem hx)
  cases s with
  | insert vals =>
    obtain ⟨xss, h1, h2⟩ := bind_ok hp
    cases h2
    have hl := (list_ok h1).1
    refine ⟨?_, ?_, fun ⟨p, h, _⟩ => by cases h⟩
    · cases W with
      | @insert _ _ _ new e1 e2 =>
        obtain ⟨m1, m2⟩ := made_all h.nodup h1 ht (by omega) e2
        intro r hr
        rw [List.map_append, List.map_map] at hr
        rcases List.mem_append.1 hr with hr | hr
        · exact h.rows r hr
        · obtain ⟨r', h1, rfl⟩ := List.mem_map.1 hr
          exact m2 r' h1
      | @insertError _ _ _ new e1 e2 e3 =>
        obtain ⟨m1, m2⟩ := made_all h.nodup h1 ht (by rcases e1 with rfl | e1; exact Nat.zero_le _; omega) e2
        intro r hr
        rw [List.map_append, List.map_map] at hr
        rcases List.mem_append.1 hr with hr | hr
        · exact h.rows r hr
        · obtain ⟨r', h1, rfl⟩ := List.mem_map.1 hr
          exact m2 r' h1
    · have hmap : ∀ new : List Row, (rows ++ new.map (·, true)).map markedRow = rows.map markedRow ++ (new.map reads).map (·, true) := by
        intro new
        simp [markedRow]
      cases W with
      | @insert _ _ _ new e1 e2 =>
        obtain ⟨m1, m2⟩ := made_all h.nodup h1 ht (by omega) e2
        refine .inl ⟨_, rfl, ?_⟩
        rw [hmap, hl]
        exact .insert (by simp; omega) m1
      | @insertError _ _ _ new e1 e2 e3 =>
        obtain ⟨m1, m2⟩ := made_all h.nodup h1 ht (by rcases e1 with rfl | e1; exact Nat.zero_le _; omega) e2
        refine .inr ⟨rfl, ?_⟩
        rw [hmap]
        refine .insert ?_ m1 ?_
        · rcases e1 with rfl | e1
          · exact .inl rfl
          · exact .inr (by simp; omega)
        · rcases e3 with e | e
          · exact .inl (Classical.byContradiction fun hb => e (sound_of h1 ht hb))
          · exact .inr e
  | insertInto into vals =>
    obtain ⟨hr, xss, h1, rfl⟩ := planInto_ok hp
    obtain ⟨h0, ht⟩ := ht
    have hl := (list_ok h1).1
    refine ⟨?_, ?_, fun ⟨p, h, _⟩ => by cases h⟩
    · cases W with
      | @insert _ _ _ new e1 e2 =>
        obtain ⟨m1, m2⟩ := made_into h.nodup hr h0 h1 ht (by omega) e2
        intro r hrr
        rw [List.map_append, List.map_map] at hrr
        rcases List.mem_append.1 hrr with hrr | hrr
        · exact h.rows r hrr
        · obtain ⟨r', hm, rfl⟩ := List.mem_map.1 hrr
          exact m2 r' hm
      | @insertError _ _ _ new e1 e2 e3 =>
        obtain ⟨m1, m2⟩ := made_into h.nodup hr h0 h1 ht (by rcases e1 with rfl | e1; exact Nat.zero_le _; omega) e2
        intro r hrr
        rw [List.map_append, List.map_map] at hrr
        rcases List.mem_append.1 hrr with hrr | hrr
        · exact h.rows r hrr
        · obtain ⟨r', hm, rfl⟩ := List.mem_map.1 hrr
          exact m2 r' hm
    · have hmap : ∀ new : List Row, (rows ++ new.map (·, true)).map markedRow = rows.map markedRow ++ (new.map reads).map (·, true) := by
        intro new
        simp [markedRow]
      cases W with
      | @insert _ _ _ new e1 e2 =>
        obtain ⟨m1, m2⟩ := made_into h.nodup hr h0 h1 ht (by omega) e2
        refine .inl ⟨_, rfl, ?_⟩
        rw [hmap, hl]
        exact .insertInto (by simp; omega) m1
      | @insertError _ _ _ new e1 e2 e3 =>
        obtain ⟨m1, m2⟩ := made_into h.nodup hr h0 h1 ht (by rcases e1 with rfl | e1; exact Nat.zero_le _; omega) e2
        refine .inr ⟨rfl, ?_⟩
        rw [hmap]
        refine .insertInto ?_ m1 ?_
        · rcases e1 with rfl | e1
          · exact .inl rfl
          · exact .inr (by simp; omega)
        · rcases e3 with e | e
          · exact .inl (Classical.byContradiction fun hb => e (sound_into hr h0 h1 ht hb))
          · exact .inr e
  | delete p =>
    obtain ⟨x, h1, h2⟩ := bind_ok hp
    cases h2
    have hsel : ∀ y ∈ rows, Selected x y.1 ↔ holds (typesOf cols) p (markedRow y).1 = true := fun y hy => (selected_iff h1 ht (hrow y hy) (hsafe y hy)).1
    refine ⟨?_, ?_, ?_⟩
    · cases W with
      | delete =>
        intro r hr
        obtain ⟨y, hy, rfl⟩ := List.mem_map.1 hr
        exact hrow y (List.mem_filter.1 hy).1
    · cases W with
      | delete =>
        refine .inl ⟨_, rfl, ?_⟩
        have := filter_iff (g := markedRow) (b := fun x => holds (typesOf cols) p x.1) hsel
        have e : (rows.filter fun r => decide (Selected x r.1)).length = ((rows.map markedRow).filter fun x => holds (typesOf cols) p x.1).length := by rw [this, List.length_map]
        rw [e, ← filter_not_iff (g := markedRow) (b := fun x => holds (typesOf cols) p x.1) hsel]
        exact .delete
    · rintro ⟨p', hp', y, hy, hm, hs⟩
      cases hp'
      exact ⟨p, rfl, markedRow y, List.mem_map_of_mem hy, hm, (hsel y hy).1 hs⟩
  | update as p =>
    obtain ⟨x, h1, h2⟩ := bind_ok hp
    obtain ⟨es, h3, h4⟩ := bind_ok h2
    cases h4
    have hsel : ∀ y ∈ rows, Selected x y.1 ↔ holds (typesOf cols) p (markedRow y).1 = true := fun y hy => (selected_iff h1 ht.1 (hrow y hy) (hsafe y hy)).1
    -- a part of the rows that has been updated
    have part : ∀ {a : List (Row × Bool)} {upd : Row → Row}, (∀ y ∈ a, y ∈ rows) → Updates es x upd a →
        RowsIn (typesOf cols) ((changed x upd a).map (·.1)) ∧ (changed x upd a).map markedRow = updated (typesOf cols) as p (a.map markedRow) ∧
        ∀ y ∈ a.map markedRow, holds (typesOf cols) p y.1 = true → y.2 = false ∧ Computes (typesOf cols) as y.1 := by
      intro a upd hsub hup
      have hu : ∀ y ∈ a, Selected x y.1 → reads (upd y.1) = after as (reads y.1) ∧ RowOf (typesOf cols) (reads (upd y.1)) (upd y.1) ∧ Computes (typesOf cols) as (reads y.1) :=
        fun y hy hs => assigned_after h3 ht.2 (hrow y (hsub y hy)) (hup y hy hs).2
      refine ⟨fun r hr => ?_, ?_, fun y hy hh => ?_⟩
      · obtain ⟨z, hz, rfl⟩ := List.mem_map.1 hr
        obtain ⟨y, hy, rfl⟩ := List.mem_map.1 hz
        split
        · next hs => exact (hu y hy hs).2.1
        · exact hrow y (hsub y hy)
      · unfold changed updated
        rw [List.map_map, List.map_map]
        refine List.map_congr_left fun y hy => ?_
        by_cases hs : Selected x y.1
        · have := (hsel y (hsub y hy)).1 hs
          simp only [Function.comp, if_pos hs, if_pos this]
          simp only [markedRow, (hu y hy hs).1]
        · have : ¬holds (typesOf cols) p (markedRow y).1 = true := fun hb => hs ((hsel y (hsub y hy)).2 hb)
          simp only [Function.comp, if_neg hs, if_neg this]
      · obtain ⟨z, hz, rfl⟩ := List.mem_map.1 hy
        have hs := (hsel z (hsub z hz)).2 hh
        exact ⟨(hup z hz hs).1, (hu z hz hs).2.2⟩
    refine ⟨?_, ?_, fun ⟨p, h, _⟩ => by cases h⟩
    · cases W with
      | @update _ _ _ upd e => exact (part (fun y hy => hy) e).1
      | @updateError _ _ a y b upd e1 e2 e3 =>
        intro r hr
        rw [List.map_append] at hr
        rcases List.mem_append.1 hr with hr | hr
        · exact (part (fun z hz => List.mem_append_left _ hz) e1).1 r hr
        · obtain ⟨z, hz, rfl⟩ := List.mem_map.1 hr
          exact hrow z (List.mem_append_right _ hz)
    · cases W with
      | @update _ _ _ upd e =>
        obtain ⟨_, g2, g3⟩ := part (fun y hy => hy) e
        refine .inl ⟨_, rfl, ?_⟩
        have := filter_iff (g := markedRow) (b := fun x => holds (typesOf cols) p x.1) hsel
        have e : (rows.filter fun r => decide (Selected x r.1)).length = ((rows.map markedRow).filter fun x => holds (typesOf cols) p x.1).length := by rw [this, List.length_map]
        rw [e, g2]
        exact .update g3
      | @updateError _ _ a y b upd e1 e2 e3 =>
        obtain ⟨_, g2, g3⟩ := part (fun z hz => List.mem_append_left _ hz) e1
        have hy : y ∈ a ++ y :: b := List.mem_append_right _ List.mem_cons_self
        refine .inr ⟨rfl, ?_⟩
        rw [List.map_append, List.map_append, List.map_cons, g2]
        refine .update g3 ((hsel y hy).1 e2) ?_
        rcases e3 with e3 | e3
        · exact .inl e3
        · exact .inr (noUpdate_noChange h3 ht.2 (hrow y hy) e3)

end

end Verif.Whole
