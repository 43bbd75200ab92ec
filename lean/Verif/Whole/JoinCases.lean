import Verif.Whole.TypedCases

/-!
# A session with joins and INSERTs with lists of columns
-/

namespace Verif.Whole

open Verif.Wire Verif.Bytes Verif.Sql Verif.Exec Verif.Dml
open Verif.Catalog (Cat Tab Col ColDef FkDef ObjName)

def u : Catalog.Name := ['u']
def v : Catalog.Name := ['v']
def cu : List (Catalog.Name × Nat) := [(['x'], 3), (['y'], 11)]
def cv : List (Catalog.Name × Nat) := [(['z'], 11)]

/-- `t JOIN u ON k = x`, or a LEFT, RIGHT or FULL JOIN: a TINYINT and an INTEGER. -/
def tu (kind : TJoin) : TFrom := .join kind t u (3, 0) []

/-- `t LEFT JOIN u ON k = x AND c = y`. -/
def tu2 : TFrom := .join .left t u (3, 0) [(2, 1)]

/-- Three tables, the third one and again the first one with IF NOT EXISTS. `SELECT a, y, a + x FROM t JOIN u ON k = x WHERE a > 10 ORDER BY y DESC`, `SELECT a, y FROM t LEFT JOIN u ON k = x`, `SELECT y, COUNT(*), MAX(a) FROM t LEFT JOIN u ON k = x GROUP BY y ORDER BY y`,
`SELECT DISTINCT y, x FROM t JOIN u ON k = x ORDER BY y DESC`, `SELECT a, z FROM t JOIN u ON k = x LEFT JOIN v ON y = z WHERE b`; `SELECT a, y FROM t LEFT JOIN u ON k = x AND c = y`, `SELECT a, y FROM t RIGHT JOIN u ON k = x`,
`SELECT a, y FROM t FULL JOIN u ON k = x WHERE a <> 8 OR a IS NULL ORDER BY y, a DESC`; columns and a table that are not there. `INSERT INTO t (k, a) VALUES (7, -3), (NULL, 1 + 1)`,
`INSERT INTO u (y, y) VALUES ('s', 't')` (which is no error), a value out of the range of TINYINT, too few values, a column that is not there, and what is in the tables then. -/
def exT3 : List TReq := [.create t cs, .create u cu, .create v cv true, .create t cs true,
  .query t (.insert [[.num 70, .bool true, .str [112], .num 1], [.neg (.num 5), .null, .str [], .null], [.num 42, .bool false, .null, .num 2], [.num 8, .bool true, .null, .num 1]]),
  .query u (.insert [[.num 1, .str [112]], [.num 1, .str [113]], [.null, .str [114]]]), .query v (.insert [[.str [112]]]),
  .select (tu .inner) [(ta, "a"), (.col 5, "y"), (.arith .add ta (.col 4), "a + x")] (some (.cmp .gt ta (.num 10))) [(5, .desc)] none none,
  .select (tu .left) [(ta, "a"), (.col 5, "y")] none [] none none,
  .group (tu .left) [5] [.countStar, .max 0] none [(0, .asc)] none none,
  .distinct (tu .inner) [(.col 5, "y"), (.col 4, "x")] none [(0, .desc)] none none,
  .select (.join .left (tu .inner) v (5, 0) []) [(ta, "a"), (.col 6, "z")] (some tb) [] none none,
  .select tu2 [(ta, "a"), (.col 5, "y")] none [] none none, .select (tu .right) [(ta, "a"), (.col 5, "y")] none [] none none,
  .select (tu .full) [(ta, "a"), (.col 5, "y")] (some (.or (.cmp .ne ta (.num 8)) (.is .isNull false ta))) [(5, .asc), (0, .desc)] none none, .select (.join .inner t u (3, 0) [(0, 7)]) [(ta, "a")] none [] none none,
  .select (.join .inner t u (9, 0) []) [(ta, "a")] none [] none none, .select (.join .inner t ['w'] (0, 0) []) [(ta, "a")] none [] none none,
  .query t (.insertInto [3, 0] [[.num 7, .neg (.num 3)], [.null, .arith .add (.num 1) (.num 1)]]), .query u (.insertInto [1, 1] [[.str [115], .str [116]]]), .query t (.insertInto [0, 3] [[.num 1, .num 128]]),
  .query t (.insertInto [0, 3] [[.num 1]]), .query t (.insertInto [9] [[.num 1]]),
  .select t [(ta, "a"), (tb, "b"), (tc, "c"), (tk, "k")] (some (.cmp .lt ta (.num 8))) [] none none, .select u [(.col 0, "x"), (.col 1, "y")] none [] none none]

def exTRun3 : Option (List TCall × Session) := Session.trunFor exDisk noExt (fun _ _ _ => noSeen) exChoices (.new (fun _ => 1) 1) exT3

theorem exTRun3_replies : exTRun3.map (fun x => x.1.map fun y => tshown y.reply) = some [.ok, .ok, .ok, .ok, .count 4, .count 3, .count 1,
    .rows [[.int 70, .str [113], .int 71], [.int 70, .str [112], .int 71]],
    .rows [[.int 70, .str [112]], [.int 70, .str [113]], [.int (-5), .null], [.int 42, .null], [.int 8, .str [112]], [.int 8, .str [113]]],
    .rows [[.null, .int 2, .int 42], [.str [112], .int 2, .int 70], [.str [113], .int 2, .int 70]], .rows [[.str [113], .int 1], [.str [112], .int 1]],
    .rows [[.int 70, .str [112]], [.int 70, .null], [.int 8, .str [112]], [.int 8, .null]],
    .rows [[.int 70, .str [112]], [.int (-5), .null], [.int 42, .null], [.int 8, .null]],
    .rows [[.int 70, .str [112]], [.int 70, .str [113]], [.int 8, .str [112]], [.int 8, .str [113]], [.null, .str [114]]],
    .rows [[.int 42, .null], [.int (-5), .null], [.int 70, .str [112]], [.int 70, .str [113]], [.null, .str [114]]], .error, .error, .error,
    .count 2, .count 1, .error, .error, .error, .rows [[.int (-5), .null, .str [], .null], [.int (-3), .null, .null, .int 7], [.int 2, .null, .null, .null]],
    .rows [[.int 1, .str [112]], [.int 1, .str [113]], [.null, .str [114]], [.null, .str [115]]]] := by decide +kernel
theorem exTRun3_complete : exTRun3.map (fun x => x.1.all fun y => y.complete 0) = some true := by decide +kernel

/-- The columns of the tables a history creates. -/
theorem nextT_tabs {d : Disk} {T T' : TDb} {r : TReq} {a : Reply} (N : NextT d T r a T') {P : Catalog.Name → List (Catalog.Name × Nat) → Prop} (hr : ∀ n cols ine, r = .create n cols ine → P n cols)
    (h : ∀ n cols, T.tab n = some cols → P n cols) : ∀ n cols, T'.tab n = some cols → P n cols := by
  cases N with
  | @created n cols ine _ _ =>
    intro m cols' hm
    dsimp only at hm
    split at hm
    · next e => cases hm; rw [e]; exact hr n _ _ rfl
    · exact h m cols' hm
  | _ => exact h

theorem nextsT_tabs {d : Disk} {T T' : TDb} {xs : List TCall} (N : NextsT d T xs T') {P : Catalog.Name → List (Catalog.Name × Nat) → Prop}
    (hr : ∀ x ∈ xs, ∀ n cols ine, x.req = .create n cols ine → P n cols) (h : ∀ n cols, T.tab n = some cols → P n cols) : ∀ n cols, T'.tab n = some cols → P n cols := by
  induction N with
  | nil => exact h
  | cons N _ ih => exact ih (fun x hx => hr x (List.mem_cons_of_mem _ hx)) (nextT_tabs N (hr _ List.mem_cons_self) h)

/-- The columns of the three tables. -/
def Declared (n : Catalog.Name) (cols : List (Catalog.Name × Nat)) : Prop := (n = t ∧ cols = cs) ∨ (n = u ∧ cols = cu) ∨ (n = v ∧ cols = cv)

theorem declared_t {cols : List (Catalog.Name × Nat)} (h : Declared t cols) : cols = cs := by
  rcases h with h | h | h
  · exact h.2
  · exact absurd h.1 (by decide)
  · exact absurd h.1 (by decide)

theorem declared_u {cols : List (Catalog.Name × Nat)} (h : Declared u cols) : cols = cu := by
  rcases h with h | h | h
  · exact absurd h.1 (by decide)
  · exact h.2
  · exact absurd h.1 (by decide)

theorem declared_v {cols : List (Catalog.Name × Nat)} (h : Declared v cols) : cols = cv := by
  rcases h with h | h | h
  · exact absurd h.1 (by decide)
  · exact absurd h.1 (by decide)
  · exact h.2

section
variable {T : TDb} (hT : ∀ n cols, T.tab n = some cols → Declared n cols)

theorem cols_join {kind : TJoin} {l : TFrom} {n : Catalog.Name} {on : Nat × Nat} {more : List (Nat × Nat)} {cols : List (Catalog.Name × Nat)} (h : T.cols (.join kind l n on more) = some cols) :
    ∃ a b, T.cols l = some a ∧ T.tab n = some b ∧ cols = a ++ b := by
  unfold TDb.cols at h
  cases ha : T.cols l with
  | none => rw [ha] at h; cases h
  | some a =>
    cases hb : T.tab n with
    | none => rw [ha, hb] at h; cases h
    | some b =>
      rw [ha, hb] at h
      dsimp only at h
      split at h
      · cases h; exact ⟨a, b, rfl, rfl, rfl⟩
      · cases h

include hT in
theorem tu_cols {kind : TJoin} {cols : List (Catalog.Name × Nat)} (h : T.cols (tu kind) = some cols) : cols = cs ++ cu := by
  obtain ⟨a, b, ha, hb, rfl⟩ := cols_join h
  cases declared_t (hT _ _ ha)
  cases declared_u (hT _ _ hb)
  rfl

include hT in
theorem tu_fine (kind : TJoin) : T.FromFine (tu kind) := by
  refine ⟨List.cons_ne_nil _ _, List.cons_ne_nil _ _, fun a b ha hb => ?_⟩
  cases declared_t (hT _ _ ha)
  cases declared_u (hT _ _ hb)
  exact ⟨by decide, fun p hp s t hs ht => by cases List.mem_singleton.1 hp; cases hs; cases ht; exact ⟨_, rfl, rfl⟩⟩

include hT in
theorem tu2_cols {cols : List (Catalog.Name × Nat)} (h : T.cols tu2 = some cols) : cols = cs ++ cu := by
  obtain ⟨a, b, ha, hb, rfl⟩ := cols_join h
  cases declared_t (hT _ _ ha)
  cases declared_u (hT _ _ hb)
  rfl

include hT in
theorem tu2_fine : T.FromFine tu2 := by
  refine ⟨List.cons_ne_nil _ _, List.cons_ne_nil _ _, fun a b ha hb => ?_⟩
  cases declared_t (hT _ _ ha)
  cases declared_u (hT _ _ hb)
  refine ⟨by decide, fun p hp s t hs ht => ?_⟩
  rcases List.mem_cons.1 hp with rfl | hp
  · cases hs; cases ht; exact ⟨_, rfl, rfl⟩
  · cases List.mem_singleton.1 hp; cases hs; cases ht; exact ⟨_, rfl, rfl⟩

include hT in
theorem tuv_cols {cols : List (Catalog.Name × Nat)} (h : T.cols (.join .left (tu .inner) v (5, 0) []) = some cols) : cols = cs ++ cu ++ cv := by
  obtain ⟨a, b, ha, hb, rfl⟩ := cols_join h
  cases tu_cols hT ha
  cases declared_v (hT _ _ hb)
  rfl

include hT in
theorem tuv_fine : T.FromFine (.join .left (tu .inner) v (5, 0) []) := by
  refine ⟨tu_fine hT .inner, List.cons_ne_nil _ _, fun a b ha hb => ?_⟩
  cases tu_cols hT ha
  cases declared_v (hT _ _ hb)
  exact ⟨by decide, fun p hp s t hs ht => by cases List.mem_singleton.1 hp; cases hs; cases ht; exact ⟨_, rfl, rfl⟩⟩

include hT in
theorem exT3_fine {r : TReq} (h : r ∈ exT3) : FineT r T := by
  simp only [exT3, List.mem_cons, List.not_mem_nil, or_false] at h
  rcases h with rfl | rfl | rfl | rfl | rfl | rfl | rfl | rfl | rfl | rfl | rfl | rfl | rfl | rfl | rfl | rfl | rfl | rfl | rfl | rfl | rfl | rfl | rfl | rfl | rfl
  · exact ⟨by decide, by decide, by decide⟩
  · exact ⟨by decide, by decide, by decide⟩
  · exact ⟨by decide, by decide, by decide⟩
  · exact ⟨by decide, by decide, by decide⟩
  · refine ⟨by decide, fun cols hc => ⟨fun es hes => ⟨?_, zip_at ?_⟩, nofun⟩⟩ <;> cases declared_t (hT _ _ hc) <;> revert hes es <;>
      simp [cs, types, WT, LitItems, famOf, or_imp, forall_and, anyFam]
  · refine ⟨by decide, fun cols hc => ⟨fun es hes => ⟨?_, zip_at ?_⟩, nofun⟩⟩ <;> cases declared_u (hT _ _ hc) <;> revert hes es <;>
      simp [cu, types, WT, LitItems, famOf, or_imp, forall_and, anyFam]
  · refine ⟨by decide, fun cols hc => ⟨fun es hes => ⟨?_, zip_at ?_⟩, nofun⟩⟩ <;> cases declared_v (hT _ _ hc) <;> revert hes es <;>
      simp [cv, types, WT, LitItems, famOf]
  · refine ⟨tu_fine hT _, by decide, fun cols hc => ?_⟩
    cases tu_cols hT hc
    simp [cs, cu, types, WT, LitItems, famOf, WellTyped, ta]
    exact oneItem_of (by simp) (by simp)
  · refine ⟨tu_fine hT _, by decide, fun cols hc => ?_⟩
    cases tu_cols hT hc
    simp [cs, cu, types, WT, LitItems, famOf, WellTyped, ta]
  · refine ⟨tu_fine hT _, by decide, by decide, by decide, by decide, fun cols hc => ?_⟩
    cases tu_cols hT hc
    simp [cs, cu, types, WellTyped, TAgg.Typed, NoAgg]
  · refine ⟨tu_fine hT _, by decide, fun cols hc => ?_⟩
    cases tu_cols hT hc
    simp [cs, cu, types, WT, LitItems, famOf, WellTyped, exprTy]
    exact oneItem_of (by simp) (by simp)
  · refine ⟨tuv_fine hT, by decide, fun cols hc => ?_⟩
    cases tuv_cols hT hc
    simp [cs, cu, cv, types, WT, LitItems, famOf, WellTyped, ta, tb]
  · refine ⟨tu2_fine hT, by decide, fun cols hc => ?_⟩
    cases tu2_cols hT hc
    simp [cs, cu, types, WT, LitItems, famOf, WellTyped, ta]
  · refine ⟨tu_fine hT _, by decide, fun cols hc => ?_⟩
    cases tu_cols hT hc
    simp [cs, cu, types, WT, LitItems, famOf, WellTyped, ta]
  · refine ⟨tu_fine hT _, by decide, fun cols hc => ?_⟩
    cases tu_cols hT hc
    simp [cs, cu, types, WT, LitItems, famOf, WellTyped, ta, anyFam]
    exact ⟨oneItem_of (by simp) (by simp), oneItem_of (by simp) (by simp)⟩
  · refine ⟨⟨List.cons_ne_nil _ _, List.cons_ne_nil _ _, fun a b ha hb => ?_⟩, by decide, fun cols hc => ?_⟩
    · cases declared_t (hT _ _ ha)
      cases declared_u (hT _ _ hb)
      refine ⟨by decide, fun p hp s t hs ht => ?_⟩
      rcases List.mem_cons.1 hp with rfl | hp
      · cases hs; cases ht; exact ⟨_, rfl, rfl⟩
      · cases List.mem_singleton.1 hp; cases ht
    · obtain ⟨a, b, ha, hb, rfl⟩ := cols_join hc
      cases declared_t (hT _ _ ha)
      cases declared_u (hT _ _ hb)
      simp [cs, cu, types, WT, LitItems, famOf, WellTyped, ta]
  · refine ⟨⟨List.cons_ne_nil _ _, List.cons_ne_nil _ _, fun a b ha hb => ?_⟩, by decide, fun cols hc => ?_⟩
    · cases declared_t (hT _ _ ha)
      cases declared_u (hT _ _ hb)
      exact ⟨by decide, fun p hp s t hs _ => by cases List.mem_singleton.1 hp; cases hs⟩
    · obtain ⟨a, b, ha, hb, rfl⟩ := cols_join hc
      cases declared_t (hT _ _ ha)
      cases declared_u (hT _ _ hb)
      simp [cs, cu, types, WT, LitItems, famOf, WellTyped, ta]
  · have no : ∀ b, ¬T.tab ['w'] = some b := by
      intro b hb
      rcases hT _ _ hb with h | h | h <;> exact absurd h.1 (by decide)
    refine ⟨⟨List.cons_ne_nil _ _, List.cons_ne_nil _ _, fun a b _ hb => absurd hb (no b)⟩, by decide, fun cols hc => ?_⟩
    obtain ⟨a, b, _, hb, _⟩ := cols_join hc
    exact absurd hb (no b)
  · refine ⟨by decide, fun cols hc => ⟨⟨by decide, fun es hes => ⟨?_, zip_at ?_⟩⟩, nofun⟩⟩ <;> cases declared_t (hT _ _ hc) <;> revert hes es <;>
      simp [cs, types, typesAt, WT, LitItems, famOf, or_imp, forall_and, anyFam]
  · refine ⟨by decide, fun cols hc => ⟨⟨by decide, fun es hes => ⟨?_, zip_at ?_⟩⟩, nofun⟩⟩ <;> cases declared_u (hT _ _ hc) <;> revert hes es <;>
      simp [cu, types, typesAt, WT, LitItems, famOf, or_imp, forall_and, anyFam]
  · refine ⟨by decide, fun cols hc => ⟨⟨by decide, fun es hes => ⟨?_, zip_at ?_⟩⟩, nofun⟩⟩ <;> cases declared_t (hT _ _ hc) <;> revert hes es <;>
      simp [cs, types, typesAt, WT, LitItems, famOf, or_imp, forall_and, anyFam]
  · refine ⟨by decide, fun cols hc => ⟨⟨by decide, fun es hes => ⟨?_, zip_at ?_⟩⟩, nofun⟩⟩ <;> cases declared_t (hT _ _ hc) <;> revert hes es <;>
      simp [cs, types, typesAt, WT, LitItems, famOf, or_imp, forall_and, anyFam]
  · refine ⟨by decide, fun cols hc => ⟨⟨by decide, fun es hes => ⟨?_, zip_at ?_⟩⟩, nofun⟩⟩ <;> cases declared_t (hT _ _ hc) <;> revert hes es <;>
      simp [cs, types, typesAt, WT, LitItems, famOf, or_imp, forall_and, anyFam]
  · refine ⟨List.cons_ne_nil _ _, by decide, fun cols hc => ?_⟩
    cases declared_t (hT _ _ hc)
    simp [cs, types, WT, LitItems, famOf, WellTyped, ta, tb, tc, tk]
  · refine ⟨List.cons_ne_nil _ _, by decide, fun cols hc => ?_⟩
    cases declared_u (hT _ _ hc)
    simp [cu, types, WT, LitItems, famOf, WellTyped]

end

/-- The hypotheses of `C143_session_partial`, with joins. -/
theorem exT3_meets : ∃ xs s, exTRun3 = some (xs, s) ∧
    ∃ T, NextsT exDisk .new xs T ∧ ∀ n, ((s.cat.selectTable (plainName n)).map fun t => t.cols.map fun c => (c.name, c.ty)) = T.tab n ∧
      ∀ t, s.cat.selectTable (plainName n) = some t → ∃ out, Yields (seqScan exDisk (s.srv.heap t.oid)).m (seqScan exDisk (s.srv.heap t.oid)).s out .done ∧ out.map reads = T.rows n := by
  have h1 := exTRun3_complete
  cases h : exTRun3 with
  | none => rw [h] at h1; cases h1
  | some x =>
    rw [h] at h1
    obtain ⟨R, r1, c1⟩ := Session.trunFor_run h
    have hmem : ∀ w ∈ x.1, w.req ∈ exT3 := fun w hw => r1 ▸ List.mem_map_of_mem hw
    have no : ∀ w ∈ x.1, w.req ≠ .rollback := fun w hw => by
      have := hmem w hw
      simp only [exT3, List.mem_cons, List.not_mem_nil, or_false] at this
      rcases this with h | h | h | h | h | h | h | h | h | h | h | h | h | h | h | h | h | h | h | h | h | h | h | h | h <;> rw [h] <;> nofun
    refine ⟨x.1, x.2, rfl, C143_session_partial exDisk_readable exDisk_sane exDisk_fresh noExt_typed (fun _ => .refl _) (by decide) R ?_ ?_⟩
    · intro z hz t
      rw [c1 z hz (no z hz) t]
      exact List.all_eq_true.1 (Option.some.inj h1) z hz
    · intro pre z post hp T N
      refine exT3_fine (nextsT_tabs N (P := Declared) (fun w hw n cols ine hc => ?_) nofun) (hmem z (hp ▸ List.mem_append_right _ List.mem_cons_self))
      have := hmem w (hp ▸ List.mem_append_left _ hw)
      rw [hc] at this
      simp only [exT3, List.mem_cons, List.not_mem_nil, or_false, TReq.create.injEq, reduceCtorEq] at this
      rcases this with h | h | h | h
      · exact .inl ⟨h.1, h.2.1⟩
      · exact .inr (.inl ⟨h.1, h.2.1⟩)
      · exact .inr (.inr ⟨h.1, h.2.1⟩)
      · exact .inl ⟨h.1, h.2.1⟩

/-- The rows of this session can be joined. -/
example {T : TDb} (ht : T.rows t = [[.int 70, .bool true, .str [112], .int 1], [.int (-5), .null, .str [], .null]]) (hu : T.rows u = [[.int 1, .str [112]], [.int 1, .str [113]], [.null, .str [114]]])
    (kind : TJoin) : T.Joins (tu kind) := by
  refine ⟨trivial, fun _ => ⟨?_, ?_⟩⟩
  · show T.rows t ≠ []
    rw [ht]
    nofun
  · rw [hu]
    decide

end Verif.Whole
