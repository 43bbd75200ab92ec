import Verif.Whole.TypedProps
import Verif.Whole.NamedCases

/-!
# A session with expressions
-/

namespace Verif.Whole

open Verif.Wire Verif.Bytes Verif.Sql Verif.Exec Verif.Dml
open Verif.Catalog (Cat Tab Col ColDef FkDef ObjName)

/-! ## Running requests -/

/-- One request. -/
def Session.tstepFor (d : Disk) (ext : Value → Nat → Option Value) (seen : Cat → Server → Nat → Seen) (ch : Choices) (s : Session) (r : TReq) : Option (TCall × Session) :=
  match r.plan s.cat with
  | .ok q => (s.stepFor d ext seen typed ch q).map fun x => (⟨r, x.1.reply, x.1.complete⟩, x.2)
  | .err => some (⟨r, .error, fun _ => true⟩, ⟨s.cat, s.srv.tick⟩)
  | .out => none

theorem Session.tstepFor_step {d : Disk} {ext : Value → Nat → Option Value} {seen : Cat → Server → Nat → Seen} {ch : Choices} {s : Session} {r : TReq} {y : TCall × Session}
    (h : s.tstepFor d ext seen ch r = some y) : Session.TStep d ext seen ch s y.1 y.2 ∧ y.1.req = r ∧ (r ≠ .rollback → ∀ t, y.1.complete t = y.1.complete 0) := by
  unfold Session.tstepFor at h
  cases hp : r.plan s.cat with
  | ok q =>
    rw [hp] at h
    obtain ⟨x, h1, h2⟩ := Option.map_eq_some_iff.1 h
    subst h2
    have S := Session.stepFor_step h1
    have e := Session.stepFor_req h1
    refine ⟨.ran hp ?_, rfl, fun hr => S.complete ?_⟩
    · have : x.1 = ⟨q, x.1.reply, x.1.complete⟩ := by rw [← e]
      rw [← this]
      exact S
    · rw [e]
      rintro rfl
      cases r with
      | rollback => exact hr rfl
      | create n cols ine => cases hp
      | begin => cases hp
      | commit => cases hp
      | query n st =>
        unfold TReq.plan at hp
        dsimp only at hp
        split at hp
        · obtain ⟨_, _, h⟩ := bind_ok hp; cases h
        · cases hp
      | select f items p k l o =>
        unfold TReq.plan at hp
        obtain ⟨_, _, hp⟩ := bind_ok hp
        obtain ⟨_, _, h⟩ := bind_ok hp
        cases h
      | group f gs fs p k l o =>
        unfold TReq.plan at hp
        obtain ⟨_, _, hp⟩ := bind_ok hp
        obtain ⟨_, _, h⟩ := bind_ok hp
        cases h
      | distinct f items p k l o =>
        unfold TReq.plan at hp
        obtain ⟨_, _, hp⟩ := bind_ok hp
        obtain ⟨_, _, h⟩ := bind_ok hp
        cases h
  | err =>
    rw [hp] at h
    cases h
    exact ⟨.refused hp, rfl, fun _ _ => rfl⟩
  | out =>
    rw [hp] at h
    cases h

/-- Requests one after another. -/
def Session.trunFor (d : Disk) (ext : Value → Nat → Option Value) (seen : Cat → Server → Nat → Seen) (ch : Choices) : Session → List TReq → Option (List TCall × Session)
  | s, [] => some ([], s)
  | s, r :: rs => match s.tstepFor d ext seen ch r with
    | none => none
    | some x => (Session.trunFor d ext seen ch x.2 rs).map fun y => (x.1 :: y.1, y.2)

theorem Session.trunFor_run {d : Disk} {ext : Value → Nat → Option Value} {seen : Cat → Server → Nat → Seen} {ch : Choices} {s : Session} {rs : List TReq}
    {x : List TCall × Session} (h : Session.trunFor d ext seen ch s rs = some x) :
    Session.TRun d ext seen ch s x.1 x.2 ∧ x.1.map (·.req) = rs ∧ ∀ y ∈ x.1, y.req ≠ .rollback → ∀ t, y.complete t = y.complete 0 := by
  induction rs generalizing s x with
  | nil => cases h; exact ⟨.nil, rfl, nofun⟩
  | cons r rs ih =>
    simp only [Session.trunFor] at h
    split at h
    · cases h
    · next h1 =>
      obtain ⟨z, h2, h3⟩ := Option.map_eq_some_iff.1 h
      subst h3
      obtain ⟨g1, g2, g3⟩ := Session.tstepFor_step h1
      obtain ⟨k1, k2, k3⟩ := ih h2
      refine ⟨.cons g1 k1, by rw [List.map_cons, k2, g2], fun y hy hr => ?_⟩
      rcases List.mem_cons.1 hy with rfl | hy
      · exact g3 (g2 ▸ hr)
      · exact k3 y hy hr

theorem Session.TRun.append {d : Disk} {ext : Value → Nat → Option Value} {seen : Cat → Server → Nat → Seen} {ch : Choices} {s s1 s2 : Session} {xs ys : List TCall}
    (h : Session.TRun d ext seen ch s xs s1) (h' : Session.TRun d ext seen ch s1 ys s2) : Session.TRun d ext seen ch s (xs ++ ys) s2 := by
  induction h with
  | nil => exact h'
  | cons S _ ih => exact .cons S (ih h')

/-! ## Histories that are fine -/

/-- The columns of the tables a history creates. -/
theorem nextT_tab {d : Disk} {T T' : TDb} {r : TReq} {a : Reply} (N : NextT d T r a T') {cs : List (Catalog.Name × Nat)} (hr : ∀ n cols ine, r = .create n cols ine → cols = cs)
    (h : ∀ n cols, T.tab n = some cols → cols = cs) : ∀ n cols, T'.tab n = some cols → cols = cs := by
  cases N with
  | @created n cols ine _ _ =>
    intro m cols' hm
    dsimp only at hm
    split at hm
    · cases hm; exact hr n _ _ rfl
    · exact h m cols' hm
  | _ => exact h

theorem nextsT_tab {d : Disk} {T T' : TDb} {xs : List TCall} (N : NextsT d T xs T') {cs : List (Catalog.Name × Nat)} (hr : ∀ x ∈ xs, ∀ n cols ine, x.req = .create n cols ine → cols = cs)
    (h : ∀ n cols, T.tab n = some cols → cols = cs) : ∀ n cols, T'.tab n = some cols → cols = cs := by
  induction N with
  | nil => exact h
  | cons N _ ih => exact ih (fun x hx => hr x (List.mem_cons_of_mem _ hx)) (nextT_tab N (hr _ List.mem_cons_self) h)

/-- Without a DELETE no row is deleted. -/
theorem nextT_again {d : Disk} {T T' : TDb} {r : TReq} {a : Reply} (N : NextT d T r a T') (hr : ∀ n p, r ≠ .query n (.delete p)) (h : ¬T.again) : ¬T'.again := by
  have put : ∀ n s rows, r = .query n s → ¬(T.put n s rows).again := by
    rintro n s rows rfl (g | ⟨_, p, rfl, _⟩)
    · exact h g
    · exact hr n p rfl
  cases N with
  | done => exact put _ _ _ rfl
  | failedWithin => exact put _ _ _ rfl
  | commit => exact id
  | rollback => exact id
  | _ => exact h

theorem nextsT_again {d : Disk} {T T' : TDb} {xs : List TCall} (N : NextsT d T xs T') (hr : ∀ x ∈ xs, ∀ n p, x.req ≠ .query n (.delete p)) (h : ¬T.again) : ¬T'.again := by
  induction N with
  | nil => exact h
  | cons N _ ih => exact ih (fun x hx => hr x (List.mem_cons_of_mem _ hx)) (nextT_again N (hr _ List.mem_cons_self) h)

/-! ## A session -/

def cs : List (Catalog.Name × Nat) := [(['a'], 3), (['b'], 0), (['c'], 11), (['k'], 1)]
def t : Catalog.Name := ['t']

def ta : Ast := .col 0
def tb : Ast := .col 1
def tc : Ast := .col 2
def tk : Ast := .col 3

/-- `CREATE TABLE t (a INTEGER, b BOOLEAN, c VARCHAR, k TINYINT)`, twice; three rows; a value out of the range of TINYINT; too few values; in a transaction another row, an UPDATE of all
rows but this one and a SELECT; all is rolled back. -/
def exT1 : List TReq := [.create t cs, .create t cs,
  .query t (.insert [[.num 70000, .bool true, .str [120], .num 1], [.neg (.num 5), .null, .str [], .null], [.arith .add (.num 40) (.num 2), .bool false, .null, .neg (.num 100)]]),
  .query t (.insert [[.num 1, .null, .null, .num 128]]), .query t (.insert [[.num 1, .null, .null]]), .begin,
  .query t (.insert [[.num 9, .null, .concat (.str [120]) (.str [121]), .null]]), .query t (.update [(0, .arith .add ta (.num 1)), (3, .null)] (some (.cmp .ne ta (.num 9)))),
  .select t [(ta, "a"), (tk, "k")] none [] none none, .rollback]

/-- `SELECT a + 1, c FROM t WHERE k + 1 < 100 ORDER BY a LIMIT 1 OFFSET 1` (`k` is NULL in the second row; `a` is not in the answer), a table that is not there, `a AND NULL`; `UPDATE t SET b = a BETWEEN 0 AND 100, a = a * 2 WHERE b IS NOT TRUE`,
`SELECT b, COUNT(*), SUM(a), MIN(k) FROM t WHERE a <> 8 GROUP BY b ORDER BY b DESC LIMIT 2`, GROUP BY a column that is not there, `SELECT COUNT(*), SUM(a), MAX(k) FROM t`, `SELECT COUNT(*), MAX(a) FROM t WHERE a = 8`, `SELECT DISTINCT b, a > 0 FROM t WHERE a <> 8 ORDER BY b LIMIT 5`, DISTINCT of `b AND NULL`, an UPDATE that overflows, `DELETE FROM t WHERE k + 1 = 2 OR c IN ('', NULL)`, and what is left, `ORDER BY b DESC, a`. -/
def exT2 : List TReq := [.select t [(.arith .add ta (.num 1), "a + 1"), (tc, "c")] (some (.cmp .lt (.arith .add tk (.num 1)) (.num 100))) [(0, .asc)] (some 1) (some 1), .select ['v'] [(ta, "a")] none [] none none,
  .query t (.delete (some (.and tb .null))),
  .query t (.update [(1, .between false ta (.num 0) (.num 100)), (0, .arith .mul ta (.num 2))] (some (.is .isTrue true tb))),
  .group t [1] [.countStar, .sum 0, .min 3] (some (.cmp .ne ta (.num 8))) [(0, .desc)] (some 2) none, .group t [1, 7] [.countStar] none [] none none,
  .group t [] [.countStar, .sum 0, .max 3] none [] none none, .group t [] [.countStar, .max 0] (some (.cmp .eq ta (.num 8))) [] none none,
  .distinct t [(tb, "b"), (.cmp .gt ta (.num 0), "a > 0")] (some (.cmp .ne ta (.num 8))) [(0, .asc)] (some 5) none, .distinct t [(.and tb .null, "b AND NULL")] none [] none none,
  .query t (.update [(0, .arith .mul ta ta)] none), .query t (.delete (some (.or (.cmp .eq (.arith .add tk (.num 1)) (.num 2)) (.inList false tc (.cons (.str []) (.cons .null .nil)))))),
  .select t [(ta, "a"), (tb, "b"), (tc, "c"), (tk, "k")] none [(1, .desc), (0, .asc)] none none]

def exTRun1 : Option (List TCall × Session) := Session.trunFor exDisk noExt (fun _ _ _ => noSeen) exChoices (.new (fun _ => 1) 1) exT1
def exTRun2 : Option (List TCall × Session) := exTRun1.bind fun x => Session.trunFor exDisk noExt (fun _ _ _ => noSeen) exChoices x.2 exT2

/-- A reply in the values of SQL. -/
inductive TShown where
  | ok
  | error
  | count (n : Nat)
  | rows (l : List TRow)
  deriving DecidableEq

def tshown : Reply → TShown
  | .ok => .ok
  | .error => .error
  | .count n => .count n
  | .rows l => .rows (l.map reads)

theorem exTRun1_replies : exTRun1.map (fun x => x.1.map fun y => tshown y.reply) = some [.ok, .error, .count 3, .error, .error, .ok, .count 1, .count 3,
    .rows [[.int 70001, .null], [.int (-4), .null], [.int 43, .null], [.int 9, .null]], .ok] := by decide +kernel
theorem exTRun2_replies : exTRun2.map (fun x => x.1.map fun y => tshown y.reply) = some [.rows [[.int 70001, .str [120]]], .error, .error, .count 2,
    .rows [[.bool true, .int 2, .int 70084, .int (-100)], [.bool false, .int 1, .int (-10), .null]], .error,
    .rows [[.int 3, .int 70074, .int 1]], .rows [[.int 0, .null]], .rows [[.bool false, .bool false], [.bool true, .bool true]], .error, .error, .count 1,
    .rows [[.int 84, .bool true, .null, .int (-100)], [.int (-10), .bool false, .str [], .null]]] := by decide +kernel
theorem exTRun2_complete : exTRun2.map (fun x => x.1.all fun y => y.complete 0) = some true := by decide +kernel

theorem exTRun1_low : ∀ t < 8, exTRun1.map (fun x => x.1.all fun y => y.complete t) = some true := by decide +kernel
theorem exTRun1_high (t : Nat) : exTRun1.map (fun x => x.1.all fun y => y.complete (t + 8)) = some true := rfl
theorem exTRun1_complete (t : Nat) : exTRun1.map (fun x => x.1.all fun y => y.complete t) = some true := by
  by_cases h : t < 8
  · exact exTRun1_low t h
  · obtain ⟨k, rfl⟩ := Nat.exists_eq_add_of_le' (Nat.le_of_not_lt h)
    exact exTRun1_high k

theorem zip_at {α β : Type} {as : List α} {bs : List β} {P : α → β → Prop} (h : ∀ x ∈ as.zip bs, P x.1 x.2) (k : Nat) (a : α) (b : β) (ha : as[k]? = some a) (hb : bs[k]? = some b) :
    P a b := h (a, b) (List.mem_of_getElem? (i := k) (by rw [List.getElem?_zip_eq_some]; exact ⟨ha, hb⟩))

theorem anyFam : ∃ _ : Fam, True := ⟨.num, trivial⟩

theorem oneItem_of {cols : List (Catalog.Name × Nat)} {items : List (Ast × String)} {i : Nat} (h : (items.map (·.1)).Nodup)
    (h' : ∀ c, cols[i]? = some c → ∀ x ∈ items, (∀ k, x.1 ≠ .col k) → x.2 ≠ String.ofList c.1) : OneItem cols items i := by
  refine ⟨fun j j' s s' e e' => ?_, h'⟩
  have g : (items.map (·.1))[j]? = some (.col i) := by rw [List.getElem?_map, e]; rfl
  have g' : (items.map (·.1))[j']? = some (.col i) := by rw [List.getElem?_map, e']; rfl
  exact (List.getElem?_inj (List.getElem?_eq_some_iff.1 g).1 h).1 (g.trans g'.symm)

/-- The requests are fine in every database whose tables have the columns of `t`. -/
theorem exT_fine {r : TReq} (h : r ∈ exT1 ++ exT2) {T : TDb} (hT : ∀ n cols, T.tab n = some cols → cols = cs) (hr : r = .rollback → ¬T.again) : FineT r T := by
  simp only [exT1, exT2, List.mem_append, List.mem_cons, List.not_mem_nil, or_false] at h
  rcases h with (rfl | rfl | rfl | rfl | rfl | rfl | rfl | rfl | rfl | rfl) | (rfl | rfl | rfl | rfl | rfl | rfl | rfl | rfl | rfl | rfl | rfl | rfl | rfl)
  all_goals first
    | exact hr rfl
    | trivial
    | exact ⟨by decide, by decide, by decide⟩
    | skip
  · refine ⟨by decide, fun cols hc => ⟨fun es hes => ⟨?_, zip_at ?_⟩, nofun⟩⟩ <;> cases hT _ _ hc <;> revert hes es <;>
      simp [cs, types, WT, LitItems, famOf, or_imp, forall_and, anyFam]
  · refine ⟨by decide, fun cols hc => ⟨fun es hes => ⟨?_, zip_at ?_⟩, nofun⟩⟩ <;> cases hT _ _ hc <;> revert hes es <;>
      simp [cs, types, WT, LitItems, famOf, or_imp, forall_and, anyFam]
  · refine ⟨by decide, fun cols hc => ⟨fun es hes => ⟨?_, zip_at ?_⟩, nofun⟩⟩ <;> cases hT _ _ hc <;> revert hes es <;>
      simp [cs, types, WT, LitItems, famOf, or_imp, forall_and, anyFam]
  · refine ⟨by decide, fun cols hc => ⟨fun es hes => ⟨?_, zip_at ?_⟩, nofun⟩⟩ <;> cases hT _ _ hc <;> revert hes es <;>
      simp [cs, types, WT, LitItems, famOf, or_imp, forall_and, anyFam]
  · refine ⟨by decide, fun cols hc => ?_⟩
    cases hT _ _ hc
    simp [cs, types, WT, LitItems, famOf, TStmt.Typed, WellTyped, TStmt.filter, ta, Calm, exprTy, anyFam]
  · refine ⟨List.cons_ne_nil _ _, by decide, fun cols hc => ?_⟩
    cases hT _ _ hc
    simp [cs, types, WT, LitItems, famOf, WellTyped, ta, tk]
  · refine ⟨List.cons_ne_nil _ _, by decide, fun cols hc => ?_⟩
    cases hT _ _ hc
    simp [cs, types, WT, LitItems, famOf, WellTyped, ta, tc, tk]
    exact oneItem_of (by simp) (by simp)
  · refine ⟨List.cons_ne_nil _ _, by decide, fun cols hc => ?_⟩
    cases hT _ _ hc
    simp [cs, types, WT, LitItems, famOf, WellTyped, ta]
  · refine ⟨by decide, fun cols hc => ?_⟩
    cases hT _ _ hc
    simp [cs, types, WT, LitItems, famOf, TStmt.Typed, WellTyped, TStmt.filter, tb, Calm]
  · refine ⟨by decide, fun cols hc => ?_⟩
    cases hT _ _ hc
    simp [cs, types, WT, LitItems, famOf, TStmt.Typed, WellTyped, TStmt.filter, ta, tb, Calm, exprTy]
  · refine ⟨List.cons_ne_nil _ _, by decide, by decide, by decide, by decide, fun cols hc => ?_⟩
    cases hT _ _ hc
    simp [cs, types, WT, LitItems, famOf, WellTyped, ta, TAgg.Typed, NoAgg]
  · refine ⟨List.cons_ne_nil _ _, by decide, by decide, by decide, by decide, fun cols hc => ?_⟩
    cases hT _ _ hc
    simp [cs, types, WellTyped, TAgg.Typed, NoAgg]
  · refine ⟨List.cons_ne_nil _ _, by decide, by decide, by decide, by decide, fun cols hc => ?_⟩
    cases hT _ _ hc
    simp [cs, types, WellTyped, TAgg.Typed]
  · refine ⟨List.cons_ne_nil _ _, by decide, by decide, by decide, by decide, fun cols hc => ?_⟩
    cases hT _ _ hc
    simp [cs, types, WT, LitItems, famOf, WellTyped, ta, TAgg.Typed]
  · refine ⟨List.cons_ne_nil _ _, by decide, fun cols hc => ?_⟩
    cases hT _ _ hc
    simp [cs, types, WT, LitItems, famOf, WellTyped, ta, tb, exprTy]
    exact oneItem_of (by simp) (by simp)
  · refine ⟨List.cons_ne_nil _ _, by decide, fun cols hc => ?_⟩
    cases hT _ _ hc
    simp [cs, types, WT, LitItems, famOf, WellTyped, tb, exprTy]
  · refine ⟨by decide, fun cols hc => ?_⟩
    cases hT _ _ hc
    simp [cs, types, WT, LitItems, famOf, TStmt.Typed, WellTyped, TStmt.filter, ta, Calm, exprTy]
  · refine ⟨by decide, fun cols hc => ?_⟩
    cases hT _ _ hc
    simp [cs, types, WT, WTs, LitItems, AllLits, Ast.isLit, famOf, TStmt.Typed, WellTyped, TStmt.filter, tc, tk, Calm]
  · refine ⟨List.cons_ne_nil _ _, by decide, fun cols hc => ?_⟩
    cases hT _ _ hc
    simp [cs, types, WT, LitItems, famOf, WellTyped, ta, tb, tc, tk]
    exact ⟨oneItem_of (by simp) (by simp), oneItem_of (by simp) (by simp)⟩

/-- A column that is not there is no key. -/
example (c : Col) : planSel [c] [(ta, "a")] none [(1, .asc)] none none = .err := rfl

/-- The hypotheses of `C143_session_partial`. -/
theorem exT_meets : ∃ xs ys s1 s2, exTRun1 = some (xs, s1) ∧ exTRun2 = some (ys, s2) ∧
    ∃ T, NextsT exDisk .new (xs ++ ys) T ∧ ∀ n, ((s2.cat.selectTable (plainName n)).map fun t => t.cols.map fun c => (c.name, c.ty)) = T.tab n ∧
      ∀ t, s2.cat.selectTable (plainName n) = some t → ∃ out, Yields (seqScan exDisk (s2.srv.heap t.oid)).m (seqScan exDisk (s2.srv.heap t.oid)).s out .done ∧ out.map reads = T.rows n := by
  have h1 := exTRun1_complete
  have h2 := exTRun2_complete
  unfold exTRun2 at h2 ⊢
  cases h : exTRun1 with
  | none => rw [h] at h2; cases h2
  | some x =>
    rw [h] at h1 h2
    rw [Option.bind_some] at h2 ⊢
    cases h' : Session.trunFor exDisk noExt (fun _ _ _ => noSeen) exChoices x.2 exT2 with
    | none => rw [h'] at h2; cases h2
    | some y =>
      rw [h'] at h2
      obtain ⟨R1, r1, _⟩ := Session.trunFor_run h
      obtain ⟨R2, r2, c2⟩ := Session.trunFor_run h'
      have e : (x.1 ++ y.1).map (·.req) = exT1 ++ exT2 := by rw [List.map_append, r1, r2]
      have no2 : ∀ w ∈ y.1, w.req ≠ .rollback := fun w hw => by
        have : w.req ∈ exT2 := r2 ▸ List.mem_map_of_mem hw
        simp only [exT2, List.mem_cons, List.not_mem_nil, or_false] at this
        rcases this with h | h | h | h | h | h | h | h | h | h | h | h | h <;> rw [h] <;> nofun
      have no1 : ∀ w ∈ x.1, ∀ n p, w.req ≠ .query n (.delete p) := fun w hw n p => by
        have : w.req ∈ exT1 := r1 ▸ List.mem_map_of_mem hw
        simp only [exT1, List.mem_cons, List.not_mem_nil, or_false] at this
        rcases this with h | h | h | h | h | h | h | h | h | h <;> rw [h] <;> nofun
      refine ⟨x.1, y.1, x.2, y.2, rfl, rfl, C143_session_partial exDisk_readable exDisk_sane exDisk_fresh noExt_typed (fun _ => .refl _) (by decide) (R1.append R2) ?_ ?_⟩
      · intro z hz t
        rcases List.mem_append.1 hz with hz | hz
        · exact List.all_eq_true.1 (Option.some.inj (h1 t)) z hz
        · rw [c2 z hz (no2 z hz) t]
          exact List.all_eq_true.1 (Option.some.inj h2) z hz
      · intro pre z post hp T N
        have hmem : ∀ w ∈ x.1 ++ y.1, w.req ∈ exT1 ++ exT2 := fun w hw => e ▸ List.mem_map_of_mem hw
        refine exT_fine (hmem z (hp ▸ List.mem_append_right _ List.mem_cons_self)) (nextsT_tab N (fun w hw n cols ine hc => ?_) nofun) fun hz => nextsT_again N ?_ id
        · have := hmem w (hp ▸ List.mem_append_left _ hw)
          rw [hc] at this
          simp only [exT1, exT2, List.mem_append, List.mem_cons, List.not_mem_nil, or_false, TReq.create.injEq, reduceCtorEq] at this
          rcases this with h | h <;> exact h.2.1
        · rcases List.append_eq_append_iff.1 hp with ⟨as, _, h4⟩ | ⟨bs, h3, _⟩
          · exact absurd hz (no2 z (h4 ▸ List.mem_append_right _ List.mem_cons_self))
          · exact fun w hw => no1 w (h3 ▸ List.mem_append_left _ hw)

end Verif.Whole
