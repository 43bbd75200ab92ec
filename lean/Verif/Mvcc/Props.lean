import Verif.Mvcc.Refine

/-!
# Properties of the version store
-/

namespace Verif.Mvcc

open Verif.Locks (Iso TState)
open Verif.Mvcc.Spec (Abs)

variable {V : Type}

/-! ## Checking guards on concrete histories -/

def opOkB (d : Db V) : Op V → Bool
  | .begin _ => true
  | .insert _ _ rid => (d.rows.get rid).isNone
  | .update t _ _ rid | .delete t rid =>
    match d.txns.get t, d.rows.get rid with
    | some tx, some (m, _) => m.creator == t || (match m.cts with | some c => decide (c ≤ tx.rts) | none => false)
    | _, _ => true
  | .commit t order =>
    match d.txns.get t with
    | some tx => order.isPerm tx.writes
    | none => true
  | .abort t order =>
    match d.txns.get t with
    | some tx => order.isPerm tx.writes && decide order.Nodup && order.all fun rid =>
        match d.links.get rid with
        | some l => (match getLog d l with | some u => u.ts.isSome | none => true)
        | none => true
    | none => true

def runOkB (d : Db V) : List (Op V) → Bool
  | [] => true
  | o :: os => opOkB d o && runOkB (step d o).1 os

theorem opOk_of_B {d : Db V} {o : Op V} (h : opOkB d o = true) : OpOk d o := by
  have ud : ∀ t rid, (match d.txns.get t, d.rows.get rid with
      | some tx, some (m, _) => m.creator == t || (match m.cts with | some c => decide (c ≤ tx.rts) | none => false)
      | _, _ => true) = true →
      ∀ tx m v, d.txns.get t = some tx → d.rows.get rid = some (m, v) → InSnapshot m t tx.rts := by
    intro t rid h tx m v h1 h2
    rw [h1, h2] at h
    simp only [Bool.or_eq_true, beq_iff_eq] at h
    rcases h with h | h
    · exact Or.inl h
    · right
      cases hc : m.cts with
      | none => rw [hc] at h; cases h
      | some c => rw [hc] at h; exact ⟨c, rfl, by simpa using h⟩
  cases o with
  | begin => trivial
  | insert t v rid => simpa [opOkB, OpOk] using h
  | update t w v rid => exact ud t rid h
  | delete t rid => exact ud t rid h
  | commit t order =>
    intro tx hg
    simp only [opOkB, hg] at h
    exact List.isPerm_iff.1 h
  | abort t order =>
    intro tx hg
    simp only [opOkB, hg, Bool.and_eq_true, decide_eq_true_eq, List.all_eq_true] at h
    refine ⟨List.isPerm_iff.1 h.1.1, h.1.2, ?_⟩
    intro rid hr l u hl hu e
    have := h.2 rid hr
    rw [hl] at this
    simp only [hu, e] at this
    cases this

theorem runOk_of_B (os : List (Op V)) : ∀ {d : Db V}, runOkB d os = true → RunOk d os := by
  induction os with
  | nil => intro d _; trivial
  | cons o os ih =>
    intro d h
    simp only [runOkB, Bool.and_eq_true] at h
    exact ⟨opOk_of_B h.1, ih h.2⟩

/-! ## C15: the walk of a version chain -/

/-- The undo logs reached from a link, in order; the list ends where the links end or a log has been dropped. -/
inductive Linked (d : Db V) : Option (Nat × Nat) → List (Undo V) → Prop where
  | stop : Linked d none []
  | gone {l} (h : getLog d l = none) : Linked d (some l) []
  | next {l u us} (h : getLog d l = some u) (hn : Linked d (nextLink u) us) : Linked d (some l) (u :: us)

/-- C15. The walk returns the first version of the chain that the reader can see: its value, or that it is a deletion;
if the reader can see none, that there is none. -/
theorem C15_walk_first_visible (d : Db V) (t rts : Nat) {l us} (h : Linked d l us) (n : Nat) (hn : us.length < n) :
    (∃ pre u post, us = pre ++ u :: post ∧ (∀ w ∈ pre, ¬ InSnapshot (prevMeta w) t rts) ∧ InSnapshot (prevMeta u) t rts ∧
      walk d t rts n l = if (prevMeta u).deleted then .deleted else .val u.val) ∨
    ((∀ w ∈ us, ¬ InSnapshot (prevMeta w) t rts) ∧ walk d t rts n l = .noVersion) := by
  induction h generalizing n with
  | stop => right; cases n <;> simp [walk]
  | gone h =>
    right
    cases n with
    | zero => simp at hn
    | succ n => simp [walk, h]
  | @next l u us h hl ih =>
    cases n with
    | zero => simp at hn
    | succ n =>
      have hv := C14_visibility_status (prevMeta u) t rts
      simp only [walk, h]
      by_cases hs : InSnapshot (prevMeta u) t rts
      · left
        refine ⟨[], u, us, rfl, by simp, hs, ?_⟩
        cases hd : (prevMeta u).deleted with
        | true => rw [hv.2.1.2 ⟨hs, hd⟩]; rfl
        | false => rw [hv.1.2 ⟨hs, hd⟩]; rfl
      · rw [hv.2.2.2 hs]
        simp only
        rcases ih n (by simp at hn; omega) with ⟨pre, w, post, h1, h2, h3, h4⟩ | ⟨h1, h2⟩
        · left
          refine ⟨u :: pre, w, post, by rw [h1]; rfl, ?_, h3, h4⟩
          intro x hx
          rcases List.mem_cons.1 hx with e | e
          · rw [e]; exact hs
          · exact h2 x e
        · right
          refine ⟨?_, h2⟩
          intro x hx
          rcases List.mem_cons.1 hx with e | e
          · rw [e]; exact hs
          · exact h1 x e

/-- C15, newest: in a chain of versions of other transactions whose commit timestamps decrease, the version found is the
one with the greatest timestamp not above the reader's. -/
theorem C15_walk_newest (d : Db V) (t rts : Nat) {l us} (h : Linked d l us) (n : Nat) (hn : us.length < n)
    (ho : ∀ u ∈ us, u.prev.txn ≠ t ∧ u.orig.isSome)
    (hdec : us.Pairwise fun u w => ∀ c, w.ts = some c → ∃ c', u.ts = some c' ∧ c < c') {v : V} :
    walk d t rts n l = .val v ↔
      ∃ u c, u ∈ us ∧ u.val = v ∧ u.ts = some c ∧ c ≤ rts ∧ ∀ w ∈ us, ∀ c', w.ts = some c' → c' ≤ rts → c' ≤ c := by
  have hin : ∀ u ∈ us, (InSnapshot (prevMeta u) t rts ↔ ∃ c, u.ts = some c ∧ c ≤ rts) := by
    intro u hu
    simp only [InSnapshot, prevMeta]
    constructor
    · rintro (e | e)
      · exact absurd e (ho u hu).1
      · exact e
    · exact Or.inr
  have hpair : ∀ pre u post, us = pre ++ u :: post → ∀ w ∈ post, ∀ c, w.ts = some c → ∃ c', u.ts = some c' ∧ c < c' := by
    intro pre u post e w hw c hc
    rw [e, List.pairwise_append] at hdec
    exact (List.pairwise_cons.1 hdec.2.1).1 w hw c hc
  have huniq : ∀ u ∈ us, ∀ w ∈ us, ∀ c, u.ts = some c → w.ts = some c → u.val = w.val := by
    clear hin hpair hn h
    induction us with
    | nil => intro u hu; cases hu
    | cons x us ih =>
      intro u hu w hw c hc hc'
      rw [List.pairwise_cons] at hdec
      rcases List.mem_cons.1 hu with e | e <;> rcases List.mem_cons.1 hw with e' | e'
      · rw [e, e']
      · obtain ⟨k, hk, hlt⟩ := hdec.1 w e' c hc'
        rw [e] at hc; rw [hc] at hk; cases hk; omega
      · obtain ⟨k, hk, hlt⟩ := hdec.1 u e c hc
        rw [e'] at hc'; rw [hc'] at hk; cases hk; omega
      · exact ih (fun y hy => ho y (by simp [hy])) hdec.2 u e w e' c hc hc'
  rcases C15_walk_first_visible d t rts h n hn with ⟨pre, u, post, h1, h2, h3, h4⟩ | ⟨h1, h2⟩
  · have hu : u ∈ us := by rw [h1]; simp
    obtain ⟨c, hc, hcr⟩ := (hin u hu).1 h3
    have hdel : (prevMeta u).deleted = false := by simp [prevMeta, (ho u hu).2]
    have hmax : ∀ w ∈ us, ∀ c', w.ts = some c' → c' ≤ rts → c' ≤ c := by
      intro w hw c' hc' hle
      rw [h1] at hw
      rcases List.mem_append.1 hw with hw | hw
      · exact absurd ((hin w (by rw [h1]; simp [hw])).2 ⟨c', hc', hle⟩) (h2 w hw)
      · rcases List.mem_cons.1 hw with e | e
        · rw [e, hc] at hc'; cases hc'; exact Nat.le_refl _
        · obtain ⟨k, hk, hlt⟩ := hpair pre u post h1 w e c' hc'
          rw [hc] at hk; cases hk; omega
    rw [h4, hdel]
    simp only [Bool.false_eq_true, if_false, Found.val.injEq]
    constructor
    · intro e; exact ⟨u, c, hu, e, hc, hcr, hmax⟩
    · rintro ⟨w, k, hw, hwv, hk, hkr, hkm⟩
      have e1 := hmax w hw k hk hkr
      have e2 := hkm u hu c hc hcr
      have : k = c := by omega
      subst this
      rw [← hwv]
      exact huniq u hu w hw k hc hk
  · rw [h2]
    constructor
    · intro e; cases e
    · rintro ⟨u, c, hu, -, hc, hcr, -⟩
      exact absurd ((hin u hu).2 ⟨c, hc, hcr⟩) (h1 u hu)

/-- History used in examples: transaction 0 inserts a row and commits (at 2), transaction 1 begins (at 3), transaction 2
updates the row and commits (at 5), transaction 3 updates it again and commits (at 7). -/
def h15 : List (Op Nat) :=
  [.begin .snapshot, .insert 0 10 (0, 0), .commit 0 [(0, 0)], .begin .snapshot,
   .begin .snapshot, .update 2 2 20 (0, 0), .commit 2 [(0, 0)], .begin .snapshot, .update 3 3 30 (0, 0), .commit 3 [(0, 0)]]

/-- A chain of two versions; the reader with timestamp 3 gets the older one. -/
example : ∃ l us, Linked (run Db.new h15).1 (some l) us ∧ us.map (·.ts) = [some 5, some 2] ∧
    us.map (·.prev.txn) = [2, 0] ∧ walk (run Db.new h15).1 1 3 3 (some l) = .val 10 :=
  ⟨(3, 0), _, .next (l := (3, 0)) rfl (.next (l := (2, 0)) rfl .stop), by decide, by decide, by decide⟩

/-! ## C53: whole histories -/

/-- The levels that read from a snapshot. -/
def SnapshotLevel (iso : Iso) : Prop := iso = .repeatableRead ∨ iso = .serializable ∨ iso = .snapshot

/-- C53 for the histories described by `RunOk`: whatever transactions did, a running transaction at repeatable read or
above reads its own last write of a row, otherwise the state that was committed when it began. Missing: histories in
which a transaction overwrites a version it cannot see, or aborts after writing a row twice; for those the claim is false
(`C53_lost_version_fails`, `C16_abort_twice_fails`). -/
theorem C53_snapshot_isolation_partial (os : List (Op V)) (h : RunOk Db.new os) (t : Nat) (tx : Txn V)
    (ht : (run Db.new os).1.txns.get t = some tx) (hr : tx.state = .running) (hiso : SnapshotLevel tx.iso) (rid : Rid) :
    ∃ n0, ∀ n, n0 ≤ n →
      (getTuple n (run Db.new os).1 t tx rid).answer = some (Spec.read (Spec.run Spec.init (run Db.new os).2) t rid) := by
  obtain ⟨vers, I⟩ := inv_run os inv_new h
  exact getTuple_spec I ⟨ht, hr⟩ hiso rid

/-- In `h15`, transaction 1 still reads 10, as the specification says. -/
example : RunOk Db.new h15 ∧ (∃ tx, (run Db.new h15).1.txns.get 1 = some tx ∧ tx.state = .running ∧ SnapshotLevel tx.iso ∧
    getTuple 5 (run Db.new h15).1 1 tx (0, 0) = .val 10) ∧
    Spec.read (Spec.run Spec.init (run Db.new h15).2) 1 (0, 0) = some 10 :=
  ⟨runOk_of_B _ (by decide), ⟨_, rfl, rfl, Or.inr (Or.inr rfl), by decide⟩, by decide⟩

/-- Transaction 1 begins, 2 begins, 3 updates the row and commits, 1 overwrites that version, which it cannot see, and
aborts; it is forgotten although the restored row points to its undo log. Transaction 4 then updates the row. -/
def h53 : List (Op Nat) :=
  [.begin .snapshot, .insert 0 10 (0, 0), .commit 0 [(0, 0)], .begin .snapshot, .begin .snapshot, .begin .snapshot,
   .update 3 3 20 (0, 0), .commit 3 [(0, 0)], .update 1 1 30 (0, 0), .abort 1 [(0, 0)],
   .begin .snapshot, .update 4 4 40 (0, 0)]

/-- C53 is false of all histories: transaction 2, which began when the row was committed with 10, finds no row. -/
theorem C53_lost_version_fails :
    ∃ (os : List (Op Nat)) (t : Nat) (tx : Txn Nat) (rid : Rid), (run Db.new os).1.txns.get t = some tx ∧ tx.state = .running ∧
      SnapshotLevel tx.iso ∧ Spec.read (Spec.run Spec.init (run Db.new os).2) t rid = some 10 ∧
      ∀ n, 2 ≤ n → getTuple n (run Db.new os).1 t tx rid = .noVersion := by
  refine ⟨h53, 2, _, (0, 0), rfl, rfl, Or.inr (Or.inr rfl), by decide, ?_⟩
  intro n hn
  obtain ⟨k, rfl⟩ : ∃ k, n = k + 2 := ⟨n - 2, by omega⟩
  rfl

/-! ## C16: rollback -/

/-- C16 for histories in `RunOk`: after an abort every other running transaction reads what it read before, and a
transaction that begins next reads exactly the state committed before, as if the aborted one had never written. -/
theorem C16_abort_restores_partial (os : List (Op V)) (t : Nat) (order : List Rid) (iso : Iso)
    (h : RunOk Db.new (os ++ [.abort t order, .begin iso])) (hiso : SnapshotLevel iso) (rid : Rid) :
    let d := (run Db.new os).1
    let d' := (run Db.new (os ++ [.abort t order, .begin iso])).1
    (∀ s tx, s ≠ t → d.txns.get s = some tx → tx.state = .running → SnapshotLevel tx.iso →
      ∃ tx', d'.txns.get s = some tx' ∧
        ∃ n0, ∀ n, n0 ≤ n → (getTuple n d' s tx' rid).answer = (getTuple n d s tx rid).answer) ∧
    (∃ tx, d'.txns.get d.nextId = some tx ∧ ∃ n0, ∀ n, n0 ≤ n →
      (getTuple n d' d.nextId tx rid).answer = some ((Spec.run Spec.init (run Db.new os).2).committed rid)) := by
  intro d d'
  have runApp : ∀ (os os' : List (Op V)) (d : Db V), run d (os ++ os') =
      ((run (run d os).1 os').1, (run d os).2 ++ (run (run d os).1 os').2) := by
    intro os
    induction os with
    | nil => intro os' d; simp [run]
    | cons o os ih => intro os' d; simp only [List.cons_append, run, ih]
  have okApp : ∀ (os os' : List (Op V)) (d : Db V), RunOk d (os ++ os') → RunOk d os ∧ RunOk (run d os).1 os' := by
    intro os
    induction os with
    | nil => intro os' d h; exact ⟨trivial, h⟩
    | cons o os ih => intro os' d h; have := ih os' _ h.2; exact ⟨⟨h.1, this.1⟩, this.2⟩
  obtain ⟨h1, h2⟩ := okApp _ _ _ h
  obtain ⟨vers, I⟩ := inv_run os inv_new h1
  have I1 : Inv (abort d t order).1 _ vers := inv_abort I t order h2.1
  have I2 := inv_begin I1 iso
  have hd' : d' = (begin (abort d t order).1 iso).1 := by
    simp only [d']; rw [runApp]; rfl
  rw [hd']
  have hab : (abort d t order).1.nextId = d.nextId ∧ (∀ s, s ≠ t → (abort d t order).1.txns.get s = d.txns.get s) := by
    unfold abort
    cases hg : d.txns.get t with
    | none => exact ⟨rfl, fun _ _ => rfl⟩
    | some tx =>
      simp only
      have go : (order.foldl (abortRow t) d).nextId = d.nextId ∧ ∀ s, s ≠ t →
          ((order.foldl (abortRow t) d).txns.set t { tx with state := .aborted }).get s = d.txns.get s := by
        refine ⟨(aborts_fields t order d).2.1, fun s hs => ?_⟩
        rw [get_set', if_neg hs, (aborts_fields t order d).2.2.1]
      cases hs : tx.state <;> first | exact ⟨rfl, fun _ _ => rfl⟩ | exact go
  have hget : ∀ x, (begin (abort d t order).1 iso).1.txns.get x = if x = d.nextId then
      some { iso, state := .running, rts := (abort d t order).1.wm.nextTs, cts := 0, undo := [], writes := [] }
      else (abort d t order).1.txns.get x := by
    intro x
    simp only [begin, Watermark.getNextTsAndRegister, Watermark.getNextTs, get_set', hab.1]
  have hspec : Spec.step (Spec.run Spec.init (run Db.new os).2) (.abort t order, (abort d t order).2) =
      Spec.run Spec.init (run Db.new os).2 ∨
      Spec.step (Spec.run Spec.init (run Db.new os).2) (.abort t order, (abort d t order).2) =
      Spec.clear (Spec.run Spec.init (run Db.new os).2) t := by
    cases (abort d t order).2 <;> first | exact Or.inl rfl | exact Or.inr rfl
  generalize hA : Spec.run Spec.init (run Db.new os).2 = A at I I1 I2 hspec ⊢
  refine ⟨?_, ?_⟩
  · intro s tx hst hg hrun hlev
    have hne : s ≠ d.nextId := Nat.ne_of_lt (I.ids s tx hg)
    have hg' : (begin (abort d t order).1 iso).1.txns.get s = some tx := by
      rw [hget, if_neg hne, hab.2 s hst]; exact hg
    refine ⟨tx, hg', ?_⟩
    obtain ⟨n1, e1⟩ := getTuple_spec I ⟨hg, hrun⟩ hlev rid
    obtain ⟨n2, e2⟩ := getTuple_spec I2 ⟨hg', hrun⟩ hlev rid
    refine ⟨max n1 n2, fun n hn => ?_⟩
    rw [e1 n (by omega), e2 n (by omega)]
    have hne' : s ≠ (abort d t order).1.nextId := by rw [hab.1]; exact hne
    rcases hspec with e | e <;> rw [e] <;>
      simp only [begin, Spec.step, Spec.clear, Spec.read, hne', hst, if_false]
  · refine ⟨_, by rw [hget, if_pos rfl], ?_⟩
    obtain ⟨n2, e2⟩ := getTuple_spec I2 (t := d.nextId)
      (tx := { iso, state := .running, rts := (abort d t order).1.wm.nextTs, cts := 0, undo := [], writes := [] })
      ⟨by rw [hget, if_pos rfl], rfl⟩ hiso rid
    refine ⟨n2, fun n hn => ?_⟩
    rw [e2 n hn]
    rcases hspec with e | e <;> rw [e] <;>
      simp only [begin, Spec.step, Spec.clear, Spec.read, hab.1, if_true, Option.getD_none]

/-- An update, a delete and an insert rolled back. -/
example : RunOk Db.new ([.begin .snapshot, .insert 0 10 (0, 0), .insert 0 11 (0, 1), .commit 0 [(0, 0), (0, 1)],
    .begin .snapshot, .update 1 1 20 (0, 0), .delete 1 (0, 1), .insert 1 30 (0, 2)] ++
    [Op.abort 1 [(0, 2), (0, 1), (0, 0)], .begin .snapshot]) := runOk_of_B _ (by decide)

/-- C16 is false when a transaction writes a row twice: after the abort the row is lost to everybody, although it was
committed with 10 before. -/
theorem C16_abort_twice_fails :
    ∃ (os : List (Op Nat)) (t : Nat) (order : List Rid) (rid : Rid) (tx : Txn Nat),
      let d := (run Db.new (os ++ [.abort t order, .begin .snapshot])).1
      (Spec.run Spec.init (run Db.new os).2).committed rid = some 10 ∧
      d.txns.get 2 = some tx ∧ tx.state = .running ∧ ∀ n, 2 ≤ n → getTuple n d 2 tx rid = .noVersion := by
  refine ⟨[.begin .snapshot, .insert 0 10 (0, 0), .commit 0 [(0, 0)], .begin .snapshot, .update 1 1 20 (0, 0),
    .update 1 1 30 (0, 0)], 1, [(0, 0)], (0, 0), _, by decide, rfl, rfl, ?_⟩
  intro n hn
  obtain ⟨k, rfl⟩ : ∃ k, n = k + 2 := ⟨n - 2, by omega⟩
  rfl

/-- C16 is false when a transaction inserts a row and updates it: after the abort the row is still there, undeleted, for
readers that do not check who wrote it. -/
theorem C16_abort_insert_update_fails :
    ∃ (os : List (Op Nat)) (t : Nat) (order : List Rid) (rid : Rid) (m : Meta),
      (Spec.run Spec.init (run Db.new os).2).committed rid = none ∧
      (run Db.new (os ++ [.abort t order])).1.rows.get rid = some (m, 10) ∧ m.deleted = false :=
  ⟨[.begin .snapshot, .insert 0 10 (0, 0), .update 0 0 20 (0, 0)], 0, [(0, 0)], (0, 0), _, by decide, rfl, rfl⟩


/-! ## C17: forgetting finished transactions -/

/-- Bookkeeping that holds in every history. -/
structure Book (d : Db V) : Prop where
  wm : Watermark.InvFresh d.wm
  ids : ∀ x tx, d.txns.get x = some tx → x < d.nextId
  states : ∀ x tx, d.txns.get x = some tx → tx.state = .running ∨ tx.state = .committed ∨ tx.state = .aborted
  act : ∀ x tx, Running d x tx → tx.rts ∈ d.wm.active
  lt : ∀ x tx, d.txns.get x = some tx → tx.rts < d.wm.nextTs ∧ tx.cts < d.wm.nextTs
  inj : ∀ x y tx ty, d.txns.get x = some tx → d.txns.get y = some ty → tx.rts = ty.rts → x = y
  inMap : ∀ x tx, Running d x tx → x ∈ d.map
  kept : ∀ x tx y ty, d.txns.get x = some tx → tx.state = .committed → Running d y ty → ty.rts < tx.cts → x ∈ d.map

/-- Only `t` changes its undo list and write set. -/
theorem book_touch {d d' : Db V} (B : Book d) {t : Nat} {tx tx' : Txn V} (hg : d.txns.get t = some tx)
    (h1 : d'.wm = d.wm) (h2 : d'.nextId = d.nextId) (h3 : d'.map = d.map)
    (h4 : ∀ x, d'.txns.get x = if x = t then some tx' else d.txns.get x)
    (h5 : tx'.state = tx.state ∧ tx'.rts = tx.rts ∧ tx'.cts = tx.cts) : Book d' := by
  have key : ∀ x ty, d'.txns.get x = some ty → ∃ tz, d.txns.get x = some tz ∧ tz.state = ty.state ∧ tz.rts = ty.rts ∧
      tz.cts = ty.cts := by
    intro x ty h
    rw [h4] at h
    split at h
    · next e =>
      subst e; cases h
      exact ⟨tx, hg, h5.1.symm, h5.2.1.symm, h5.2.2.symm⟩
    · exact ⟨ty, h, rfl, rfl, rfl⟩
  constructor
  · rw [h1]; exact B.wm
  · intro x ty h; obtain ⟨tz, g, -⟩ := key x ty h; rw [h2]; exact B.ids x tz g
  · intro x ty h; obtain ⟨tz, g, e, -⟩ := key x ty h; rw [← e]; exact B.states x tz g
  · intro x ty h; obtain ⟨tz, g, e, e2, -⟩ := key x ty h.1
    rw [h1, ← e2]; exact B.act x tz ⟨g, e.trans h.2⟩
  · intro x ty h; obtain ⟨tz, g, -, e2, e3⟩ := key x ty h; rw [h1, ← e2, ← e3]; exact B.lt x tz g
  · intro x y tx1 ty1 hx hy e
    obtain ⟨z1, g1, -, e1, -⟩ := key x tx1 hx
    obtain ⟨z2, g2, -, e2, -⟩ := key y ty1 hy
    exact B.inj x y z1 z2 g1 g2 (by rw [e1, e2, e])
  · intro x ty h; obtain ⟨tz, g, e, -⟩ := key x ty h.1
    rw [h3]; exact B.inMap x tz ⟨g, e.trans h.2⟩
  · intro x tx1 y ty1 hx hs hy hlt
    obtain ⟨z1, g1, s1, r1, c1⟩ := key x tx1 hx
    obtain ⟨z2, g2, s2, r2, -⟩ := key y ty1 hy.1
    rw [h3]
    exact B.kept x z1 y z2 g1 (s1.trans hs) ⟨g2, s2.trans hy.2⟩ (by rw [r2, c1]; exact hlt)

theorem book_prune {d : Db V} (B : Book d) : Book (prune d) := by
  refine ⟨B.wm, B.ids, B.states, B.act, B.lt, B.inj, ?_, ?_⟩
  · intro x tx h
    simp only [prune, List.mem_filter]
    refine ⟨B.inMap x tx h, ?_⟩
    have : d.txns.get x = some tx := h.1
    rw [this]
    show keeps _ tx = true
    rw [keeps, h.2]
  · intro x tx y ty hx hs hy hlt
    simp only [prune, List.mem_filter]
    refine ⟨B.kept x tx y ty hx hs hy hlt, ?_⟩
    have : d.txns.get x = some tx := hx
    rw [this]
    show keeps _ tx = true
    have := B.wm.inv.le_active _ (B.act y ty hy)
    rw [keeps, hs]
    simp only [Watermark.getWatermark, ge_iff_le, Bool.or_eq_true, decide_eq_true_eq]
    right; omega

/-- `t` finishes. -/
theorem book_finish {d d' : Db V} (B : Book d) {t : Nat} {tx tx' : Txn V} (hg : Running d t tx)
    (hwm : Watermark.InvFresh d'.wm) (hnt : d.wm.nextTs ≤ d'.wm.nextTs)
    (hact : ∀ r, r ∈ d.wm.active → r ≠ tx.rts → r ∈ d'.wm.active)
    (h2 : d'.nextId = d.nextId) (h3 : ∀ x, x ∈ d'.map ↔ x = t ∨ x ∈ d.map)
    (h4 : ∀ x, d'.txns.get x = if x = t then some tx' else d.txns.get x)
    (h5 : tx'.rts = tx.rts) (h6 : tx'.state = .committed ∨ tx'.state = .aborted) (h7 : tx'.cts < d'.wm.nextTs) : Book d' := by
  have hrun : ∀ x ty, Running d' x ty → x ≠ t ∧ Running d x ty := by
    intro x ty ⟨e1, e2⟩
    rw [h4] at e1
    split at e1
    · cases e1; rcases h6 with h6 | h6 <;> rw [h6] at e2 <;> cases e2
    · next e => exact ⟨e, e1, e2⟩
  constructor
  · exact hwm
  · intro x ty h
    rw [h4] at h; rw [h2]
    split at h
    · next e => rw [e]; exact B.ids t tx hg.1
    · exact B.ids x ty h
  · intro x ty h
    rw [h4] at h
    split at h
    · cases h; exact Or.inr h6
    · exact B.states x ty h
  · intro x ty h
    obtain ⟨e1, e2⟩ := hrun x ty h
    exact hact _ (B.act x ty e2) (fun e => e1 (B.inj x t ty tx e2.1 hg.1 e))
  · intro x ty h
    rw [h4] at h
    split at h
    · cases h
      have := (B.lt t tx hg.1).1
      exact ⟨by rw [h5]; omega, h7⟩
    · have := B.lt x ty h; omega
  · have key : ∀ x ty, d'.txns.get x = some ty → ∃ tz, d.txns.get x = some tz ∧ tz.rts = ty.rts := by
      intro x ty h
      rw [h4] at h
      split at h
      · next e => cases h; exact ⟨tx, by rw [e]; exact hg.1, h5.symm⟩
      · exact ⟨ty, h, rfl⟩
    intro x y tx1 ty1 hx hy e
    obtain ⟨z1, g1, e1⟩ := key x tx1 hx
    obtain ⟨z2, g2, e2⟩ := key y ty1 hy
    exact B.inj x y z1 z2 g1 g2 (by rw [e1, e2, e])
  · intro x ty h
    exact (h3 x).2 (Or.inr (B.inMap x ty (hrun x ty h).2))
  · intro x tx1 y ty hx hs hy hlt
    rw [h3]
    rw [h4] at hx
    split at hx
    · next e => exact Or.inl e
    · exact Or.inr (B.kept x tx1 y ty hx hs (hrun y ty hy).2 hlt)

theorem writeVersion_get (d : Db V) (t : Nat) (tx : Txn V) (rid : Rid) (m : Meta) (cur new : V) (del : Bool) :
    ∃ tx' : Txn V, (tx'.iso = tx.iso ∧ tx'.state = tx.state ∧ tx'.rts = tx.rts ∧ tx'.cts = tx.cts) ∧
      ∀ x, (writeVersion d t tx rid m cur new del).txns.get x = if x = t then some tx' else d.txns.get x :=
  ⟨{ tx with undo := tx.undo ++ [{ isDeleted := del, val := cur, ts := m.cts, prev := { txn := m.creator, idx := m.undo }, orig := some rid }],
             writes := ins rid tx.writes }, ⟨rfl, rfl, rfl, rfl⟩, fun x => by simp only [writeVersion, addWrite, get_set']⟩

theorem book_step {d : Db V} (B : Book d) (o : Op V) : Book (step d o).1 := by
  cases o with
  | begin iso =>
    have hget : ∀ x, (begin d iso).1.txns.get x = if x = d.nextId then
        some { iso, state := .running, rts := d.wm.nextTs, cts := 0, undo := [], writes := [] } else d.txns.get x := by
      intro x
      simp only [begin, Watermark.getNextTsAndRegister, Watermark.getNextTs, get_set']
    have hnt : (begin d iso).1.wm.nextTs = d.wm.nextTs + 1 := by
      simp [begin, Watermark.getNextTsAndRegister, Watermark.getNextTs, Watermark.addTxn]
    have hact : ∀ t, t ∈ (begin d iso).1.wm.active ↔ t = d.wm.nextTs ∨ t ∈ d.wm.active := by
      intro t
      simp [begin, Watermark.getNextTsAndRegister, Watermark.getNextTs, Watermark.addTxn, Watermark.mem_setInsert]
    have hmap : (begin d iso).1.map = ins d.nextId d.map := rfl
    show Book (begin d iso).1
    constructor
    · exact (Watermark.fresh_step d.wm B.wm .register trivial).1
    · intro x tx h
      rw [hget] at h
      show x < d.nextId + 1
      split at h
      · omega
      · have := B.ids x tx h; omega
    · intro x tx h
      rw [hget] at h
      split at h
      · cases h; exact Or.inl rfl
      · exact B.states x tx h
    · rintro x tx ⟨h, hs⟩
      rw [hget] at h
      rw [hact]
      split at h
      · cases h; exact Or.inl rfl
      · exact Or.inr (B.act x tx ⟨h, hs⟩)
    · intro x tx h
      rw [hget] at h; rw [hnt]
      split at h
      · cases h; simp
      · have := B.lt x tx h; omega
    · intro x y tx ty hx hy e
      rw [hget] at hx hy
      split at hx <;> split at hy
      · next e1 e2 => rw [e1, e2]
      · have := (B.lt y ty hy).1; cases hx; simp at e; omega
      · have := (B.lt x tx hx).1; cases hy; simp at e; omega
      · exact B.inj x y tx ty hx hy e
    · rintro x tx ⟨h, hs⟩
      rw [hget] at h
      rw [hmap, mem_ins]
      split at h
      · next e => exact Or.inl e
      · exact Or.inr (B.inMap x tx ⟨h, hs⟩)
    · intro x tx y ty hx hs ⟨hy, hys⟩ hlt
      rw [hget] at hx hy
      rw [hmap, mem_ins]
      split at hx
      · cases hx; cases hs
      · split at hy
        · cases hy
          have := (B.lt x tx hx).2
          simp only at hlt; omega
        · exact Or.inr (B.kept x tx y ty hx hs ⟨hy, hys⟩ hlt)
  | insert t v rid =>
    show Book (insert d t v rid).1
    unfold insert
    cases hg : d.txns.get t with
    | none => exact B
    | some tx =>
      simp only
      split
      · exact B
      · exact book_touch B (tx' := { tx with writes := ins rid tx.writes }) hg rfl rfl rfl (fun x => by simp only [addWrite, get_set'])
          ⟨rfl, rfl, rfl⟩
  | update t who v rid =>
    show Book (update d t who v rid).1
    unfold update
    cases hg : d.txns.get t with
    | none => exact B
    | some tx =>
      simp only
      split
      · exact B
      · split
        · exact B
        · split
          · exact B
          · split
            · exact B
            · obtain ⟨tx', e, e2⟩ := writeVersion_get d t tx rid _ _ _ _
              exact book_touch B (tx := tx) hg rfl rfl rfl e2 e.2
  | delete t rid =>
    show Book (delete d t rid).1
    unfold delete
    cases hg : d.txns.get t with
    | none => exact B
    | some tx =>
      simp only
      split
      · exact B
      · split
        · exact B
        · split
          · exact B
          · split
            · exact B
            · obtain ⟨tx', e, e2⟩ := writeVersion_get d t tx rid _ _ _ _
              exact book_touch B (tx := tx) hg rfl rfl rfl e2 e.2
  | commit t order =>
    show Book (commit d t order).1
    unfold commit
    cases hg : d.txns.get t with
    | none => exact B
    | some tx =>
      simp only
      rcases B.states t tx hg with hs | hs | hs
      · rw [hs]
        simp only
        obtain ⟨f1, f2, f3, f4, -⟩ := stamps_fields t (commitStart d t tx).2 order (commitStart d t tx).1
        have hn : (commitStart d t tx).1.wm.nextTs = d.wm.nextTs + 1 := by
          show (Watermark.removeTxn (Watermark.updateCommitTs (Watermark.getNextTs d.wm).1 d.wm.nextTs) tx.rts).nextTs = _
          rw [Watermark.removeTxn, Watermark.update_nextTs]
          exact updateCommitTs_next _ _ rfl
        refine book_prune (book_finish B (t := t) (tx := tx) (tx' := { tx with state := .committed, cts := d.wm.nextTs })
          ⟨hg, hs⟩ ?_ ?_ ?_ ?_ ?_ ?_ rfl (Or.inl rfl) ?_)
        · have g1 := Watermark.fresh_step d.wm B.wm .getNextTs trivial
          have g2 := Watermark.fresh_step _ g1.1 (.updateCommitTs d.wm.nextTs) trivial
          have g3 := Watermark.fresh_step _ g2.1 (.removeTxn tx.rts) trivial
          rw [f1]; exact g3.1
        · rw [f1, hn]; omega
        · intro r hr hne
          rw [f1]
          simp only [commitStart, Watermark.getNextTs, Watermark.removeTxn, Watermark.updateCommitTs,
            Watermark.update_active, List.mem_filter, decide_eq_true_eq]
          exact ⟨hr, hne⟩
        · rw [f2]; rfl
        · intro x; rw [f4]; simp only [commitStart, mem_ins]
        · intro x; rw [f3]; simp only [commitStart, get_set']; rfl
        · rw [f1, hn]; simp
      · rw [hs]; exact B
      · rw [hs]; exact B
  | abort t order =>
    show Book (abort d t order).1
    unfold abort
    cases hg : d.txns.get t with
    | none => exact B
    | some tx =>
      simp only
      rcases B.states t tx hg with hs | hs | hs
      · rw [hs]
        simp only
        obtain ⟨f1, f2, f3, f4⟩ := aborts_fields t order d
        refine book_prune (book_finish B (t := t) (tx := tx) (tx' := { tx with state := .aborted })
          ⟨hg, hs⟩ ?_ ?_ ?_ ?_ ?_ ?_ rfl (Or.inr rfl) ?_)
        · have := Watermark.fresh_step d.wm B.wm (.removeTxn tx.rts) trivial
          simp only [f1]; exact this.1
        · simp only [f1, Watermark.removeTxn, Watermark.update_nextTs]; exact Nat.le_refl _
        · intro r hr hne
          simp only [f1, Watermark.removeTxn, Watermark.update_active, List.mem_filter, decide_eq_true_eq]
          exact ⟨hr, hne⟩
        · exact f2
        · intro x; simp only [mem_ins, f4]
        · intro x; simp only [get_set', f3]
        · simp only [f1, Watermark.removeTxn, Watermark.update_nextTs]; exact (B.lt t tx hg).2
      · rw [hs]; exact B
      · rw [hs]; exact B

theorem book_run (os : List (Op V)) : ∀ {d : Db V}, Book d → Book (run d os).1 := by
  induction os with
  | nil => intro d B; exact B
  | cons o os ih => intro d B; exact ih (book_step B o)

theorem book_new : Book (Db.new : Db V) := by
  refine ⟨⟨Watermark.inv_new, by simp [Db.new, Watermark.new], by simp [Db.new, Watermark.new]⟩, ?_, ?_, ?_, ?_, ?_, ?_, ?_⟩
  · intro x tx h; cases h
  · intro x tx h; cases h
  · intro x tx h; cases h.1
  · intro x tx h; cases h
  · intro x y tx ty h; cases h
  · intro x tx h; cases h.1
  · intro x tx y ty h; cases h

/-- C17, for every history. A running transaction is never forgotten. A committed transaction is kept as long as some
running transaction began before it committed, that is, may have to look past its versions. A transaction that
begins later never has to: its read timestamp is above the commit timestamp. -/
theorem C17_forget_only_unneeded (os : List (Op V)) (t : Nat) (tx : Txn V)
    (ht : (run Db.new os).1.txns.get t = some tx) :
    let d := (run Db.new os).1
    (tx.state = .running → t ∈ d.map) ∧
    (tx.state = .committed →
      (∀ s ts, d.txns.get s = some ts → ts.state = .running → ts.rts < tx.cts → t ∈ d.map) ∧
      (∀ os' s ts, (run d os').1.txns.get s = some ts → d.nextId ≤ s → tx.cts < ts.rts)) := by
  intro d
  have B : Book d := book_run os book_new
  refine ⟨fun h => B.inMap t tx ⟨ht, h⟩, fun h => ⟨fun s ts hs hr hlt => B.kept t tx s ts ht h ⟨hs, hr⟩ hlt, ?_⟩⟩
  intro os' s ts hs hle
  have hc := (B.lt t tx ht).2
  -- timestamps of later transactions
  have gen : ∀ (os' : List (Op V)) (d0 : Db V), Book d0 → d.wm.nextTs ≤ d0.wm.nextTs →
      (∀ s ts, d0.txns.get s = some ts → d.nextId ≤ s → tx.cts < ts.rts) → d.nextId ≤ d0.nextId →
      ∀ s ts, (run d0 os').1.txns.get s = some ts → d.nextId ≤ s → tx.cts < ts.rts := by
    intro os'
    induction os' with
    | nil => intro d0 _ _ h _; exact h
    | cons o os' ih =>
      intro d0 B0 hn h hid
      refine ih (step d0 o).1 (book_step B0 o) ?_ ?_ ?_
      · cases o with
        | begin iso =>
          simp [step, begin, Watermark.getNextTsAndRegister, Watermark.getNextTs, Watermark.addTxn]; omega
        | insert t v rid =>
          simp only [step, insert]; split
          · exact hn
          · split <;> exact hn
        | update t w v rid =>
          simp only [step, update]
          repeat' split
          all_goals exact hn
        | delete t rid =>
          simp only [step, delete]
          repeat' split
          all_goals exact hn
        | commit t order =>
          simp only [step, commit]
          split
          · exact hn
          · split
            · exact hn
            · exact hn
            · rw [show ∀ x : Db V, (prune x).wm = x.wm from fun _ => rfl, (stamps_fields _ _ _ _).1]
              show _ ≤ (Watermark.removeTxn (Watermark.updateCommitTs (Watermark.getNextTs d0.wm).1 d0.wm.nextTs) _).nextTs
              rw [Watermark.removeTxn, Watermark.update_nextTs, updateCommitTs_next _ _ rfl]; omega
        | abort t order =>
          simp only [step, abort]
          split
          · exact hn
          · split
            · exact hn
            · exact hn
            · simp only [prune, Watermark.removeTxn, Watermark.update_nextTs, (aborts_fields _ _ _).1]; exact hn
      · -- read timestamps never change, and fresh ones come from the counter
        have hsame : ∀ (d1 : Db V) (t0 : Nat) (tx0 tx1 : Txn V), d0.txns.get t0 = some tx0 → tx1.rts = tx0.rts →
            (∀ x, d1.txns.get x = if x = t0 then some tx1 else d0.txns.get x) →
            ∀ s ts, d1.txns.get s = some ts → d.nextId ≤ s → tx.cts < ts.rts := by
          intro d1 t0 tx0 tx1 hg hr hx s ts hs hle
          rw [hx] at hs
          split at hs
          · next e => cases hs; rw [hr]; exact h t0 tx0 hg (e ▸ hle)
          · exact h s ts hs hle
        cases o with
        | begin iso =>
          intro s ts hs hle
          have hget : ∀ x, (begin d0 iso).1.txns.get x = if x = d0.nextId then
              some { iso, state := .running, rts := d0.wm.nextTs, cts := 0, undo := [], writes := [] } else d0.txns.get x := by
            intro x
            simp only [begin, Watermark.getNextTsAndRegister, Watermark.getNextTs, get_set']
          simp only [step] at hs
          rw [hget] at hs
          split at hs
          · cases hs; simp only; omega
          · exact h s ts hs hle
        | insert t v rid =>
          simp only [step, insert]
          cases hg : d0.txns.get t with
          | none => exact h
          | some tx0 =>
            simp only
            split
            · exact h
            · exact hsame _ t tx0 { tx0 with writes := ins rid tx0.writes } hg rfl (fun x => by simp only [addWrite, get_set'])
        | update t w v rid =>
          simp only [step, update]
          cases hg : d0.txns.get t with
          | none => exact h
          | some tx0 =>
            simp only
            split
            · exact h
            · split
              · exact h
              · split
                · exact h
                · split
                  · exact h
                  · refine hsame _ t tx0 _ hg ?_ (fun x => by simp only [writeVersion, addWrite, get_set']; rfl)
                    rfl
        | delete t rid =>
          simp only [step, delete]
          cases hg : d0.txns.get t with
          | none => exact h
          | some tx0 =>
            simp only
            split
            · exact h
            · split
              · exact h
              · split
                · exact h
                · split
                  · exact h
                  · refine hsame _ t tx0 _ hg ?_ (fun x => by simp only [writeVersion, addWrite, get_set']; rfl)
                    rfl
        | commit t order =>
          simp only [step, commit]
          cases hg : d0.txns.get t with
          | none => exact h
          | some tx0 =>
            simp only
            split
            · exact h
            · exact h
            · refine hsame _ t tx0 { tx0 with state := .committed, cts := d0.wm.nextTs } hg rfl (fun x => ?_)
              simp only [prune, (stamps_fields _ _ _ _).2.2.1, commitStart, get_set']; rfl
        | abort t order =>
          simp only [step, abort]
          cases hg : d0.txns.get t with
          | none => exact h
          | some tx0 =>
            simp only
            split
            · exact h
            · exact h
            · refine hsame _ t tx0 { tx0 with state := .aborted } hg rfl (fun x => ?_)
              simp only [prune, (aborts_fields _ _ _).2.2.1, get_set']
      · cases o with
        | begin iso => show d.nextId ≤ d0.nextId + 1; omega
        | insert t v rid =>
          simp only [step, insert]; split
          · exact hid
          · split <;> exact hid
        | update t w v rid =>
          simp only [step, update]
          repeat' split
          all_goals exact hid
        | delete t rid =>
          simp only [step, delete]
          repeat' split
          all_goals exact hid
        | commit t order =>
          simp only [step, commit]
          split
          · exact hid
          · split
            · exact hid
            · exact hid
            · simp only [prune, (stamps_fields _ _ _ _).2.1]; exact hid
        | abort t order =>
          simp only [step, abort]
          split
          · exact hid
          · split
            · exact hid
            · exact hid
            · simp only [prune, (aborts_fields _ _ _).2.1]; exact hid
  refine gen os' d B (Nat.le_refl _) ?_ (Nat.le_refl _) s ts hs hle
  intro s ts hs hle
  have := B.ids s ts hs
  omega

/-- In `h15` transaction 2 committed at 5 while transaction 1 with read timestamp 3 is running: it is kept; transaction 0
is not. -/
example : ∃ tx ts, (run Db.new h15).1.txns.get 2 = some tx ∧ tx.state = .committed ∧
    (run Db.new h15).1.txns.get 1 = some ts ∧ ts.state = .running ∧ ts.rts < tx.cts ∧ 0 ∉ (run Db.new h15).1.map :=
  ⟨_, _, rfl, rfl, rfl, rfl, by decide, by decide⟩

/-- `garbage_collection` (transaction_manager.rs:823-843), which drops the links whose transaction is gone or has a read
timestamp not above the watermark. -/
def gc (d : Db V) : Db V :=
  prune { d with links := d.links.filter fun e =>
    if e.2.1 ∈ d.map then
      match d.txns.get e.2.1 with
      | some tx => decide (tx.rts > Watermark.getWatermark d.wm)
      | none => false
    else false }

/-- C57 is false: garbage collection while the oldest transaction has an uncommitted update makes the committed
version of the row unreadable for a transaction that began after it was committed. -/
theorem C57_gc_fails :
    ∃ (os : List (Op Nat)) (t : Nat) (tx : Txn Nat) (rid : Rid),
      (run Db.new os).1.txns.get t = some tx ∧ tx.state = .running ∧
      (∀ n, 1 ≤ n → getTuple n (run Db.new os).1 t tx rid = .val 10) ∧
      ∀ n, getTuple n (gc (run Db.new os).1) t tx rid = .noVersion := by
  refine ⟨[.begin .snapshot, .insert 0 10 (0, 0), .commit 0 [(0, 0)], .begin .snapshot, .update 1 1 20 (0, 0),
    .begin .snapshot], 2, _, (0, 0), rfl, rfl, ?_, ?_⟩
  · intro n hn
    obtain ⟨k, rfl⟩ : ∃ k, n = k + 1 := ⟨n - 1, by omega⟩
    rfl
  · intro n
    cases n <;> rfl

theorem get_filter {K W : Type} [DecidableEq K] (f : K × W → Bool) (k : K) (m : AMap K W) (h : ∀ v, m.get k = some v → f (k, v) = true) :
    AMap.get (m.filter f) k = m.get k := by
  induction m with
  | nil => rfl
  | cons p m ih =>
    obtain ⟨a, b⟩ := p
    by_cases he : a = k
    · subst he
      have := h b (by simp [AMap.get])
      rw [List.filter_cons_of_pos this]
      simp [AMap.get]
    · have ih := ih (fun v hv => h v (by simpa [AMap.get, he] using hv))
      by_cases hf : f (a, b) = true
      · rw [List.filter_cons_of_pos hf]
        simp only [AMap.get, he, if_false]; exact ih
      · rw [List.filter_cons_of_neg hf]
        simp only [AMap.get, he, if_false]; exact ih

theorem walk_congr {d d' : Db V} (h1 : d'.txns = d.txns) (h2 : d'.map = d.map) (t rts : Nat) : ∀ n l, walk d' t rts n l = walk d t rts n l := by
  intro n
  induction n with
  | zero => intro l; cases l <;> rfl
  | succ n ih =>
    intro l
    cases l with
    | none => rfl
    | some l => simp only [walk, getLog_congr h1 h2, ih]

/-- The part of C57 that holds: for the histories described by `RunOk`, garbage collection does not change what a running transaction at
repeatable read or above reads of a row, if the row's newest version belongs to the reader's snapshot, or if the last transaction to update
the row is still known and began after the watermark, the start of the oldest running transaction. Missing: all other rows, for which the
claim is false (`C57_gc_fails`), and what a later abort restores. -/
theorem C57_gc_partial (os : List (Op V)) (h : RunOk Db.new os) (t : Nat) (tx : Txn V)
    (ht : (run Db.new os).1.txns.get t = some tx) (hr : tx.state = .running) (hiso : SnapshotLevel tx.iso) (rid : Rid)
    (hrow : (∃ m v, (run Db.new os).1.rows.get rid = some (m, v) ∧ InSnapshot m t tx.rts) ∨
      ∀ w i, (run Db.new os).1.links.get rid = some (w, i) →
        w ∈ (run Db.new os).1.map ∧ ∃ txw, (run Db.new os).1.txns.get w = some txw ∧ Watermark.getWatermark (run Db.new os).1.wm < txw.rts) :
    ∃ n0, ∀ n, n0 ≤ n → (getTuple n (gc (run Db.new os).1) t tx rid).answer = (getTuple n (run Db.new os).1 t tx rid).answer ∧
      (getTuple n (run Db.new os).1 t tx rid).answer ≠ none := by
  obtain ⟨vers, I⟩ := inv_run os inv_new h
  generalize (run (Db.new : Db V) os).1 = d at *
  obtain ⟨n1, h1⟩ := getTuple_spec I ⟨ht, hr⟩ hiso rid
  obtain ⟨n2, h2⟩ := getTuple_spec (inv_prune I) (t := t) (tx := tx) ⟨ht, hr⟩ hiso rid
  refine ⟨max n1 n2, fun n hn => ?_⟩
  have e1 := h1 n (by omega)
  have e2 := h2 n (by omega)
  refine ⟨?_, by rw [e1]; simp⟩
  have hsame : ∀ n m v, d.rows.get rid = some (m, v) → getTuple n d t tx rid = getVisibleVersion n d t tx.rts rid m v := by
    intro n m v h
    unfold getTuple
    rw [h]
    rcases hiso with e | e | e <;> simp only [e]
  have hsame' : ∀ n m v, d.rows.get rid = some (m, v) → getTuple n (gc d) t tx rid = getVisibleVersion n (gc d) t tx.rts rid m v := by
    intro n m v h
    have h' : (gc d).rows.get rid = some (m, v) := h
    unfold getTuple
    rw [h']
    rcases hiso with e | e | e <;> simp only [e]
  rcases hrow with ⟨m, v, hg, hs⟩ | hl
  · rw [hsame n m v hg, hsame' n m v hg]
    have hne : visibilityStatus m t tx.rts ≠ .invisible := fun e => (C14_visibility_status m t tx.rts).2.2.mp e hs
    unfold getVisibleVersion
    cases hv : visibilityStatus m t tx.rts with
    | invisible => exact absurd hv hne
    | visible => rfl
    | deleted => rfl
  · have hlink : (gc d).links.get rid = (prune d).links.get rid := by
      show AMap.get (d.links.filter _) rid = d.links.get rid
      refine get_filter _ rid _ fun l hl' => ?_
      obtain ⟨hm, txw, hgw, hlt⟩ := hl l.1 l.2 hl'
      simp only [hm, hgw, if_true]
      exact decide_eq_true hlt
    have hgc : getTuple n (gc d) t tx rid = getTuple n (prune d) t tx rid := by
      unfold getTuple
      have hr1 : (gc d).rows = d.rows := rfl
      have hr2 : (prune d).rows = d.rows := rfl
      rw [hr1, hr2]
      cases d.rows.get rid with
      | none => rfl
      | some mv =>
        obtain ⟨m, v⟩ := mv
        have hvv : getVisibleVersion n (gc d) t tx.rts rid m v = getVisibleVersion n (prune d) t tx.rts rid m v := by
          unfold getVisibleVersion
          rw [hlink, walk_congr (d := prune d) (d' := gc d) rfl rfl]
        simp only [hvv]
    rw [hgc, e2, e1]

/-- A reader, then a younger transaction with an uncommitted update: the reader's version is in the chain and survives. -/
example : RunOk Db.new [.begin .snapshot, .insert 0 10 (0, 0), .commit 0 [(0, 0)], .begin .snapshot, .begin .snapshot, .update 2 2 20 (0, 0)] ∧
    (let d := (run Db.new [.begin .snapshot, .insert 0 10 (0, 0), .commit 0 [(0, 0)], .begin .snapshot, .begin .snapshot,
      .update 2 2 (20 : Nat) (0, 0)]).1
     d.links.get (0, 0) = some (2, 0) ∧ 2 ∈ d.map ∧ (∃ tw, d.txns.get 2 = some tw ∧ Watermark.getWatermark d.wm < tw.rts) ∧
     ∃ tx, d.txns.get 1 = some tx ∧ tx.state = .running ∧ getTuple 3 (gc d) 1 tx (0, 0) = .val 10) :=
  ⟨runOk_of_B _ (by decide), rfl, by decide, ⟨_, rfl, by decide⟩, _, rfl, rfl, rfl⟩

/-! ## C18: commit and new snapshots -/

/-- C18 when every call is one step: a running transaction reads, of every row it has not written itself, the state
committed when it began: everything of the transactions that had committed by then and nothing of the others. Missing: a
commit is not one step in the code (`C18_commit_steps_fails`). -/
theorem C18_atomic_commit_partial (pre post : List (Op V)) (iso : Iso)
    (h : RunOk Db.new (pre ++ .begin iso :: post)) (hiso : SnapshotLevel iso) (rid : Rid) :
    let t := (run Db.new pre).1.nextId
    let d := (run Db.new (pre ++ .begin iso :: post)).1
    let spec := Spec.run Spec.init (run Db.new (pre ++ .begin iso :: post)).2
    ∀ tx, d.txns.get t = some tx → tx.state = .running → spec.wrote t rid = none →
      tx.iso = iso ∧ ∃ n0, ∀ n, n0 ≤ n →
        (getTuple n d t tx rid).answer = some ((Spec.run Spec.init (run Db.new pre).2).committed rid) := by
  intro t d spec tx hg hr hw
  have runApp : ∀ (os os' : List (Op V)) (d : Db V), run d (os ++ os') =
      ((run (run d os).1 os').1, (run d os).2 ++ (run (run d os).1 os').2) := by
    intro os
    induction os with
    | nil => intro os' d; simp [run]
    | cons o os ih => intro os' d; simp only [List.cons_append, run, ih]
  have specApp : ∀ (es es' : List (Op V × Res)) (a : Abs V), Spec.run a (es ++ es') = Spec.run (Spec.run a es) es' := by
    intro es
    induction es with
    | nil => intro es' a; rfl
    | cons e es ih => intro es' a; exact ih es' _
  -- the isolation level and the copied state never change afterwards
  have keep : ∀ (os : List (Op V)) (d0 : Db V) (a : Abs V) (s : Nat) (i : Iso) (f : Rid → Option V), s < d0.nextId →
      (∀ ts, d0.txns.get s = some ts → ts.iso = i) → a.snap s = f →
      (∀ ts, (run d0 os).1.txns.get s = some ts → ts.iso = i) ∧ (Spec.run a (run d0 os).2).snap s = f := by
    intro os
    induction os with
    | nil => intro d0 a s i f _ h1 h2; exact ⟨h1, h2⟩
    | cons o os ih =>
      intro d0 a s i f hlt h1 h2
      have hsame : ∀ (d1 : Db V) (t0 : Nat) (tx0 tx1 : Txn V), d0.txns.get t0 = some tx0 → tx1.iso = tx0.iso →
          (∀ x, d1.txns.get x = if x = t0 then some tx1 else d0.txns.get x) →
          ∀ ts, d1.txns.get s = some ts → ts.iso = i := by
        intro d1 t0 tx0 tx1 hg hr hx ts hs
        rw [hx] at hs
        split at hs
        · next e => cases hs; rw [hr]; exact h1 tx0 (by rw [e]; exact hg)
        · exact h1 ts hs
      have main : s < (step d0 o).1.nextId ∧ (∀ ts, (step d0 o).1.txns.get s = some ts → ts.iso = i) ∧
          (Spec.step a (o, (step d0 o).2)).snap s = f := by
        cases o with
        | begin iso =>
          have hget : ∀ x, (begin d0 iso).1.txns.get x = if x = d0.nextId then
              some { iso, state := .running, rts := d0.wm.nextTs, cts := 0, undo := [], writes := [] } else d0.txns.get x := by
            intro x
            simp only [begin, Watermark.getNextTsAndRegister, Watermark.getNextTs, get_set']
          refine ⟨by show s < d0.nextId + 1; omega, ?_, ?_⟩
          · intro ts hs
            simp only [step] at hs
            rw [hget, if_neg (by omega)] at hs
            exact h1 ts hs
          · simp only [step, begin, Spec.step]
            rw [if_neg (by omega)]; exact h2
        | insert t v rid =>
          simp only [step, insert]
          cases hg : d0.txns.get t with
          | none => exact ⟨hlt, h1, h2⟩
          | some tx0 =>
            simp only
            split
            · exact ⟨hlt, h1, h2⟩
            · exact ⟨hlt, hsame _ t tx0 { tx0 with writes := ins rid tx0.writes } hg rfl (fun x => by simp only [addWrite, get_set']), h2⟩
        | update t w v rid =>
          simp only [step, update]
          cases hg : d0.txns.get t with
          | none => exact ⟨hlt, h1, h2⟩
          | some tx0 =>
            simp only
            split
            · exact ⟨hlt, h1, h2⟩
            · split
              · exact ⟨hlt, h1, h2⟩
              · split
                · exact ⟨hlt, h1, h2⟩
                · split
                  · exact ⟨hlt, h1, h2⟩
                  · refine ⟨hlt, hsame _ t tx0 _ hg ?_ (fun x => by simp only [writeVersion, addWrite, get_set']; rfl), h2⟩
                    rfl
        | delete t rid =>
          simp only [step, delete]
          cases hg : d0.txns.get t with
          | none => exact ⟨hlt, h1, h2⟩
          | some tx0 =>
            simp only
            split
            · exact ⟨hlt, h1, h2⟩
            · split
              · exact ⟨hlt, h1, h2⟩
              · split
                · exact ⟨hlt, h1, h2⟩
                · split
                  · exact ⟨hlt, h1, h2⟩
                  · refine ⟨hlt, hsame _ t tx0 _ hg ?_ (fun x => by simp only [writeVersion, addWrite, get_set']; rfl), h2⟩
                    rfl
        | commit t order =>
          simp only [step, commit]
          cases hg : d0.txns.get t with
          | none => exact ⟨hlt, h1, h2⟩
          | some tx0 =>
            simp only
            split
            · exact ⟨hlt, h1, h2⟩
            · exact ⟨hlt, h1, h2⟩
            · refine ⟨?_, hsame _ t tx0 { tx0 with state := .committed, cts := d0.wm.nextTs } hg rfl (fun x => ?_), h2⟩
              · simp only [prune, (stamps_fields _ _ _ _).2.1]; exact hlt
              · simp only [prune, (stamps_fields _ _ _ _).2.2.1, commitStart, get_set']; rfl
        | abort t order =>
          simp only [step, abort]
          cases hg : d0.txns.get t with
          | none => exact ⟨hlt, h1, h2⟩
          | some tx0 =>
            simp only
            split
            · exact ⟨hlt, h1, h2⟩
            · exact ⟨hlt, h1, h2⟩
            · refine ⟨?_, hsame _ t tx0 { tx0 with state := .aborted } hg rfl (fun x => ?_), h2⟩
              · simp only [prune, (aborts_fields _ _ _).2.1]; exact hlt
              · simp only [prune, (aborts_fields _ _ _).2.2.1, get_set']
      exact ih _ _ s i f main.1 main.2.1 main.2.2
  have hk := keep post (begin (run Db.new pre).1 iso).1
    (Spec.step (Spec.run Spec.init (run Db.new pre).2) (.begin iso, .begun t)) t iso
    ((Spec.run Spec.init (run Db.new pre).2).committed) (Nat.lt_succ_self _)
    (by
      intro ts hs
      simp only [begin, Watermark.getNextTsAndRegister, Watermark.getNextTs, get_set', t, if_true] at hs
      cases hs; rfl)
    (by simp only [Spec.step, if_true])
  have hd : d = (run (begin (run Db.new pre).1 iso).1 post).1 := by
    simp only [d]; rw [runApp]; rfl
  have hspec : spec = Spec.run (Spec.step (Spec.run Spec.init (run Db.new pre).2) (.begin iso, .begun t))
      (run (begin (run Db.new pre).1 iso).1 post).2 := by
    simp only [spec]; rw [runApp, specApp]; rfl
  have hi : tx.iso = iso := by
    rw [hd] at hg; exact hk.1 tx hg
  refine ⟨hi, ?_⟩
  obtain ⟨n0, e⟩ := C53_snapshot_isolation_partial _ h t tx hg hr (by rw [hi]; exact hiso) rid
  refine ⟨n0, fun n hn => ?_⟩
  rw [e n hn]
  show some (Spec.read spec t rid) = _
  rw [Spec.read, hw, Option.getD_none, hspec, hk.2]

/-- Transaction 1 of `h15` begins after one commit and before two others. -/
example : RunOk Db.new (([.begin .snapshot, .insert 0 10 (0, 0), .commit 0 [(0, 0)]] : List (Op Nat)) ++ .begin .snapshot ::
    [.begin .snapshot, .update 2 2 20 (0, 0), .commit 2 [(0, 0)], .begin .snapshot, .update 3 3 30 (0, 0), .commit 3 [(0, 0)]]) :=
  runOk_of_B _ (by decide)

/-- C18 is false when another thread runs between the steps of a commit: transaction 2 begins after the commit timestamp of
transaction 1 was drawn. It reads the old value of both rows, then, when the first row has been stamped, the new value of
that row and the old value of the other. -/
theorem C18_commit_steps_fails :
    ∃ (os : List (Op Nat)) (tx tx2 : Txn Nat), (run Db.new os).1.txns.get 1 = some tx ∧
      let (d1, cts) := commitStart (run Db.new os).1 1 tx
      let d2 := (begin d1 .snapshot).1
      let d3 := stamp 1 cts d2 (0, 0)
      d2.txns.get 2 = some tx2 ∧
      getTuple 5 d2 2 tx2 (0, 0) = .val 10 ∧ getTuple 5 d2 2 tx2 (0, 1) = .val 11 ∧
      getTuple 5 d3 2 tx2 (0, 0) = .val 20 ∧ getTuple 5 d3 2 tx2 (0, 1) = .val 11 :=
  ⟨[.begin .snapshot, .insert 0 10 (0, 0), .insert 0 11 (0, 1), .commit 0 [(0, 0), (0, 1)], .begin .snapshot,
    .update 1 1 20 (0, 0), .update 1 1 21 (0, 1)], _, _, rfl, rfl, by decide, by decide, by decide, by decide⟩

/-! ## C54: lost updates and dirty writes -/

/-- C54, the part that holds: while a row's current version is another transaction's and not committed, updates that name
the writing transaction and deletes are refused and change nothing. -/
theorem C54_dirty_write_refused_partial (d : Db V) (t : Nat) (v : V) (rid : Rid) (m : Meta) (cur : V)
    (h : d.rows.get rid = some (m, cur)) (hc : m.cts = none) (hne : m.creator ≠ t) :
    update d t t v rid = (d, .err) ∧ delete d t rid = (d, .err) := by
  unfold update delete
  cases d.txns.get t with
  | none => exact ⟨rfl, rfl⟩
  | some tx =>
    simp only [h, hc, hne, ne_eq, not_false_eq_true, and_self, if_true]
    split
    · rfl
    · split <;> rfl

example : ∃ m cur, (run Db.new [Op.begin .snapshot, .begin .snapshot, .insert 0 (7 : Nat) (0, 0)]).1.rows.get (0, 0) = some (m, cur) ∧
    m.cts = none ∧ m.creator ≠ 1 := ⟨_, _, rfl, rfl, by decide⟩

/-- C54 is false at every snapshot level: two transactions that both began when the row held 10 update it one after the
other, and both commit; the second has read 10, so the first update is lost. -/
theorem C54_lost_update_fails (iso : Iso) (hiso : SnapshotLevel iso) :
    ∃ (os : List (Op Nat)) (tx : Txn Nat), (run Db.new os).2 =
      [(.begin iso, .begun 0), (.insert 0 10 (0, 0), .ok), (.commit 0 [(0, 0)], .committed true),
       (.begin iso, .begun 1), (.begin iso, .begun 2),
       (.update 1 1 20 (0, 0), .ok), (.commit 1 [(0, 0)], .committed true)] ∧
      (run Db.new os).1.txns.get 2 = some tx ∧ getTuple 5 (run Db.new os).1 2 tx (0, 0) = .val 10 ∧
      (run (run Db.new os).1 [.update 2 2 30 (0, 0), .commit 2 [(0, 0)]]).2 =
      [(.update 2 2 30 (0, 0), .ok), (.commit 2 [(0, 0)], .committed true)] := by
  rcases hiso with rfl | rfl | rfl
  · exact ⟨[.begin .repeatableRead, .insert 0 10 (0, 0), .commit 0 [(0, 0)], .begin .repeatableRead, .begin .repeatableRead,
      .update 1 1 20 (0, 0), .commit 1 [(0, 0)]], _, by decide, rfl, by decide, by decide⟩
  · exact ⟨[.begin .serializable, .insert 0 10 (0, 0), .commit 0 [(0, 0)], .begin .serializable, .begin .serializable,
      .update 1 1 20 (0, 0), .commit 1 [(0, 0)]], _, by decide, rfl, by decide, by decide⟩
  · exact ⟨[.begin .snapshot, .insert 0 10 (0, 0), .commit 0 [(0, 0)], .begin .snapshot, .begin .snapshot,
      .update 1 1 20 (0, 0), .commit 1 [(0, 0)]], _, by decide, rfl, by decide, by decide⟩

/-! ## C55: read committed -/

/-- C55, the part that holds: at read committed, if the current version of the row is the reader's own or committed, the
read returns it. -/
theorem C55_read_committed_partial (d : Db V) (n t : Nat) (tx : Txn V) (rid : Rid) (m : Meta) (v : V)
    (hiso : tx.iso = .readCommitted) (h : d.rows.get rid = some (m, v)) (hv : m.creator = t ∨ ∃ c, m.cts = some c) :
    (getTuple n d t tx rid).answer = some (if m.deleted then none else some v) := by
  have : m.creator = t ∨ m.cts.isSome = true := by
    rcases hv with h | ⟨c, h⟩
    · exact Or.inl h
    · right; rw [h]; rfl
  simp only [getTuple, h, hiso, this, if_true]
  cases m.deleted <;> rfl

example : ∃ tx m v, (run Db.new [Op.begin .readCommitted, .insert 0 (7 : Nat) (0, 0), .commit 0 [(0, 0)]]).1.txns.get 0 = some tx ∧
    tx.iso = .readCommitted ∧
    (run Db.new [Op.begin .readCommitted, .insert 0 (7 : Nat) (0, 0), .commit 0 [(0, 0)]]).1.rows.get (0, 0) = some (m, v) ∧
    ∃ c, m.cts = some c := ⟨_, _, _, rfl, rfl, rfl, _, rfl⟩

/-- C55 is false: transaction 1 (read committed) has read the committed 20; when transaction 3 then updates the row
without committing, the same read returns 10, which has not been the committed value since. -/
theorem C55_read_committed_stale_fails :
    ∃ (os : List (Op Nat)) (o : Op Nat) (t : Nat) (tx : Txn Nat) (rid : Rid), tx.iso = .readCommitted ∧
      (run Db.new os).1.txns.get t = some tx ∧ (run Db.new (os ++ [o])).1.txns.get t = some tx ∧
      (Spec.run Spec.init (run Db.new (os ++ [o])).2).committed rid = some 20 ∧
      getTuple 5 (run Db.new os).1 t tx rid = .val 20 ∧ getTuple 5 (run Db.new (os ++ [o])).1 t tx rid = .val 10 :=
  ⟨[.begin .snapshot, .insert 0 10 (0, 0), .commit 0 [(0, 0)], .begin .readCommitted, .begin .snapshot,
    .update 2 2 20 (0, 0), .commit 2 [(0, 0)], .begin .snapshot], .update 3 3 30 (0, 0), 1, _, (0, 0), rfl, rfl, rfl,
    by decide, by decide, by decide⟩

/-! ## C56: the UPDATE statement -/

/-- `UpdateExecutor::next` for one row (update_executor.rs:81-199, line 150): the metadata passed names transaction 0. -/
def sqlUpdate (d : Db V) (t : Nat) (v : V) (rid : Rid) : Db V × Res := update d t 0 v rid

/-- C56, the part that holds: UPDATE changes any undeleted committed row. -/
theorem C56_sql_update_committed_partial (d : Db V) (t : Nat) (tx : Txn V) (v cur : V) (rid : Rid) (m : Meta) (c : Nat)
    (ht : d.txns.get t = some tx) (hr : tx.state = .running) (h : d.rows.get rid = some (m, cur)) (hc : m.cts = some c)
    (hd : m.deleted = false) :
    (sqlUpdate d t v rid).2 = .ok ∧ ∃ m', (sqlUpdate d t v rid).1.rows.get rid = some (m', v) ∧ m'.creator = t := by
  simp only [sqlUpdate, update, ht, hr, ne_eq, not_true, if_false, h, hd, Bool.false_eq_true, hc, reduceCtorEq, and_false]
  refine ⟨trivial, { creator := t, cts := none, deleted := false, undo := some tx.undo.length }, ?_, rfl⟩
  simp only [writeVersion, addWrite, get_set', if_true]

example : ∃ tx m cur, (run Db.new [Op.begin .snapshot, .insert 0 (7 : Nat) (0, 0), .commit 0 [(0, 0)], .begin .snapshot]).1.txns.get 1 = some tx ∧
    tx.state = .running ∧
    (run Db.new [Op.begin .snapshot, .insert 0 (7 : Nat) (0, 0), .commit 0 [(0, 0)], .begin .snapshot]).1.rows.get (0, 0) = some (m, cur) ∧
    m.cts = some 2 ∧ m.deleted = false := ⟨_, _, _, rfl, rfl, rfl, rfl, rfl⟩

/-- C56 is false: a transaction cannot UPDATE a row it has inserted itself. -/
theorem C56_sql_update_own_fails :
    ∃ (os : List (Op Nat)) (t : Nat) (rid : Rid), (run Db.new os).2.getLast? = some (.insert t 10 rid, .ok) ∧
      (sqlUpdate (run Db.new os).1 t 20 rid).2 = .err :=
  ⟨[.begin .snapshot, .begin .snapshot, .insert 1 10 (0, 0)], 1, (0, 0), rfl, by decide⟩

/-- C56 is false: any transaction can UPDATE the uncommitted row of transaction 0. -/
theorem C56_sql_dirty_write_fails :
    ∃ (os : List (Op Nat)) (rid : Rid), (run Db.new os).2.getLast? = some (.insert 0 10 rid, .ok) ∧
      (sqlUpdate (run Db.new os).1 1 20 rid).2 = .ok :=
  ⟨[.begin .snapshot, .begin .snapshot, .insert 0 10 (0, 0)], (0, 0), rfl, by decide⟩

end Verif.Mvcc
