import Verif.Mvcc.Props
import Verif.Mvcc.SerialSpec

/-!
# C117: serializable transactions are serializable
-/

namespace Verif.Mvcc

open Verif.Locks (Iso TState)
open Verif.Mvcc.Spec (Abs)

variable {V : Type}

/-- The calls of a log. -/
def callsOf (H : List (Ev V)) : List (Op V) := H.filterMap fun
  | .call o _ => some o
  | .read .. => none

/-- The database after a log. -/
def dbOf (H : List (Ev V)) : Db V := (run Db.new (callsOf H)).1

/-- A running transaction that reads the row gets `v`. -/
def Reads (d : Db V) (t : Nat) (rid : Rid) (v : Option V) : Prop :=
  ∃ tx, d.txns.get t = some tx ∧ tx.state = .running ∧ ∃ n0, ∀ n, n0 ≤ n → (getTuple n d t tx rid).answer = some v

/-- The logs that can come about from an empty database. -/
inductive Happens : List (Ev V) → Prop where
  | nil : Happens []
  | call {H : List (Ev V)} (o : Op V) : Happens H → Happens (H ++ [.call o (step (dbOf H) o).2])
  | read {H : List (Ev V)} (t : Nat) (rid : Rid) (v : Option V) : Happens H → Reads (dbOf H) t rid v → Happens (H ++ [.read t rid v])

/-- No row that an updating transaction has read is changed by another one that commits before it: for every committed transaction that
wrote something, between its `BEGIN` and its first `COMMIT` no other transaction committed that wrote a row it read. -/
def ReadsKept (H : List (Ev V)) : Prop :=
  ∀ p i t q o r, H = p ++ Ev.call (.begin i) (.begun t) :: (q ++ Ev.call (.commit t o) (.committed true) :: r) → ¬ Committed q t →
    (∃ rid w, Act.wrote rid w ∈ acts t q) →
    ∀ rid v, Act.saw rid v ∈ acts t q → ∀ u, u ≠ t → Committed q u → ¬ Committed p u → ∀ w, Act.wrote rid w ∉ acts u (p ++ q)

/-! ## Logs -/

theorem acts_append (t : Nat) (H K : List (Ev V)) : acts t (H ++ K) = acts t H ++ acts t K := List.filterMap_append ..

theorem acts_one (t : Nat) (e : Ev V) : acts t [e] = (actOf t e).toList := by
  unfold acts
  cases h : actOf t e <;> simp [List.filterMap, h]

theorem committed_append {H K : List (Ev V)} {t : Nat} : Committed (H ++ K) t ↔ Committed H t ∨ Committed K t := by
  unfold Committed
  constructor
  · rintro ⟨o, h⟩
    rcases List.mem_append.mp h with h | h
    · exact .inl ⟨o, h⟩
    · exact .inr ⟨o, h⟩
  · rintro (⟨o, h⟩ | ⟨o, h⟩)
    · exact ⟨o, List.mem_append.mpr (.inl h)⟩
    · exact ⟨o, List.mem_append.mpr (.inr h)⟩

theorem callsOf_append (H K : List (Ev V)) : callsOf (H ++ K) = callsOf H ++ callsOf K := List.filterMap_append ..

theorem run_snoc (os : List (Op V)) (o : Op V) : ∀ d : Db V, run d (os ++ [o]) =
    ((step (run d os).1 o).1, (run d os).2 ++ [(o, (step (run d os).1 o).2)]) := by
  induction os with
  | nil => intro d; rfl
  | cons x os ih => intro d; simp only [List.cons_append, run, ih]

theorem runOk_snoc (os : List (Op V)) (o : Op V) : ∀ d : Db V, RunOk d (os ++ [o]) ↔ RunOk d os ∧ OpOk (run d os).1 o := by
  induction os with
  | nil => intro d; simp [RunOk, run]
  | cons x os ih => intro d; simp only [List.cons_append, RunOk, run, ih, and_assoc]

theorem specRun_snoc (es : List (Op V × Res)) (e : Op V × Res) : ∀ a : Abs V, Spec.run a (es ++ [e]) = Spec.step (Spec.run a es) e := by
  induction es with
  | nil => intro a; rfl
  | cons x es ih => intro a; simp only [List.cons_append, Spec.run, ih]

theorem dbOf_call (H : List (Ev V)) (o : Op V) (r : Res) : dbOf (H ++ [.call o r]) = (step (dbOf H) o).1 := by
  unfold dbOf
  rw [callsOf_append]
  show (run Db.new (callsOf H ++ [o])).1 = _
  rw [run_snoc]

theorem dbOf_read (H : List (Ev V)) (t : Nat) (rid : Rid) (v : Option V) : dbOf (H ++ [.read t rid v]) = dbOf H := by
  unfold dbOf
  rw [callsOf_append]
  show (run Db.new (callsOf H ++ [])).1 = _
  rw [List.append_nil]

/-! ## Playing acts -/

section play
variable [DecidableEq V]

theorem play_append (l k : List (Act V)) : ∀ σ : Rid → Option V, play σ (l ++ k) = (play σ l).bind fun σ => play σ k := by
  induction l with
  | nil => intro σ; rfl
  | cons x l ih =>
    intro σ
    cases x with
    | saw rid v =>
      simp only [List.cons_append, play]
      by_cases h : σ rid = v
      · simp only [h, if_true]; exact ih σ
      · simp only [h, if_false]; rfl
    | wrote rid v => simp only [List.cons_append, play]; exact ih _

/-- Acts that only read leave the map. -/
theorem play_reads (l : List (Act V)) (h : ∀ rid w, Act.wrote rid w ∉ l) : ∀ {σ σ' : Rid → Option V}, play σ l = some σ' → σ' = σ := by
  induction l with
  | nil => intro σ σ' e; cases e; rfl
  | cons x l ih =>
    intro σ σ' e
    cases x with
    | saw rid v =>
      simp only [play] at e
      by_cases hv : σ rid = v
      · rw [if_pos hv] at e
        exact ih (fun rid w hm => h rid w (List.mem_cons_of_mem _ hm)) e
      · rw [if_neg hv] at e; cases e
    | wrote rid v => exact absurd (List.mem_cons_self ..) (h rid v)

/-- Two maps that agree on the rows read go through the same acts, and then agree on these and on the rows written; others keep their value. -/
theorem play_agree (l : List (Act V)) : ∀ {σ τ σ' : Rid → Option V}, play σ l = some σ' → (∀ rid v, Act.saw rid v ∈ l → σ rid = τ rid) →
    ∃ τ', play τ l = some τ' ∧ ∀ rid, ((∃ w, Act.wrote rid w ∈ l) → τ' rid = σ' rid) ∧ ((∀ w, Act.wrote rid w ∉ l) → τ' rid = τ rid ∧ σ' rid = σ rid) := by
  induction l with
  | nil =>
    intro σ τ σ' e _
    cases e
    exact ⟨τ, rfl, fun rid => ⟨fun ⟨w, h⟩ => (by cases h), fun _ => ⟨rfl, rfl⟩⟩⟩
  | cons x l ih =>
    intro σ τ σ' e hr
    cases x with
    | saw rid v =>
      have hst := hr rid v (List.mem_cons_self ..)
      simp only [play] at e ⊢
      by_cases hv : σ rid = v
      · rw [if_pos hv] at e
        rw [if_pos (hst ▸ hv)]
        obtain ⟨τ', h1, h2⟩ := ih e fun r w hm => hr r w (List.mem_cons_of_mem _ hm)
        refine ⟨τ', h1, fun r => ⟨fun ⟨w, hw⟩ => (h2 r).1 ⟨w, ?_⟩, fun hw => (h2 r).2 fun w hm => hw w (List.mem_cons_of_mem _ hm)⟩⟩
        rcases List.mem_cons.mp hw with hw | hw
        · cases hw
        · exact hw
      · rw [if_neg hv] at e; cases e
    | wrote rid v =>
      simp only [play] at e ⊢
      obtain ⟨τ', h1, h2⟩ := ih (τ := fun r => if r = rid then v else τ r) e (by
        intro r w hm
        by_cases hrr : r = rid
        · simp [hrr]
        · simp only [hrr, if_false]; exact hr r w (List.mem_cons_of_mem _ hm))
      refine ⟨τ', h1, fun r => ⟨fun ⟨w, hw⟩ => ?_, fun hw => ?_⟩⟩
      · by_cases hl : ∃ w, Act.wrote r w ∈ l
        · exact (h2 r).1 hl
        · have h3 := (h2 r).2 fun w hm => hl ⟨w, hm⟩
          rcases List.mem_cons.mp hw with hw | hw
          · cases hw; simp [h3]
          · exact absurd ⟨w, hw⟩ hl
      · have hne : r ≠ rid := by rintro rfl; exact hw v (List.mem_cons_self ..)
        have h3 := (h2 r).2 fun w hm => hw w (List.mem_cons_of_mem _ hm)
        simpa [hne] using h3

end play

/-! ## What one call does -/

/-- State and level of a transaction. -/
def st (d : Db V) (x : Nat) : Option (TState × Iso) := (d.txns.get x).map fun tx => (tx.state, tx.iso)

theorem st_running {d : Db V} {x : Nat} {tx : Txn V} (h : Running d x tx) : st d x = some (.running, tx.iso) := by
  unfold st; rw [h.1, Option.map_some, h.2]

theorem running_st {d : Db V} {x : Nat} {i : Iso} (h : st d x = some (.running, i)) : ∃ tx, Running d x tx ∧ tx.iso = i := by
  unfold st at h
  cases hg : d.txns.get x with
  | none => rw [hg] at h; cases h
  | some tx =>
    rw [hg] at h
    simp only [Option.map_some, Option.some.injEq, Prod.mk.injEq] at h
    exact ⟨tx, ⟨hg, h.1⟩, h.2⟩

inductive Move (d : Db V) (a : Abs V) (o : Op V) : Prop where
  | begin (i : Iso) (ho : o = .begin i) (hr : (step d o).2 = .begun d.nextId) (hn : (step d o).1.nextId = d.nextId + 1)
      (hs : ∀ x, st (step d o).1 x = if x = d.nextId then some (.running, i) else st d x)
  | write (t : Nat) (tx : Txn V) (rid : Rid) (w : Option V) (ht : Running d t tx)
      (ha : ∀ x, actOf x (.call o (step d o).2) = if x = t then some (.wrote rid w) else none)
      (hc : ∀ u k, Ev.call o (step d o).2 ≠ .call (.commit u k) (.committed true)) (hn : (step d o).1.nextId = d.nextId)
      (hs : ∀ x, st (step d o).1 x = st d x) (hw : Spec.step a (o, (step d o).2) = Spec.write a t rid w)
  | commit (t : Nat) (k : List Rid) (tx : Txn V) (ho : o = .commit t k) (hr : (step d o).2 = .committed true) (ht : Running d t tx)
      (hn : (step d o).1.nextId = d.nextId) (hs : ∀ x, st (step d o).1 x = if x = t then some (.committed, tx.iso) else st d x)
  | abort (t : Nat) (k : List Rid) (tx : Txn V) (ho : o = .abort t k) (hr : (step d o).2 = .ok) (ht : Running d t tx)
      (hn : (step d o).1.nextId = d.nextId) (hs : ∀ x, st (step d o).1 x = if x = t then some (.aborted, tx.iso) else st d x)
  | idle (ha : ∀ x, actOf x (.call o (step d o).2) = none)
      (hc : ∀ u k, Ev.call o (step d o).2 = .call (.commit u k) (.committed true) → ∃ i, st d u = some (.committed, i))
      (hn : (step d o).1.nextId = d.nextId) (hs : ∀ x, st (step d o).1 x = st d x) (hw : Spec.step a (o, (step d o).2) = a)

theorem clear_idle {a : Abs V} {t : Nat} (h : a.wrote t = fun _ => none) : Spec.clear a t = a := by
  unfold Spec.clear
  cases a with
  | mk c s w =>
    simp only at h ⊢
    congr
    funext t'
    by_cases e : t' = t
    · subst e; simp [h]
    · simp [e]

theorem st_set (d d' : Db V) (t : Nat) (tx tx' : Txn V) (hg : d.txns.get t = some tx) (h : d'.txns = d.txns.set t tx') (h1 : tx'.state = tx.state)
    (h2 : tx'.iso = tx.iso) (x : Nat) : st d' x = st d x := by
  unfold st
  rw [h, get_set']
  by_cases e : x = t
  · subst e; simp [hg, h1, h2]
  · simp [e]

theorem st_writeVersion {d : Db V} {o : Op V} {t rid m cur new del} {tx : Txn V} (hs : step d o = (writeVersion d t tx rid m cur new del, .ok))
    (hg : d.txns.get t = some tx) (x : Nat) : st (step d o).1 x = st d x := by
  rw [hs]
  obtain ⟨tx', ⟨h1, h2, _⟩, h3⟩ := writeVersion_get d t tx rid m cur new del
  unfold st
  rw [h3]
  by_cases e : x = t
  · subst e; simp [hg, h1, h2]
  · simp [e]

theorem move {d : Db V} {a : Abs V} {vers} (I : Inv d a vers) (hi : ∀ t, (∀ tx, ¬ Running d t tx) → a.wrote t = fun _ => none) (o : Op V) :
    Move d a o := by
  have herr : ∀ o : Op V, (∀ i, o ≠ .begin i) → step d o = (d, .err) → Move d a o := by
    intro o hb h
    refine .idle ?_ ?_ (by rw [h]) (by rw [h]; exact fun _ => rfl) ?_
    · intro x; rw [h]; cases o <;> rfl
    · intro u k e; rw [h] at e; cases e
    · rw [h]; cases o <;> rfl
  cases o with
  | begin i =>
    refine .begin i rfl rfl rfl fun x => ?_
    show st (begin d i).1 x = _
    unfold st
    simp only [begin, Watermark.getNextTsAndRegister, Watermark.getNextTs, get_set']
    by_cases e : x = d.nextId <;> simp [e]
  | insert t v rid =>
    cases hg : d.txns.get t with
    | none => exact herr _ (by simp) (by simp [step, insert, hg])
    | some tx =>
      by_cases hr : tx.state = .running
      · have hs : step d (.insert t v rid) = (addWrite { d with rows := d.rows.set rid ({ creator := t, cts := none, deleted := false, undo := none }, v) } t tx rid, .ok) := by
          simp [step, insert, hg, hr]
        refine .write t tx rid (some v) ⟨hg, hr⟩ ?_ ?_ (by rw [hs]; rfl) ?_ (by rw [hs]; rfl)
        · intro x; rw [hs]; simp only [actOf, eq_comm]
        · intro u k e; cases e
        · intro x; rw [hs]; exact st_set d _ t tx { tx with writes := ins rid tx.writes } hg rfl rfl rfl x
      · exact herr _ (by simp) (by simp [step, insert, hg, hr])
  | update t who v rid =>
    cases hg : d.txns.get t with
    | none => exact herr _ (by simp) (by simp [step, update, hg])
    | some tx =>
      by_cases hr : tx.state = .running
      · cases hrow : d.rows.get rid with
        | none => exact herr _ (by simp) (by simp [step, update, hg, hr, hrow])
        | some mc =>
          obtain ⟨m, cur⟩ := mc
          by_cases hd : m.deleted = true
          · exact herr _ (by simp) (by simp [step, update, hg, hr, hrow, hd])
          · by_cases hc : m.creator ≠ who ∧ m.cts = none
            · refine herr _ (by simp) ?_
              simp only [step, update, hg, hr, hrow, hd, ne_eq, not_true_eq_false, if_false, Bool.false_eq_true]
              exact if_pos hc
            · have hs : step d (.update t who v rid) = (writeVersion d t tx rid m cur v false, .ok) := by
                simp only [step, update, hg, hr, hrow, hd, ne_eq, not_true_eq_false, if_false, Bool.false_eq_true]
                exact if_neg hc
              refine .write t tx rid (some v) ⟨hg, hr⟩ ?_ ?_ (by rw [hs]; rfl) ?_ (by rw [hs]; rfl)
              · intro x; rw [hs]; simp only [actOf, eq_comm]
              · intro u k e; cases e
              · exact st_writeVersion hs hg
      · exact herr _ (by simp) (by simp [step, update, hg, hr])
  | delete t rid =>
    cases hg : d.txns.get t with
    | none => exact herr _ (by simp) (by simp [step, delete, hg])
    | some tx =>
      by_cases hr : tx.state = .running
      · cases hrow : d.rows.get rid with
        | none => exact herr _ (by simp) (by simp [step, delete, hg, hr, hrow])
        | some mc =>
          obtain ⟨m, cur⟩ := mc
          by_cases hd : m.deleted = true
          · exact herr _ (by simp) (by simp [step, delete, hg, hr, hrow, hd])
          · by_cases hc : m.creator ≠ t ∧ m.cts = none
            · refine herr _ (by simp) ?_
              simp only [step, delete, hg, hr, hrow, hd, ne_eq, not_true_eq_false, if_false, Bool.false_eq_true]
              exact if_pos hc
            · have hs : step d (.delete t rid) = (writeVersion d t tx rid m cur cur true, .ok) := by
                simp only [step, delete, hg, hr, hrow, hd, ne_eq, not_true_eq_false, if_false, Bool.false_eq_true]
                exact if_neg hc
              refine .write t tx rid none ⟨hg, hr⟩ ?_ ?_ (by rw [hs]; rfl) ?_ (by rw [hs]; rfl)
              · intro x; rw [hs]; simp only [actOf, eq_comm]
              · intro u k e; cases e
              · exact st_writeVersion hs hg
      · exact herr _ (by simp) (by simp [step, delete, hg, hr])
  | commit t k =>
    cases hg : d.txns.get t with
    | none => exact herr _ (by simp) (by simp [step, commit, hg])
    | some tx =>
      rcases I.states t tx hg with hr | hr | hr
      · have hs : (step d (.commit t k)).2 = .committed true := by simp [step, commit, hg, hr]
        have hf := stamps_fields t (commitStart d t tx).2 k (commitStart d t tx).1
        have hd : (step d (.commit t k)).1 = prune (k.foldl (stamp t (commitStart d t tx).2) (commitStart d t tx).1) := by
          simp [step, commit, hg, hr]
        refine .commit t k tx rfl hs ⟨hg, hr⟩ ?_ fun x => ?_
        · rw [hd]; exact hf.2.1
        · have ht : (prune (k.foldl (stamp t (commitStart d t tx).2) (commitStart d t tx).1)).txns = (commitStart d t tx).1.txns := hf.2.2.1
          unfold st
          rw [hd, ht]
          simp only [commitStart, get_set']
          by_cases e : x = t <;> simp [e]
      · have hs : step d (.commit t k) = (d, .committed true) := by simp [step, commit, hg, hr]
        refine .idle ?_ ?_ (by rw [hs]) (by rw [hs]; exact fun _ => rfl) ?_
        · intro x; rw [hs]; rfl
        · intro u k' e; rw [hs] at e; cases e
          exact ⟨tx.iso, by unfold st; rw [hg]; simp [hr]⟩
        · rw [hs]
          have hw := hi t fun tx' h' => by rw [h'.1] at hg; cases hg; have h2 := h'.2; rw [hr] at h2; cases h2
          show ({ Spec.clear a t with committed := fun rid => (a.wrote t rid).getD (a.committed rid) } : Abs V) = a
          rw [clear_idle hw, hw]
          rfl
      · have hs : step d (.commit t k) = (d, .committed false) := by simp [step, commit, hg, hr]
        refine .idle ?_ ?_ (by rw [hs]) (by rw [hs]; exact fun _ => rfl) ?_
        · intro x; rw [hs]; rfl
        · intro u k' e; rw [hs] at e; cases e
        · rw [hs]; rfl
  | abort t k =>
    cases hg : d.txns.get t with
    | none => exact herr _ (by simp) (by simp [step, abort, hg])
    | some tx =>
      have hidle : tx.state ≠ .running → step d (.abort t k) = (d, .ok) → Move d a (.abort t k) := by
        intro hr hs
        refine .idle ?_ ?_ (by rw [hs]) (by rw [hs]; exact fun _ => rfl) ?_
        · intro x; rw [hs]; rfl
        · intro u k' e; rw [hs] at e; cases e
        · rw [hs]
          exact clear_idle (hi t fun tx' h' => hr (by rw [h'.1] at hg; cases hg; exact h'.2))
      rcases I.states t tx hg with hr | hr | hr
      · have hs : (step d (.abort t k)).2 = .ok := by simp [step, abort, hg, hr]
        have hf := aborts_fields t k d
        refine .abort t k tx rfl hs ⟨hg, hr⟩ ?_ fun x => ?_
        · simp only [step, abort, hg, hr, prune, hf]
        · unfold st
          simp only [step, abort, hg, hr, prune, hf, get_set']
          by_cases e : x = t <;> simp [e]
      · exact hidle (by simp [hr]) (by simp [step, abort, hg, hr])
      · exact hidle (by simp [hr]) (by simp [step, abort, hg, hr])

/-! ## The order of the committed transactions -/

section serial
variable [DecidableEq V]

/-- What is known of a running transaction `t`: where it began, that it went through its acts on its snapshot, which rows have changed since,
and after which of the committed transactions its snapshot is. -/
structure RunInv (H : List (Ev V)) (a : Abs V) (ord : List Nat) (t : Nat) : Prop where
  start : ∃ p i q, H = p ++ Ev.call (.begin i) (.begun t) :: q ∧ acts t p = [] ∧
    ∀ rid, a.committed rid = a.snap t rid ∨ ∃ u, u ≠ t ∧ Committed q u ∧ ¬ Committed p u ∧ ∃ w, Act.wrote rid w ∈ acts u (p ++ q)
  plays : play (a.snap t) (acts t H) = some (Spec.read a t)
  wr : ∀ rid, a.wrote t rid = none ↔ ∀ w, Act.wrote rid w ∉ acts t H
  at' : ∃ pre post, ord = pre ++ post ∧ play (fun _ => none) (pre.flatMap fun t => acts t H) = some (a.snap t)

structure SInv (H : List (Ev V)) (d : Db V) (a : Abs V) (ord : List Nat) : Prop where
  nodup : ord.Nodup
  mem : ∀ t, t ∈ ord ↔ Committed H t
  done : ∀ t, t ∈ ord ↔ ∃ i, st d t = some (.committed, i)
  fresh : ∀ t, d.nextId ≤ t → acts t H = []
  idle : ∀ t, (∀ tx, ¬ Running d t tx) → a.wrote t = fun _ => none
  plays : play (fun _ => none) (ord.flatMap fun t => acts t H) = some a.committed
  run : ∀ t tx, Running d t tx → SnapshotLevel tx.iso ∧ RunInv H a ord t

theorem flatMap_acts_eq {H K : List (Ev V)} (l : List Nat) (h : ∀ t ∈ l, acts t K = acts t H) :
    (l.flatMap fun t => acts t K) = l.flatMap fun t => acts t H := by
  induction l with
  | nil => rfl
  | cons x l ih =>
    simp only [List.flatMap_cons]
    rw [h x (List.mem_cons_self ..), ih fun t ht => h t (List.mem_cons_of_mem _ ht)]

/-- An entry whose act is of another running transaction extends what is known. -/
theorem runInv_extend {H : List (Ev V)} {a a' : Abs V} {ord : List Nat} {t : Nat} (e : Ev V) (R : RunInv H a ord t)
    (hord : ∀ u ∈ ord, actOf u e = none) (ha : actOf t e = none)
    (h1 : a'.snap t = a.snap t) (h2 : a'.wrote t = a.wrote t) (h3 : a'.committed = a.committed) : RunInv (H ++ [e]) a' ord t := by
  have hact : acts t (H ++ [e]) = acts t H := by rw [acts_append, acts_one, ha]; simp
  constructor
  · obtain ⟨p, i, q, rfl, hp, hq⟩ := R.start
    refine ⟨p, i, q ++ [e], by simp, hp, fun rid => ?_⟩
    rw [h1, h3]
    rcases hq rid with h | ⟨u, hu, hcq, hcp, w, hw⟩
    · exact .inl h
    · refine .inr ⟨u, hu, committed_append.mpr (.inl hcq), hcp, w, ?_⟩
      rw [← List.append_assoc, acts_append]
      exact List.mem_append.mpr (.inl hw)
  · rw [hact, h1, R.plays]
    simp only [Option.some.injEq]
    funext rid
    simp only [Spec.read, h1, h2]
  · intro rid; rw [hact, h2]; exact R.wr rid
  · obtain ⟨pre, post, rfl, hpl⟩ := R.at'
    refine ⟨pre, post, rfl, ?_⟩
    rw [h1, ← hpl]
    congr 1
    refine flatMap_acts_eq pre fun u hu => ?_
    rw [acts_append, acts_one, hord u (List.mem_append.mpr (.inl hu))]
    simp

/-- The running transaction itself acts. -/
theorem runInv_act {H : List (Ev V)} {a a' : Abs V} {ord : List Nat} {t : Nat} (e : Ev V) (x : Act V) (R : RunInv H a ord t)
    (hord : ∀ u ∈ ord, actOf u e = none) (ha : actOf t e = some x)
    (h1 : a'.snap t = a.snap t) (h3 : a'.committed = a.committed)
    (hx : (∃ rid w, x = .wrote rid w ∧ a' = Spec.write a t rid w) ∨ (∃ rid, x = .saw rid (Spec.read a t rid) ∧ a' = a)) :
    RunInv (H ++ [e]) a' ord t := by
  have hact : acts t (H ++ [e]) = acts t H ++ [x] := by rw [acts_append, acts_one, ha]; rfl
  constructor
  · obtain ⟨p, i, q, rfl, hp, hq⟩ := R.start
    refine ⟨p, i, q ++ [e], by simp, hp, fun rid => ?_⟩
    rw [h1, h3]
    rcases hq rid with h | ⟨u, hu, hcq, hcp, w, hw⟩
    · exact .inl h
    · refine .inr ⟨u, hu, committed_append.mpr (.inl hcq), hcp, w, ?_⟩
      rw [← List.append_assoc, acts_append]
      exact List.mem_append.mpr (.inl hw)
  · rw [hact, play_append, h1, R.plays]
    simp only [Option.bind_some]
    rcases hx with ⟨rid, w, rfl, rfl⟩ | ⟨rid, rfl, rfl⟩
    · simp only [play, Option.some.injEq]
      funext r
      simp only [Spec.read, Spec.write]
      by_cases hr : r = rid
      · simp [hr]
      · simp [hr]
    · simp only [play, if_true]
  · intro r
    rw [hact]
    rcases hx with ⟨rid, w, rfl, rfl⟩ | ⟨rid, rfl, rfl⟩
    · simp only [Spec.write]
      by_cases hr : r = rid
      · subst hr
        simp only [and_self, if_true, reduceCtorEq, false_iff]
        intro h
        exact h w (by simp)
      · simp only [hr, and_false, if_false]
        rw [R.wr r]
        constructor
        · intro h w' hm
          rcases List.mem_append.mp hm with hm | hm
          · exact h w' hm
          · simp only [List.mem_singleton, Act.wrote.injEq] at hm; exact hr hm.1
        · intro h w' hm; exact h w' (List.mem_append.mpr (.inl hm))
    · rw [R.wr r]
      constructor
      · intro h w' hm
        rcases List.mem_append.mp hm with hm | hm
        · exact h w' hm
        · simp at hm
      · intro h w' hm; exact h w' (List.mem_append.mpr (.inl hm))
  · obtain ⟨pre, post, rfl, hpl⟩ := R.at'
    refine ⟨pre, post, rfl, ?_⟩
    rw [h1, ← hpl]
    congr 1
    refine flatMap_acts_eq pre fun u hu => ?_
    rw [acts_append, acts_one, hord u (List.mem_append.mpr (.inl hu))]
    simp

theorem acts_snoc_none {H : List (Ev V)} {t : Nat} {e : Ev V} (h : actOf t e = none) : acts t (H ++ [e]) = acts t H := by
  rw [acts_append, acts_one, h]; simp

theorem plays_snoc {H : List (Ev V)} {ord : List Nat} {e : Ev V} {σ : Rid → Option V} (h : ∀ u ∈ ord, actOf u e = none)
    (hp : play (fun _ => none) (ord.flatMap fun t => acts t H) = some σ) :
    play (fun _ => none) (ord.flatMap fun t => acts t (H ++ [e])) = some σ := by
  rw [← hp]
  congr 1
  exact flatMap_acts_eq ord fun u hu => acts_snoc_none (h u hu)

theorem not_running_of {d : Db V} {x : Nat} (h : ∀ i, st d x ≠ some (.running, i)) (tx : Txn V) : ¬ Running d x tx := fun hr => h _ (st_running hr)

theorem committed_one {t u : Nat} {k : List Rid} : Committed ([.call (.commit t k) (.committed true)] : List (Ev V)) u ↔ u = t := by
  unfold Committed
  constructor
  · rintro ⟨o, h⟩; simp only [List.mem_singleton, Ev.call.injEq, Op.commit.injEq] at h; exact h.1.1
  · rintro rfl; exact ⟨k, List.mem_singleton.mpr rfl⟩

/-- What a commit leaves known of another running transaction. -/
theorem runInv_commit {H : List (Ev V)} {d : Db V} {a a' : Abs V} {ord ord' : List Nat} {t u : Nat} {k : List Rid} (hne : u ≠ t) (R : RunInv H a ord u)
    (Rt : RunInv H a ord t) (hnt : ¬ Committed H t) (h1 : a'.snap u = a.snap u) (h2 : a'.wrote u = a.wrote u)
    (h3 : a'.committed = fun rid => (a.wrote t rid).getD (a.committed rid))
    (hat : ∃ pre post, ord' = pre ++ post ∧ play (fun _ => none) (pre.flatMap fun t => acts t H) = some (a.snap u)) :
    RunInv (H ++ [.call (.commit t k) (.committed true)]) a' ord' u := by
  have hact : ∀ x, acts x (H ++ [Ev.call (.commit t k) (.committed true)]) = acts x H := fun x => acts_snoc_none rfl
  constructor
  · obtain ⟨p, i, q, rfl, hp, hq⟩ := R.start
    refine ⟨p, i, q ++ [.call (.commit t k) (.committed true)], by simp, hp, fun rid => ?_⟩
    rw [h1, h3]
    cases hw : a.wrote t rid with
    | none =>
      rcases hq rid with h | ⟨x, hu, hcq, hcp, w, hw⟩
      · left; simp only [hw, Option.getD_none]; exact h
      · refine .inr ⟨x, hu, committed_append.mpr (.inl hcq), hcp, w, ?_⟩
        rw [← List.append_assoc, acts_append]
        exact List.mem_append.mpr (.inl hw)
    | some w =>
      right
      refine ⟨t, Ne.symm hne, committed_append.mpr (.inr (committed_one.mpr rfl)), fun h => hnt (committed_append.mpr (.inl h)), ?_⟩
      have hex : ¬ ∀ w, Act.wrote rid w ∉ acts t (p ++ Ev.call (.begin i) (.begun u) :: q) := by
        intro h; rw [(Rt.wr rid).mpr h] at hw; cases hw
      have heq : acts t (p ++ Ev.call (.begin i) (.begun u) :: q) = acts t (p ++ (q ++ [Ev.call (.commit t k) (.committed true)])) := by
        rw [← List.append_assoc, acts_snoc_none rfl, acts_append, acts_append]
        rfl
      rw [heq] at hex
      exact Classical.byContradiction fun hn => hex fun w hm => hn ⟨w, hm⟩
  · rw [hact, h1, R.plays]
    simp only [Option.some.injEq]
    funext rid
    simp only [Spec.read, h1, h2]
  · intro rid; rw [hact, h2]; exact R.wr rid
  · obtain ⟨pre, post, rfl, hpl⟩ := hat
    refine ⟨pre, post, rfl, ?_⟩
    rw [h1, ← hpl]
    congr 1
    exact flatMap_acts_eq pre fun u _ => hact u

theorem sinv_call {H : List (Ev V)} {d : Db V} {a : Abs V} {vers} {ord : List Nat} (I : Inv d a vers) (S : SInv H d a ord) (o : Op V)
    (hlvl : ∀ i, o = .begin i → SnapshotLevel i) (hk : ReadsKept (H ++ [.call o (step d o).2])) :
    ∃ ord', SInv (H ++ [.call o (step d o).2]) (step d o).1 (Spec.step a (o, (step d o).2)) ord' := by
  have hdone : ∀ u ∈ ord, ∀ tx, ¬ Running d u tx := by
    intro u hu tx hr
    obtain ⟨i, hi⟩ := (S.done u).mp hu
    rw [st_running hr] at hi; cases hi
  have hids : st d d.nextId = none := by
    unfold st
    cases hg : d.txns.get d.nextId with
    | none => rfl
    | some tx => exact absurd (I.ids _ _ hg) (Nat.lt_irrefl _)
  cases move I S.idle o with
  | begin i ho hr hn hs =>
    subst ho
    rw [hr]
    have hact : ∀ x, actOf x (Ev.call (.begin i) (.begun d.nextId) : Ev V) = none := fun _ => rfl
    have hnc : ∀ u, ¬ Committed ([.call (.begin i) (.begun d.nextId)] : List (Ev V)) u := by
      rintro u ⟨k, h⟩; simp at h
    refine ⟨ord, S.nodup, fun t => ?_, fun t => ?_, fun t ht => ?_, fun t ht => ?_, ?_, fun t tx ht => ?_⟩
    · rw [S.mem, committed_append]
      exact ⟨.inl, fun h => h.resolve_right (hnc t)⟩
    · rw [S.done, hs]
      by_cases e : t = d.nextId
      · subst e; simp [hids]
      · simp [e]
    · rw [acts_snoc_none (hact t)]
      exact S.fresh t (by omega)
    · show (if t = d.nextId then fun _ => none else a.wrote t) = _
      by_cases e : t = d.nextId
      · simp [e]
      · simp only [e, if_false]
        refine S.idle t (not_running_of fun j hj => ?_)
        have : st (step d (.begin i)).1 t = some (.running, j) := by rw [hs, if_neg e]; exact hj
        obtain ⟨tx, h, _⟩ := running_st this
        exact ht tx h
    · exact plays_snoc (fun u _ => hact u) S.plays
    · have hst := st_running ht
      rw [hs] at hst
      by_cases e : t = d.nextId
      · subst e
        rw [if_pos rfl] at hst
        simp only [Option.some.injEq, Prod.mk.injEq, true_and] at hst
        refine ⟨hst ▸ hlvl i rfl, ?_⟩
        have hemp : acts d.nextId (H ++ [Ev.call (.begin i) (.begun d.nextId)]) = [] := by
          rw [acts_snoc_none (hact _)]; exact S.fresh _ (Nat.le_refl _)
        constructor
        · exact ⟨H, i, [], rfl, S.fresh _ (Nat.le_refl _), fun rid => .inl (by simp [Spec.step, Spec.clear])⟩
        · rw [hemp]
          simp only [play, Option.some.injEq]
          funext rid
          simp [Spec.read, Spec.step, Spec.clear]
        · intro rid; rw [hemp]; simp [Spec.step, Spec.clear]
        · refine ⟨ord, [], by simp, ?_⟩
          have := plays_snoc (e := Ev.call (.begin i) (.begun d.nextId)) (fun u _ => hact u) S.plays
          rw [this]
          simp [Spec.step]
      · rw [if_neg e] at hst
        obtain ⟨tx', ht', hi⟩ := running_st hst
        obtain ⟨hl, R⟩ := S.run t tx' ht'
        refine ⟨hi ▸ hl, runInv_extend _ R (fun u _ => hact u) (hact t) ?_ ?_ rfl⟩
        · simp [Spec.step, e]
        · simp [Spec.step, Spec.clear, e]
  | write t tx rid w ht ha hc hn hs hw =>
    have hord : ∀ u ∈ ord, actOf u (.call o (step d o).2) = none := by
      intro u hu
      rw [ha, if_neg]
      rintro rfl
      exact hdone u hu tx ht
    have hnc : ∀ u, ¬ Committed ([.call o (step d o).2] : List (Ev V)) u := by
      rintro u ⟨k, h⟩; exact hc u k (List.mem_singleton.mp h).symm
    refine ⟨ord, S.nodup, fun x => ?_, fun x => ?_, fun x hx => ?_, fun x hx => ?_, ?_, fun x tx' hx => ?_⟩
    · rw [S.mem, committed_append]
      exact ⟨.inl, fun h => h.resolve_right (hnc x)⟩
    · rw [S.done, hs]
    · rw [hn] at hx
      have : x ≠ t := by rintro rfl; exact absurd (I.ids _ _ ht.1) (by omega)
      rw [acts_snoc_none (by rw [ha, if_neg this])]
      exact S.fresh x hx
    · have hnr : ∀ tx, ¬ Running d x tx := not_running_of fun j hj => by
        obtain ⟨tx, h, _⟩ := running_st ((hs x).trans hj)
        exact hx tx h
      have hne : x ≠ t := by rintro rfl; exact hnr tx ht
      rw [hw]
      have := S.idle x hnr
      funext r
      simp [Spec.write, hne, this]
    · rw [hw]; exact plays_snoc hord S.plays
    · obtain ⟨tx'', hx', hi⟩ := running_st ((hs x).symm.trans (st_running hx))
      obtain ⟨hl, R⟩ := S.run x tx'' hx'
      refine ⟨hi ▸ hl, ?_⟩
      by_cases e : x = t
      · subst e
        exact runInv_act _ (.wrote rid w) R hord (by rw [ha, if_pos rfl]) (by rw [hw]; rfl) (by rw [hw]; rfl) (.inl ⟨rid, w, rfl, hw⟩)
      · refine runInv_extend _ R hord (by rw [ha, if_neg e]) (by rw [hw]; rfl) ?_ (by rw [hw]; rfl)
        rw [hw]; funext r; simp [Spec.write, e]
  | commit t k tx ho hr ht hn hs =>
    subst ho
    rw [hr] at hk ⊢
    have hact : ∀ x, actOf x (Ev.call (.commit t k) (.committed true) : Ev V) = none := fun _ => rfl
    have Rt := (S.run t tx ht).2
    have htn : t ∉ ord := fun h => hdone t h tx ht
    have hntc : ¬ Committed H t := fun h => htn ((S.mem t).mpr h)
    have hcases : ∃ ord' : List Nat, ord'.Nodup ∧ (∀ x, x ∈ ord' ↔ x ∈ ord ∨ x = t) ∧
        play (fun _ => none) (ord'.flatMap fun t => acts t H) = some (fun rid => (a.wrote t rid).getD (a.committed rid)) ∧
        ∀ pre post (σ : Rid → Option V), ord = pre ++ post → play (fun _ => none) (pre.flatMap fun t => acts t H) = some σ →
          ∃ pre' post' : List Nat, ord' = pre' ++ post' ∧ play (fun _ => none) (pre'.flatMap fun t => acts t H) = some σ := by
      by_cases hwr : ∃ rid w, Act.wrote rid w ∈ acts t H
      · refine ⟨ord ++ [t], ?_, fun x => by simp, ?_, fun pre post σ he hp => ⟨pre, post ++ [t], by simp [he], hp⟩⟩
        · rw [List.nodup_append]
          exact ⟨S.nodup, by simp, fun x hx y hy => by simp only [List.mem_singleton] at hy; subst hy; rintro rfl; exact htn hx⟩
        · rw [List.flatMap_append, play_append, S.plays]
          simp only [Option.bind_some, List.flatMap_cons, List.flatMap_nil, List.append_nil]
          obtain ⟨p, i, q, hH, hp, hq⟩ := Rt.start
          have hactq : acts t H = acts t q := by
            rw [hH, acts_append, hp]; rfl
          have hkept := hk p i t q k [] (by rw [hH]; simp) (fun h => hntc (by rw [hH]; exact committed_append.mpr (.inr (by
            obtain ⟨o, ho⟩ := h; exact ⟨o, List.mem_cons_of_mem _ ho⟩)))) (by
            obtain ⟨rid, w, hm⟩ := hwr; exact ⟨rid, w, hactq ▸ hm⟩)
          obtain ⟨τ', h1, h2⟩ := play_agree (acts t H) (τ := a.committed) Rt.plays (by
            intro rid v hm
            rcases hq rid with h | ⟨u, hu, hcq, hcp, w, hw⟩
            · exact h.symm
            · exact absurd hw (hkept rid v (hactq ▸ hm) u hu hcq hcp w))
          rw [h1]
          simp only [Option.some.injEq]
          funext rid
          cases hw : a.wrote t rid with
          | none =>
            simp only [Option.getD_none]
            exact ((h2 rid).2 ((Rt.wr rid).mp hw)).1
          | some w =>
            simp only [Option.getD_some]
            have hex : ∃ w, Act.wrote rid w ∈ acts t H := Classical.byContradiction fun hn => by
              rw [(Rt.wr rid).mpr fun w hm => hn ⟨w, hm⟩] at hw; cases hw
            rw [(h2 rid).1 hex]
            simp [Spec.read, hw]
      · have hnw : ∀ rid w, Act.wrote rid w ∉ acts t H := fun rid w hm => hwr ⟨rid, w, hm⟩
        have hw0 : ∀ rid, a.wrote t rid = none := fun rid => (Rt.wr rid).mpr (hnw rid)
        obtain ⟨pre, post, hord, hpre⟩ := Rt.at'
        have hsame := play_reads _ hnw Rt.plays
        have hself : play (a.snap t) (acts t H) = some (a.snap t) := by rw [Rt.plays, hsame]
        have hpre' : play (fun _ => none) ((pre ++ [t]).flatMap fun t => acts t H) = some (a.snap t) := by
          rw [List.flatMap_append, play_append, hpre]
          simp only [Option.bind_some, List.flatMap_cons, List.flatMap_nil, List.append_nil]
          exact hself
        refine ⟨pre ++ [t] ++ post, ?_, fun x => ?_, ?_, fun pre2 post2 σ he hp => ?_⟩
        · have hn := S.nodup
          rw [hord] at hn htn
          rw [List.append_assoc, List.nodup_append] at *
          obtain ⟨h1, h2, h3⟩ := hn
          refine ⟨h1, ?_, ?_⟩
          · simp only [List.singleton_append, List.nodup_cons]
            exact ⟨fun h => htn (List.mem_append.mpr (.inr h)), h2⟩
          · intro x hx y hy
            simp only [List.singleton_append, List.mem_cons] at hy
            rcases hy with rfl | hy
            · rintro rfl; exact htn (List.mem_append.mpr (.inl hx))
            · exact h3 x hx y hy
        · rw [hord]; simp only [List.mem_append, List.mem_singleton]
          constructor
          · rintro ((h | h) | h)
            · exact .inl (.inl h)
            · exact .inr h
            · exact .inl (.inr h)
          · rintro ((h | h) | h)
            · exact .inl (.inl h)
            · exact .inr h
            · exact .inl (.inr h)
        · have hcom : (fun rid => (a.wrote t rid).getD (a.committed rid)) = a.committed := by
            funext rid; rw [hw0 rid]; rfl
          rw [hcom, List.flatMap_append, play_append, hpre']
          have := S.plays
          rw [hord, List.flatMap_append, play_append, hpre] at this
          exact this
        · rw [hord] at he
          rcases List.append_eq_append_iff.mp he with ⟨x, h1, h2⟩ | ⟨x, h1, h2⟩
          · refine ⟨pre ++ [t] ++ x, post2, by rw [h2]; simp, ?_⟩
            rw [List.flatMap_append, play_append, hpre']
            rw [h1, List.flatMap_append, play_append, hpre] at hp
            exact hp
          · exact ⟨pre2, x ++ [t] ++ post, by rw [h1]; simp, hp⟩
    obtain ⟨ord', hnd, hmem, hpl, hat⟩ := hcases
    refine ⟨ord', hnd, fun x => ?_, fun x => ?_, fun x hx => ?_, fun x hx => ?_, ?_, fun x tx' hx => ?_⟩
    · rw [hmem, S.mem, committed_append, committed_one]
    · rw [hmem, S.done, hs]
      by_cases e : x = t
      · simp [e]
      · simp [e]
    · rw [acts_snoc_none (hact x)]; exact S.fresh x (by omega)
    · show (if x = t then fun _ => none else a.wrote x) = _
      by_cases e : x = t
      · simp [e]
      · simp only [e, if_false]
        refine S.idle x (not_running_of fun j hj => ?_)
        have : st (step d (.commit t k)).1 x = some (.running, j) := by rw [hs, if_neg e]; exact hj
        obtain ⟨tx, h, _⟩ := running_st this
        exact hx tx h
    · exact plays_snoc (fun u _ => hact u) hpl
    · have hst := st_running hx
      rw [hs] at hst
      by_cases e : x = t
      · rw [if_pos e] at hst; cases hst
      · rw [if_neg e] at hst
        obtain ⟨tx'', hx', hi⟩ := running_st hst
        obtain ⟨hl, R⟩ := S.run x tx'' hx'
        refine ⟨hi ▸ hl, runInv_commit (d := d) e R Rt hntc rfl ?_ rfl ?_⟩
        · simp [Spec.step, Spec.clear, e]
        · obtain ⟨pre, post, h1, h2⟩ := R.at'
          exact hat pre post _ h1 h2
  | abort t k tx ho hr ht hn hs =>
    subst ho
    rw [hr]
    have hact : ∀ x, actOf x (Ev.call (.abort t k) .ok : Ev V) = none := fun _ => rfl
    have hnc : ∀ u, ¬ Committed ([.call (.abort t k) .ok] : List (Ev V)) u := by
      rintro u ⟨k, h⟩; simp at h
    have htn : t ∉ ord := fun h => hdone t h tx ht
    refine ⟨ord, S.nodup, fun x => ?_, fun x => ?_, fun x hx => ?_, fun x hx => ?_, ?_, fun x tx' hx => ?_⟩
    · rw [S.mem, committed_append]
      exact ⟨.inl, fun h => h.resolve_right (hnc x)⟩
    · rw [hs]
      by_cases e : x = t
      · subst e; simp [htn]
      · simp [e, S.done]
    · rw [acts_snoc_none (hact x)]; exact S.fresh x (by omega)
    · show (if x = t then fun _ => none else a.wrote x) = _
      by_cases e : x = t
      · simp [e]
      · simp only [e, if_false]
        refine S.idle x (not_running_of fun j hj => ?_)
        have : st (step d (.abort t k)).1 x = some (.running, j) := by rw [hs, if_neg e]; exact hj
        obtain ⟨tx, h, _⟩ := running_st this
        exact hx tx h
    · exact plays_snoc (fun u _ => hact u) S.plays
    · have hst := st_running hx
      rw [hs] at hst
      by_cases e : x = t
      · rw [if_pos e] at hst; cases hst
      · rw [if_neg e] at hst
        obtain ⟨tx'', hx', hi⟩ := running_st hst
        obtain ⟨hl, R⟩ := S.run x tx'' hx'
        refine ⟨hi ▸ hl, runInv_extend _ R (fun u _ => hact u) (hact x) rfl ?_ rfl⟩
        simp [Spec.step, Spec.clear, e]
  | idle ha hc hn hs hw =>
    rw [hw]
    refine ⟨ord, S.nodup, fun x => ?_, fun x => ?_, fun x hx => ?_, fun x hx => ?_, ?_, fun x tx' hx => ?_⟩
    · rw [committed_append]
      refine ⟨fun h => .inl ((S.mem x).mp h), fun h => ?_⟩
      rcases h with h | ⟨k, h⟩
      · exact (S.mem x).mpr h
      · exact (S.done x).mpr (hc x k (List.mem_singleton.mp h).symm)
    · rw [S.done, hs]
    · rw [acts_snoc_none (ha x)]; exact S.fresh x (by omega)
    · refine S.idle x (not_running_of fun j hj => ?_)
      obtain ⟨tx, h, _⟩ := running_st ((hs x).trans hj)
      exact hx tx h
    · exact plays_snoc (fun u _ => ha u) S.plays
    · obtain ⟨tx'', hx', hi⟩ := running_st ((hs x).symm.trans (st_running hx))
      obtain ⟨hl, R⟩ := S.run x tx'' hx'
      exact ⟨hi ▸ hl, runInv_extend _ R (fun u _ => ha u) (ha x) rfl rfl rfl⟩

theorem sinv_read {H : List (Ev V)} {d : Db V} {a : Abs V} {vers} {ord : List Nat} (I : Inv d a vers) (S : SInv H d a ord) {t : Nat} {rid : Rid}
    {v : Option V} (h : Reads d t rid v) : SInv (H ++ [.read t rid v]) d a ord := by
  obtain ⟨tx, hg, hr, n0, hn⟩ := h
  have ht : Running d t tx := ⟨hg, hr⟩
  obtain ⟨hl, Rt⟩ := S.run t tx ht
  obtain ⟨n1, hn1⟩ := getTuple_spec I ht hl rid
  have hv : v = Spec.read a t rid := by
    have h1 := hn (max n0 n1) (by omega)
    rw [hn1 (max n0 n1) (by omega)] at h1
    cases h1; rfl
  have hact : ∀ x, actOf x (.read t rid v) = if x = t then some (.saw rid v) else none := by
    intro x; simp only [actOf, eq_comm]
  have hord : ∀ u ∈ ord, actOf u (.read t rid v) = none := by
    intro u hu
    rw [hact, if_neg]
    rintro rfl
    obtain ⟨i, hi⟩ := (S.done u).mp hu
    rw [st_running ht] at hi; cases hi
  refine ⟨S.nodup, fun x => ?_, S.done, fun x hx => ?_, S.idle, plays_snoc hord S.plays, fun x tx' hx => ?_⟩
  · rw [S.mem, committed_append]
    refine ⟨.inl, fun h => h.resolve_right ?_⟩
    rintro ⟨k, h⟩; simp at h
  · have : x ≠ t := by rintro rfl; exact absurd (I.ids _ _ hg) (by omega)
    rw [acts_snoc_none (by rw [hact, if_neg this])]
    exact S.fresh x hx
  · obtain ⟨hl', R⟩ := S.run x tx' hx
    refine ⟨hl', ?_⟩
    by_cases e : x = t
    · subst e
      exact runInv_act _ (.saw rid v) R hord (by rw [hact, if_pos rfl]) rfl rfl (.inr ⟨rid, by rw [hv], rfl⟩)
    · exact runInv_extend _ R hord (by rw [hact, if_neg e]) rfl rfl rfl

theorem readsKept_prefix {H K : List (Ev V)} (h : ReadsKept (H ++ K)) : ReadsKept H := by
  intro p i t q o r e
  exact h p i t q o (r ++ K) (by rw [e]; simp)

theorem sinv_happens {H : List (Ev V)} (h : Happens H) (hok : RunOk Db.new (callsOf H))
    (hlvl : ∀ i r, Ev.call (.begin i) r ∈ H → SnapshotLevel i) (hk : ReadsKept H) :
    ∃ a vers ord, Inv (dbOf H) a vers ∧ SInv H (dbOf H) a ord := by
  induction h with
  | nil =>
    refine ⟨Spec.init, fun _ => [], [], inv_new, ?_⟩
    refine ⟨List.nodup_nil, fun t => ?_, fun t => ?_, fun _ _ => rfl, fun _ _ => rfl, rfl, fun t tx ht => ?_⟩
    · simp [Committed]
    · simp [dbOf, callsOf, run, st, Db.new, AMap.get]
    · have := ht.1; simp [dbOf, callsOf, run, Db.new, AMap.get] at this
  | @call H o h ih =>
    rw [callsOf_append] at hok
    have hok' : RunOk Db.new (callsOf H ++ [o]) := hok
    rw [runOk_snoc] at hok'
    obtain ⟨a, vers, ord, I, S⟩ := ih hok'.1 (fun i r hm => hlvl i r (List.mem_append.mpr (.inl hm))) (readsKept_prefix hk)
    obtain ⟨vers', I'⟩ := inv_step I o hok'.2
    obtain ⟨ord', S'⟩ := sinv_call I S o (fun i e => hlvl i (step (dbOf H) o).2 (List.mem_append.mpr (.inr (by rw [e]; exact List.mem_singleton.mpr rfl)))) hk
    exact ⟨_, vers', ord', by rw [dbOf_call]; exact I', by rw [dbOf_call]; exact S'⟩
  | @read H t rid v h hr ih =>
    rw [callsOf_append] at hok
    have hok' : RunOk Db.new (callsOf H ++ []) := hok
    rw [List.append_nil] at hok'
    obtain ⟨a, vers, ord, I, S⟩ := ih hok' (fun i r hm => hlvl i r (List.mem_append.mpr (.inl hm))) (readsKept_prefix hk)
    exact ⟨a, vers, ord, by rw [dbOf_read]; exact I, by rw [dbOf_read]; exact sinv_read I S hr⟩

/-- C117, the part that holds. A log of transactions at repeatable read or above in which no row that an updating transaction has read is
changed by another one that commits before it (`ReadsKept`) is serializable, and the rows the serial order leaves are those a transaction that
begins now reads. Transactions that only read are not restricted, nor are those that do not commit. The calls are those described by `RunOk`,
as for C53. Missing: logs in which such a row is changed; the code does not prevent them at any level, and they are not serializable
(`C117_write_skew_fails`). -/
theorem C117_serializable_partial (H : List (Ev V)) (h : Happens H) (hok : RunOk Db.new (callsOf H))
    (hlvl : ∀ i r, Ev.call (.begin i) r ∈ H → SnapshotLevel i) (hk : ReadsKept H) (iso : Iso) (hiso : SnapshotLevel iso) :
    ∃ final, Serializable H final ∧ ∀ rid, Reads (begin (dbOf H) iso).1 (dbOf H).nextId rid (final rid) := by
  obtain ⟨a, vers, ord, I, S⟩ := sinv_happens h hok hlvl hk
  refine ⟨a.committed, ⟨ord, S.nodup, S.mem, S.plays⟩, fun rid => ?_⟩
  have I' := inv_begin I iso
  have hg : (begin (dbOf H) iso).1.txns.get (dbOf H).nextId =
      some { iso, state := .running, rts := (dbOf H).wm.nextTs, cts := 0, undo := [], writes := [] } := by
    simp only [begin, Watermark.getNextTsAndRegister, Watermark.getNextTs, get_set', if_true]
  obtain ⟨n0, hn⟩ := getTuple_spec I' ⟨hg, rfl⟩ hiso rid
  refine ⟨_, hg, rfl, n0, fun n hle => ?_⟩
  rw [hn n hle]
  simp [Spec.read, Spec.step, Spec.clear, begin]

end serial

/-! ## Checks for concrete logs -/

theorem walk_mono {d : Db V} {t rts : Nat} {v : Option V} : ∀ {n n' l}, n ≤ n' → (walk d t rts n l).answer = some v → (walk d t rts n' l).answer = some v := by
  intro n
  induction n with
  | zero =>
    intro n' l hle h
    cases l with
    | none => cases n' <;> exact h
    | some l => cases h
  | succ n ih =>
    intro n' l hle h
    obtain ⟨k, rfl⟩ : ∃ k, n' = k + 1 := ⟨n' - 1, by omega⟩
    cases l with
    | none => exact h
    | some l =>
      simp only [walk] at h ⊢
      split at h
      · exact h
      · split at h
        · exact h
        · exact h
        · exact ih (by omega) h

theorem getTuple_mono {d : Db V} {t : Nat} {tx : Txn V} {rid : Rid} {v : Option V} {n n' : Nat} (hle : n ≤ n')
    (h : (getTuple n d t tx rid).answer = some v) : (getTuple n' d t tx rid).answer = some v := by
  have hgv : ∀ m c, (getVisibleVersion n d t tx.rts rid m c).answer = some v → (getVisibleVersion n' d t tx.rts rid m c).answer = some v := by
    intro m c h
    unfold getVisibleVersion at h ⊢
    cases hv : visibilityStatus m t tx.rts with
    | visible => rw [hv] at h; exact h
    | deleted => rw [hv] at h; exact h
    | invisible => rw [hv] at h; exact walk_mono hle h
  unfold getTuple at h ⊢
  cases hr : d.rows.get rid with
  | none => rw [hr] at h; exact h
  | some mc =>
    obtain ⟨m, c⟩ := mc
    rw [hr] at h
    cases hi : tx.iso <;> simp only [hi] at h ⊢
    case readUncommitted => exact h
    case readCommitted =>
      split at h
      · rename_i hc; rw [if_pos hc]; exact h
      · rename_i hc; rw [if_neg hc]; exact hgv _ _ h
    all_goals exact hgv _ _ h

/-- The log of calls and reads, the reads with `n` steps of the version chain. -/
def record (n : Nat) : List (Ev V) → List (Op V ⊕ (Nat × Rid)) → Option (List (Ev V))
  | H, [] => some H
  | H, .inl o :: l => record n (H ++ [.call o (step (dbOf H) o).2]) l
  | H, .inr (t, rid) :: l => match (dbOf H).txns.get t with
    | none => none
    | some tx => if tx.state = .running then (match (getTuple n (dbOf H) t tx rid).answer with
        | some v => record n (H ++ [.read t rid v]) l
        | none => none)
      else none

theorem happens_record (n : Nat) : ∀ (l : List (Op V ⊕ (Nat × Rid))) {H K : List (Ev V)}, Happens H → record n H l = some K → Happens K := by
  intro l
  induction l with
  | nil => intro H K h e; cases e; exact h
  | cons x l ih =>
    intro H K h e
    rcases x with o | ⟨t, rid⟩
    · exact ih (.call o h) e
    · simp only [record] at e
      cases hg : (dbOf H).txns.get t with
      | none => rw [hg] at e; cases e
      | some tx =>
        rw [hg] at e
        simp only at e
        by_cases hr : tx.state = .running
        · rw [if_pos hr] at e
          cases ha : (getTuple n (dbOf H) t tx rid).answer with
          | none => rw [ha] at e; cases e
          | some v =>
            rw [ha] at e
            exact ih (.read t rid v h ⟨tx, hg, hr, n, fun n' hle => getTuple_mono hle ha⟩) e
        · rw [if_neg hr] at e; cases e

def committedB (H : List (Ev V)) (t : Nat) : Bool := H.any fun
  | .call (.commit u _) (.committed true) => u == t
  | _ => false

theorem committedB_iff {H : List (Ev V)} {t : Nat} : committedB H t = true ↔ Committed H t := by
  unfold committedB Committed
  rw [List.any_eq_true]
  constructor
  · rintro ⟨e, hm, h⟩
    split at h
    · rename_i u o
      simp only [beq_iff_eq] at h
      subst h
      exact ⟨o, hm⟩
    · cases h
  · rintro ⟨o, h⟩
    exact ⟨_, h, by simp⟩

/-- `ReadsKept` for the split at `i` and `j`; `us` are the transactions of the log. -/
def keptB (us : List Nat) (H : List (Ev V)) (i j : Nat) : Bool := match H[i]?, H[i + 1 + j]? with
  | some (.call (.begin _) (.begun t)), some (.call (.commit t' _) (.committed true)) =>
    t != t' || (let p := H.take i
      let q := (H.drop (i + 1)).take j
      committedB q t || !(acts t q).any (fun | .wrote .. => true | _ => false) ||
      us.all fun u => u == t || !committedB q u || committedB p u ||
        (acts t q).all fun
          | .saw rid _ => !(acts u (p ++ q)).any fun | .wrote r _ => r == rid | _ => false
          | _ => true)
  | _, _ => true

theorem readsKept_of_B (us : List Nat) (H : List (Ev V)) (hus : ∀ u, Committed H u → u ∈ us)
    (h : ∀ i, i < H.length → ∀ j, j < H.length → keptB us H i j = true) : ReadsKept H := by
  intro p i t q o r e hnc hw rid v hs u hu hcq hcp w hm
  have hlen : H.length = p.length + 1 + q.length + 1 + r.length := by rw [e]; simp; omega
  have h1 : H[p.length]? = some (.call (.begin i) (.begun t)) := by rw [e]; simp
  have h2 : H[p.length + 1 + q.length]? = some (.call (.commit t o) (.committed true)) := by
    rw [e, List.getElem?_append_right (by omega)]
    have : p.length + 1 + q.length - p.length = q.length + 1 := by omega
    rw [this]
    simp
  have h3 : H.take p.length = p := by rw [e]; simp
  have h4 : (H.drop (p.length + 1)).take q.length = q := by
    have : p ++ Ev.call (.begin i) (.begun t) :: (q ++ Ev.call (.commit t o) (.committed true) :: r) =
      (p ++ [Ev.call (.begin i) (.begun t)]) ++ (q ++ Ev.call (.commit t o) (.committed true) :: r) := by simp
    rw [e, this, List.drop_left' (by simp)]
    simp
  have hk := h p.length (by omega) q.length (by omega)
  unfold keptB at hk
  rw [h1, h2] at hk
  simp only [h3, h4, bne_self_eq_false, Bool.false_or] at hk
  have hf : committedB q t = false := by
    cases hb : committedB q t with
    | false => rfl
    | true => exact absurd (committedB_iff.mp hb) hnc
  have hany : (acts t q).any (fun | .wrote .. => true | _ => false) = true := by
    obtain ⟨rid, w, hw⟩ := hw
    exact List.any_eq_true.mpr ⟨_, hw, rfl⟩
  rw [hf, hany] at hk
  simp only [Bool.not_true, Bool.or_self, Bool.false_or] at hk
  have hum : u ∈ us := hus u (by rw [e]; exact committed_append.mpr (.inr (by
    obtain ⟨k, hk⟩ := hcq
    exact ⟨k, List.mem_cons_of_mem _ (List.mem_append.mpr (.inl hk))⟩)))
  have hk := List.all_eq_true.mp hk u hum
  have g1 : (u == t) = false := by simpa using hu
  have g2 : committedB q u = true := committedB_iff.mpr hcq
  have g3 : committedB p u = false := by
    cases hb : committedB p u with
    | false => rfl
    | true => exact absurd (committedB_iff.mp hb) hcp
  rw [g1, g2, g3] at hk
  simp only [Bool.not_true, Bool.or_self, Bool.false_or] at hk
  have hk := List.all_eq_true.mp hk _ hs
  simp only [Bool.not_eq_true'] at hk
  have : (acts u (p ++ q)).any (fun | .wrote r _ => r == rid | _ => false) = true := List.any_eq_true.mpr ⟨_, hm, by simp⟩
  rw [this] at hk
  cases hk

/-- Two updaters of different rows that overlap, and a reader that began before both committed and commits after them. -/
def overlap : List (Op Nat ⊕ (Nat × Rid)) :=
  [.inl (.begin .serializable), .inl (.insert 0 10 (0, 0)), .inl (.insert 0 20 (0, 1)), .inl (.commit 0 [(0, 0), (0, 1)]),
   .inl (.begin .serializable), .inl (.begin .serializable), .inl (.begin .repeatableRead), .inr (3, (0, 0)),
   .inr (1, (0, 0)), .inl (.update 1 1 11 (0, 0)), .inr (2, (0, 1)), .inl (.update 2 2 21 (0, 1)),
   .inl (.commit 2 [(0, 1)]), .inl (.commit 1 [(0, 0)]), .inr (3, (0, 1)), .inl (.commit 3 [])]

example : ∃ H, record 5 [] overlap = some H ∧ Happens H ∧ RunOk Db.new (callsOf H) ∧ (∀ i r, Ev.call (.begin i) r ∈ H → SnapshotLevel i) ∧
    ReadsKept H ∧ acts 3 H = [.saw (0, 0) (some 10), .saw (0, 1) (some 20)] ∧ Committed H 1 ∧ Committed H 2 ∧ Committed H 3 := by
  have hr : record 5 [] overlap = some [.call (.begin .serializable) (.begun 0), .call (.insert 0 10 (0, 0)) .ok, .call (.insert 0 20 (0, 1)) .ok,
    .call (.commit 0 [(0, 0), (0, 1)]) (.committed true), .call (.begin .serializable) (.begun 1), .call (.begin .serializable) (.begun 2),
    .call (.begin .repeatableRead) (.begun 3), .read 3 (0, 0) (some 10), .read 1 (0, 0) (some 10), .call (.update 1 1 11 (0, 0)) .ok,
    .read 2 (0, 1) (some 20), .call (.update 2 2 21 (0, 1)) .ok, .call (.commit 2 [(0, 1)]) (.committed true),
    .call (.commit 1 [(0, 0)]) (.committed true), .read 3 (0, 1) (some 20), .call (.commit 3 []) (.committed true)] := by decide
  refine ⟨_, hr, happens_record 5 _ .nil hr, runOk_of_B _ (by decide), ?_, readsKept_of_B [0, 1, 2, 3] _ ?_ (by decide), by decide,
    committedB_iff.mp rfl, committedB_iff.mp rfl, committedB_iff.mp rfl⟩
  · intro i r hm
    simp only [List.mem_cons, Ev.call.injEq, Op.begin.injEq, List.not_mem_nil, or_false, reduceCtorEq, false_and, false_or] at hm
    rcases hm with h | h | h | h <;> rw [h.1] <;> simp [SnapshotLevel]
  · rintro u ⟨o, hm⟩
    simp only [List.mem_cons, Ev.call.injEq, Op.commit.injEq, List.not_mem_nil, or_false, reduceCtorEq, false_and, false_or] at hm
    rcases hm with h | h | h | h <;> rw [h.1.1] <;> simp

/-- Two transactions read both rows; each changes another one. -/
def skew (iso : Iso) : List (Ev Nat) :=
  [.call (.begin .serializable) (.begun 0), .call (.insert 0 1 (0, 0)) .ok, .call (.insert 0 1 (0, 1)) .ok,
   .call (.commit 0 [(0, 0), (0, 1)]) (.committed true), .call (.begin iso) (.begun 1), .call (.begin iso) (.begun 2),
   .read 1 (0, 0) (some 1), .read 1 (0, 1) (some 1), .read 2 (0, 0) (some 1), .read 2 (0, 1) (some 1),
   .call (.update 1 1 0 (0, 0)) .ok, .call (.update 2 2 0 (0, 1)) .ok,
   .call (.commit 1 [(0, 0)]) (.committed true), .call (.commit 2 [(0, 1)]) (.committed true)]

/-- C117 is false: at every level, serializable included, two transactions that each read both rows and change a different one both commit,
although in any serial order the second would have seen the change of the first. -/
theorem C117_write_skew_fails (iso : Iso) : Happens (skew iso) ∧ ¬ ∃ final, Serializable (skew iso) final := by
  constructor
  · refine happens_record 5 [.inl (.begin .serializable), .inl (.insert 0 1 (0, 0)), .inl (.insert 0 1 (0, 1)), .inl (.commit 0 [(0, 0), (0, 1)]),
      .inl (.begin iso), .inl (.begin iso), .inr (1, (0, 0)), .inr (1, (0, 1)), .inr (2, (0, 0)), .inr (2, (0, 1)),
      .inl (.update 1 1 0 (0, 0)), .inl (.update 2 2 0 (0, 1)), .inl (.commit 1 [(0, 0)]), .inl (.commit 2 [(0, 1)])] .nil ?_
    cases iso <;> decide
  · rintro ⟨final, order, hnd, hmem, hpl⟩
    have hm : ∀ t, t ∈ order ↔ t = 0 ∨ t = 1 ∨ t = 2 := by
      intro t
      rw [hmem]
      constructor
      · rintro ⟨o, h⟩
        simp only [skew, List.mem_cons, Ev.call.injEq, Op.commit.injEq, List.not_mem_nil, or_false, reduceCtorEq, false_and, false_or] at h
        rcases h with h | h | h
        · exact .inl h.1.1
        · exact .inr (.inl h.1.1)
        · exact .inr (.inr h.1.1)
      · rintro (rfl | rfl | rfl) <;> exact committedB_iff.mp rfl
    have hperm : order.Perm [0, 1, 2] := (List.perm_ext_iff_of_nodup hnd (by decide)).mpr fun t => by rw [hm]; simp
    have h0 : acts 0 (skew iso) = [.wrote (0, 0) (some 1), .wrote (0, 1) (some 1)] := rfl
    have h1 : acts 1 (skew iso) = [.saw (0, 0) (some 1), .saw (0, 1) (some 1), .wrote (0, 0) (some 0)] := rfl
    have h2 : acts 2 (skew iso) = [.saw (0, 0) (some 1), .saw (0, 1) (some 1), .wrote (0, 1) (some 0)] := rfl
    have hlen : order.length = 3 := hperm.length_eq
    match order, hlen with
    | [x, y, z], _ =>
      have hx := (hm x).mp (by simp)
      have hy := (hm y).mp (by simp)
      have hz := (hm z).mp (by simp)
      simp only [List.flatMap_cons, List.flatMap_nil, List.append_nil] at hpl
      rcases hx with rfl | rfl | rfl <;> rcases hy with rfl | rfl | rfl <;> rcases hz with rfl | rfl | rfl <;>
        first
        | (simp at hnd; done)
        | (rw [h0, h1, h2] at hpl; simp [play] at hpl)

end Verif.Mvcc
