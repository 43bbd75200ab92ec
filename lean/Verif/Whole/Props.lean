import Verif.Whole.Spec
import Verif.Dml.TransProps
import Verif.Plan.FromProps

/-!
# C135: a client sees what its statements did
-/

namespace Verif.Whole

open Verif.Wire Verif.Bytes Verif.Sql Verif.Exec Verif.Dml Verif.Plan

/-! ## Scans -/

theorem rowsOnly_yields {σ β γ : Type} {m : Machine σ (β × γ × Slot)} {s : σ} {ys : List (β × γ × Slot)} {e : End} (h : Yields m s ys e) :
    Yields (rowsOnly m) s (ys.map (·.2.2.row)) e := by
  induction h with
  | emit h _ ih => exact .emit (by simp [rowsOnly, h]) ih
  | cont h _ ih => exact .cont (by simp [rowsOnly, h]) ih
  | stop h => exact .stop (by simp [rowsOnly, h])

theorem good_scan {d : Disk} (hr : Readable d) {c : Conn} {st : St} (G : Good c st) : Yields (seqScan d c.heap).m (seqScan d c.heap).s st.rows .done := by
  obtain ⟨l, T, e⟩ : ∃ l, Dml.Table c.heap l ∧ (live l).map (·.2) = st.rows := by
    cases G with
    | idle _ hh =>
      obtain ⟨l, T, e, _⟩ := hh
      exact ⟨l, T, e⟩
    | busy _ _ hop =>
      obtain ⟨l, T, rfl, _⟩ := hop
      exact ⟨l, T, (tagged_live l).symm⟩
  obtain ⟨ys, y1, y2, _⟩ := C77_scan_partial T hr
  have := rowsOnly_yields y1
  rw [show ys.map (·.2.2.row) = st.rows by rw [← e, ← y2, List.map_map]; rfl] at this
  exact this

theorem compileOn_rows (ch : Choices) (r r' : Nat → List Row) (leaf : Nat → Exe) (p : Plan) : compileOn (ch.world r) leaf p = compileOn (ch.world r') leaf p := by
  induction p with
  | join jt p nl nr l r ihl ihr => unfold compileOn; rw [ihl, ihr]
  | scan _ => rfl
  | index _ _ => rfl
  | values _ => rfl
  | filter _ _ ih | project _ _ ih | rename _ _ ih | agg _ _ _ ih | sort _ _ ih | limit _ _ ih | offset _ _ ih | distinct _ ih | topN _ _ _ ih =>
    unfold compileOn
    rw [ih]
    try rfl

/-! ## A SELECT -/

theorem says {d : Disk} {cat : Catalog} {ch : Choices} {heaps : Nat → Dml.Heap} {rows : Nat → List Row} {f : From} {q : Select} {r : Reply}
    (hdr : ∀ l, (ch.drain l).Perm l) (hs : ∀ t, Yields (seqScan d (heaps t)).m (seqScan d (heaps t)).s (rows t) .done) (hl : LookedUp cat f) (S : Selects d cat ch heaps f q r) :
    Says (ch.world rows) f q r := by
  have hfa : Faithful (ch.world rows) (fun _ => none) := nofun
  have hk : ∀ T ∈ f.tables, cat.known T.oid = true := fun T hT => (hl T hT).1
  have run : ∀ {p p' out}, planSelect f [] q = some p → optimize (fun _ => none) ch.isConst cat.known p = some p' → Runs (ch.world rows) p' out .done → r = .rows out := by
    intro p p' out h1 h2 h3
    have h4 := yields_den (ch.world rows) (leaf := fun t => seqScan d (heaps t)) hs p'
    rw [runs_iff.1 h3, compileOn_rows ch rows fun _ => []] at h4
    cases S with
    | rows g1 g2 g3 =>
      rw [h1] at g1; cases g1
      rw [h2] at g2; cases g2
      rw [(C40_deterministic g3 h4).1]
    | failed g1 g2 g3 =>
      rw [h1] at g1; cases g1
      rw [h2] at g2; cases g2
      cases (C40_deterministic g3 h4).2
    | unplanned g1 => rw [h1] at g1; cases g1
    | refused g1 g2 =>
      rw [h1] at g1; cases g1
      rw [h2] at g2; cases g2
  constructor
  · intro keep sel h
    obtain ⟨p, p', out, h1, h2, h3, h4⟩ := C109_select_partial (isConst := ch.isConst) hfa f h.fine hk h.plain h.filter h.items h.keys h.have_
    exact ⟨out, run h1 h2 h3, h4⟩
  · intro keep sel h
    obtain ⟨p, p', out, h1, h2, h3, h4⟩ := C109_order_by_input_partial (isConst := ch.isConst) hfa f h.fine hk h.plain h.filter h.items h.outside h.keys h.have_
    exact ⟨out, run h1 h2 h3, h4⟩
  · intro gs fs typ num keep h
    obtain ⟨p, p', out, h1, h2, h3, h4⟩ := C109_group_by_partial (isConst := ch.isConst) hfa f h.fine hk hdr h.grouped h.items h.filter h.args h.sums h.keys h.have_
    exact ⟨out, run h1 h2 h3, h4⟩

/-! ## Requests -/

theorem conn_put (v : Server) (t : Nat) (c : Conn) (h : c.active.isSome = v.active.isSome) : (v.put t c).conn t = c := by
  obtain ⟨ch, cn, ct, ca⟩ := c
  unfold Server.conn Server.put
  cases ca with
  | none => simp
  | some a =>
    cases hv : v.active with
    | none => rw [hv] at h; cases h
    | some b => simp

theorem good_txn {h : Dml.Heap} {n : Int} {k k' : Nat} {a : Option (Nat × Trace)} {st : St} (hk : k' ≠ 0) (G : Good ⟨h, n, k, a⟩ st) : Good ⟨h, n, k', a⟩ st := by
  cases G with
  | idle _ hh => exact .idle hk hh
  | busy _ ht' hop => exact .busy hk ht' hop

theorem good_ne {c : Conn} {st : St} (G : Good c st) : c.txn ≠ 0 := by
  cases G <;> assumption

/-- Statements neither begin nor end the transaction of the client. -/
theorem query_active {d : Disk} {ext : Value → Nat → Option Value} {seen : Seen} {cols : List Column} {c c' : Conn} {s : Stmt} {a : Answer} {b : Bool}
    (S : Conn.Step d ext seen cols c ⟨.query s, a, b⟩ c') : c'.active.map (·.1) = c.active.map (·.1) := by
  generalize hx : (⟨.query s, a, b⟩ : Dml.Call) = x at S
  cases S with
  | alone h _ => simp [h]
  | within h _ => simp [h]
  | failed h _ => simp [h]
  | begin _ => cases hx
  | begun _ => cases hx
  | commit _ _ => cases hx
  | rollback _ _ => cases hx
  | noCommit _ => cases hx
  | noRollback _ => cases hx

theorem server_step {d : Disk} {ext : Value → Nat → Option Value} {seen : Server → Nat → Seen} {cat : Catalog} {ch : Choices} (hr : Readable d) (hs : Sane d) (hf : Fresh d)
    (hx : TypedExt ext) (hd : ∀ t, Distinct (cat.cols t)) (hdr : ∀ l, (ch.drain l).Perm l) {v v' : Server} {x : Call} {σ : Tables} (S : Server.Step d ext seen cat ch v x v')
    (hcomp : ∀ t, x.complete t = true) (hcov : CoveredDb x.req σ) (G : ∀ t, Good (v.conn t) (σ t)) :
    ∃ σ', NextDb d ext cat ch σ x.req x.reply σ' ∧ ∀ t, Good (v'.conn t) (σ' t) := by
  have step : ∀ {t : Nat} {y : Dml.Call} {c : Conn}, Conn.Step d ext (seen v t) (cat.cols t) (v.conn t) y c → y.complete = true → Covered y.req (σ t) →
      ∃ st', Next d ext (cat.cols t) (σ t) y.req y.answer st' ∧ Good c st' := fun S hc hv => conn_step hr hs hf hx (hd _) S hc hv (G _)
  have all : ∀ {r : Dml.Req} {a : Answer} {b : Nat → Bool}, (∀ t, Conn.Step d ext (seen v t) (cat.cols t) (v.conn t) ⟨r, a, b t⟩ (v'.conn t)) → (∀ t, b t = true) →
      (∀ t, Covered r (σ t)) → ∃ σ' : Tables, (∀ t, Next d ext (cat.cols t) (σ t) r a (σ' t)) ∧ ∀ t, Good (v'.conn t) (σ' t) := by
    intro r a b S hb hc
    have h : ∀ t, ∃ st', Next d ext (cat.cols t) (σ t) r a st' ∧ Good (v'.conn t) st' := fun t => step (S t) (hb t) (hc t)
    exact ⟨fun t => (h t).choose, fun t => (h t).choose_spec.1, fun t => (h t).choose_spec.2⟩
  cases S with
  | @query t s a b c S =>
    obtain ⟨st', h1, h2⟩ := step S (hcomp t) hcov
    refine ⟨_, .query h1, fun u => ?_⟩
    have ha := query_active S
    have hsome : c.active.isSome = v.active.isSome := by
      have := congrArg Option.isSome ha
      simpa [Server.conn] using this
    by_cases hu : u = t
    · subst hu
      rw [if_pos rfl, conn_put v _ c hsome]
      exact h2
    · rw [if_neg hu]
      have := good_txn (good_ne h2) (G u)
      unfold Server.conn at this ha ⊢
      unfold Server.put
      simp only [hu, if_false]
      cases hv : v.active with
      | none =>
        rw [hv] at this
        cases hc : c.active with
        | none => exact this
        | some _ => rw [hc, hv] at hsome; cases hsome
      | some b =>
        rw [hv] at this ha
        cases hc : c.active with
        | none => rw [hc, hv] at hsome; cases hsome
        | some e =>
          rw [hc] at ha
          simp only [Option.map_some, Option.some.injEq] at ha this ⊢
          rw [ha, if_neg hu]
          exact this
  | @select f q r hl S =>
    refine ⟨σ, .select (says hdr (fun t => good_scan hr (G t)) hl S), fun t => good_txn ?_ (G t)⟩
    have := good_ne (G t)
    simp only [Server.conn] at this
    split
    · exact Nat.succ_ne_zero _
    · exact this
  | begin ha =>
    obtain ⟨σ', h1, h2⟩ := all (r := .begin) (a := .ok) (b := fun _ => true)
      (fun t => by have := Conn.Step.begin (d := d) (ext := ext) (seen := seen v t) (cols := cat.cols t) (c := v.conn t) (by simp [Server.conn, ha]); exact this) hcomp fun _ => trivial
    exact ⟨σ', .begin h1, h2⟩
  | @begun a ha =>
    obtain ⟨σ', h1, h2⟩ := all (r := .begin) (a := .error) (b := fun _ => true)
      (fun t => .begun (a := (a.1, a.2 t)) (by simp [Server.conn, ha])) hcomp fun _ => trivial
    exact ⟨σ', .begin h1, h2⟩
  | @commit n trs order ha ho =>
    obtain ⟨σ', h1, h2⟩ := all (r := .commit) (a := .ok) (b := fun _ => true)
      (fun t => .commit (c := v.conn t) (t := n) (tr := trs t) (order := order t) (by simp [Server.conn, ha]) (ho t)) hcomp fun _ => trivial
    exact ⟨σ', .commit h1, h2⟩
  | @rollback n trs order ha ho =>
    obtain ⟨σ', h1, h2⟩ := all (r := .rollback) (a := .ok) (b := fun t => ((order t).foldl (abortRow d n (trs t)) (v.heap t, true)).2)
      (fun t => .rollback (c := v.conn t) (t := n) (tr := trs t) (order := order t) (by simp [Server.conn, ha]) (ho t)) hcomp hcov
    exact ⟨σ', .rollback h1, h2⟩
  | noCommit ha =>
    obtain ⟨σ', h1, h2⟩ := all (r := .commit) (a := .error) (b := fun _ => true) (fun t => .noCommit (by simp [Server.conn, ha])) hcomp fun _ => trivial
    exact ⟨σ', .commit h1, h2⟩
  | noRollback ha =>
    obtain ⟨σ', h1, h2⟩ := all (r := .rollback) (a := .error) (b := fun _ => true) (fun t => .noRollback (by simp [Server.conn, ha])) hcomp hcov
    exact ⟨σ', .rollback h1, h2⟩

theorem server_run {d : Disk} {ext : Value → Nat → Option Value} {seen : Server → Nat → Seen} {cat : Catalog} {ch : Choices} (hr : Readable d) (hs : Sane d) (hf : Fresh d)
    (hx : TypedExt ext) (hd : ∀ t, Distinct (cat.cols t)) (hdr : ∀ l, (ch.drain l).Perm l) {v v' : Server} {xs : List Call} {σ : Tables} (R : Server.Run d ext seen cat ch v xs v')
    (hcomp : ∀ x ∈ xs, ∀ t, x.complete t = true) (hcov : ∀ pre x post, xs = pre ++ x :: post → ∀ σ', NextsDb d ext cat ch σ pre σ' → CoveredDb x.req σ')
    (G : ∀ t, Good (v.conn t) (σ t)) : ∃ σ', NextsDb d ext cat ch σ xs σ' ∧ ∀ t, Good (v'.conn t) (σ' t) := by
  induction R generalizing σ with
  | nil => exact ⟨σ, .nil, G⟩
  | @cons v x v1 xs v2 S _ ih =>
    obtain ⟨σ1, g1, g2⟩ := server_step hr hs hf hx hd hdr S (hcomp x List.mem_cons_self) (hcov [] x xs rfl σ .nil) G
    obtain ⟨σ2, k1, k2⟩ := ih (fun y hy => hcomp y (List.mem_cons_of_mem _ hy)) (fun pre y post e σ' h => hcov (x :: pre) y post (by rw [e]; rfl) σ' (.cons g1 h)) g2
    exact ⟨σ2, .cons g1 k1, k2⟩

/-- The requests of one client on a database of any number of new tables act as on lists of rows, and every SELECT among them, whatever tables it joins, replies with what SQL says about
those lists as they are at that moment: with all the changes of the requests before, also of those of a transaction that is still open, and with nothing of what was rolled back or
failed outside a transaction. In the end a scan of each table gives its list. Assumed: as in `C125_transactions_partial`; of a SELECT the reply is claimed when it is of one of the forms
`ByOutput`, `ByInput` and `ByGroups`, other SELECTs may occur. Missing: as in C109, C123 and C125, so several clients at the same time, and indexes. -/
theorem C135_history_partial {d : Disk} {ext : Value → Nat → Option Value} {seen : Server → Nat → Seen} {cat : Catalog} {ch : Choices} {first : Nat → Option Nat} {next : Nat → Int} {txn : Nat}
    {xs : List Call} {v : Server} (hr : Readable d) (hs : Sane d) (hf : Fresh d) (hx : TypedExt ext) (hd : ∀ t, Distinct (cat.cols t)) (hdr : ∀ l, (ch.drain l).Perm l)
    (hne : txn ≠ 0) (R : Server.Run d ext seen cat ch (.new first next txn) xs v) (hcomp : ∀ x ∈ xs, ∀ t, x.complete t = true) (hcov : AllCoveredDb d ext cat ch xs) :
    ∃ σ, NextsDb d ext cat ch (fun _ => .idle []) xs σ ∧ ∀ t, Yields (seqScan d (v.heap t)).m (seqScan d (v.heap t)).s (σ.rows t) .done := by
  obtain ⟨σ, h1, G⟩ := server_run hr hs hf hx hd hdr R hcomp hcov fun _ => .idle hne (holds_new _)
  exact ⟨σ, h1, fun t => good_scan hr (G t)⟩

end Verif.Whole
