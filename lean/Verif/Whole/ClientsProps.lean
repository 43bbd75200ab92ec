import Verif.Whole.ClientsSpec
import Verif.Whole.Props

/-!
# C137: clients that keep apart do not disturb each other
-/

namespace Verif.Whole

open Verif.Wire Verif.Bytes Verif.Sql Verif.Exec Verif.Dml Verif.Plan

/-! ## What a SELECT depends on -/

theorem rows_congr {w w' : World} {f : From} (h : ∀ T ∈ f.tables, w.rows T.oid = w'.rows T.oid) : f.rows w = f.rows w' := by
  induction f with
  | table T => exact h T (List.mem_singleton_self _)
  | join op l r c ihl ihr =>
    unfold From.rows
    rw [ihl fun T hT => h T (List.mem_append_left _ hT), ihr fun T hT => h T (List.mem_append_right _ hT)]

theorem fine_congr {w w' : World} {f : From} (h : ∀ T ∈ f.tables, w.rows T.oid = w'.rows T.oid) : f.Fine w = f.Fine w' := by
  induction f with
  | table T =>
    unfold From.Fine
    rw [h T (List.mem_singleton_self _)]
  | join op l r c ihl ihr =>
    have hl := fun T hT => h T (List.mem_append_left _ hT)
    have hr := fun T hT => h T (List.mem_append_right _ hT)
    unfold From.Fine
    rw [ihl hl, ihr hr, rows_congr hl, rows_congr hr]

/-- What a SELECT answers depends only on the tables of its FROM clause. -/
theorem says_congr {w w' : World} {f : From} {q : Select} {r : Reply} (h : ∀ T ∈ f.tables, w.rows T.oid = w'.rows T.oid) (S : Says w f q r) : Says w' f q r := by
  have hr := rows_congr h
  have hf := fine_congr h
  constructor
  · intro keep sel g
    have := S.output keep sel ⟨hf ▸ g.fine, hr ▸ g.plain, g.filter, g.items, g.keys, hr ▸ g.have_⟩
    rw [hr] at this
    exact this
  · intro keep sel g
    have := S.input keep sel ⟨hf ▸ g.fine, hr ▸ g.plain, g.filter, g.items, g.outside, g.keys, hr ▸ g.have_⟩
    rw [hr] at this
    exact this
  · intro gs fs typ num keep g
    obtain ⟨g1, g2, g3, g4, g5, g6, g7, g8⟩ := g
    rw [← hr] at g4 g5 g6 g8
    have := S.groups gs fs typ num keep ⟨hf ▸ g1, g2, g3, g4, g5, g6, g7, g8⟩
    rw [hr] at this
    exact this

/-! ## The state of the host -/

/-- A table of the host. -/
def TabOk (v : Host) (t : Nat) : Tab → Prop
  | .free rows => Holds (v.heap t) rows ∧ ∀ c a, v.active c = some a → a.2 t = []
  | .held c base rows again => (∃ a, v.active c = some a ∧ Open a.1 (a.2 t) (v.heap t) base rows again) ∧ ∀ c' a, c' ≠ c → v.active c' = some a → a.2 t = []

structure HostOk (v : Host) (σ : Db) : Prop where
  busy : ∀ c, σ.busy c = (v.active c).isSome
  txn : v.txn ≠ 0
  num : ∀ c a, v.active c = some a → a.1 ≠ 0
  tab : ∀ t, TabOk v t (σ.tab t)

/-- A table as the client finds it when it may use it. -/
def Tab.st (busy : Bool) : Tab → St
  | .free rows => if busy then .busy rows (rows.map (·, false)) False else .idle rows
  | .held _ base rows again => .busy base rows again

def Tab.holder : Tab → Option Nat
  | .free _ => none
  | .held c _ _ _ => some c

def Db.marks (σ : Db) : Marks := ⟨σ.busy, fun t => (σ.tab t).holder⟩

theorem holds_open {h : Dml.Heap} {rows : List Row} (n : Nat) (H : Holds h rows) : Open n [] h rows (rows.map (·, false)) False := by
  obtain ⟨l, T, rfl, hcm⟩ := H
  refine ⟨l, T, ?_, .begin hcm⟩
  rw [live, List.map_filterMap, List.map_filterMap]
  refine filterMap_same fun x hx => ?_
  cases hxd : x.2.info.deleted with
  | true => rfl
  | false => simp [hcm x hx hxd]

theorem host_good {v : Host} {σ : Db} (H : HostOk v σ) {c t : Nat} (h : (σ.tab t).holder = none ∨ (σ.tab t).holder = some c) : Good ((v.view c).conn t) ((σ.tab t).st (σ.busy c)) := by
  have hb := H.busy c
  have ht := H.tab t
  cases hs : σ.tab t with
  | free rows =>
    rw [hs] at ht
    unfold Tab.st Server.conn Host.view
    cases ha : v.active c with
    | none =>
      rw [ha] at hb
      simp only [hb, Option.isSome_none, Bool.false_eq_true, if_false, Option.map_none]
      exact .idle H.txn ht.1
    | some a =>
      rw [ha] at hb
      simp only [hb, Option.isSome_some, if_true, Option.map_some, ht.2 c a ha]
      exact .busy H.txn (H.num c a ha) (holds_open _ ht.1)
  | held c' base rows again =>
    rw [hs] at ht h
    have : c' = c := by simpa [Tab.holder] using h
    subst this
    obtain ⟨⟨a, ha, ho⟩, _⟩ := ht
    unfold Tab.st Server.conn Host.view
    simp only [ha, Option.map_some]
    exact .busy H.txn (H.num _ a ha) ho

/-- The rows that are in the table. -/
def Tab.present : Tab → List Row
  | .free rows => rows
  | .held _ _ rows _ => rows.map (·.1)

theorem host_scan {d : Disk} (hr : Readable d) {v : Host} {σ : Db} (H : HostOk v σ) (t : Nat) : Yields (seqScan d (v.heap t)).m (seqScan d (v.heap t)).s (σ.tab t).present .done := by
  have ht := H.tab t
  cases hs : σ.tab t with
  | free rows =>
    rw [hs] at ht
    exact good_scan hr (c := ⟨v.heap t, 0, 1, none⟩) (st := .idle rows) (.idle (by decide) ht.1)
  | held c base rows again =>
    rw [hs] at ht
    obtain ⟨⟨a, ha, ho⟩, _⟩ := ht
    exact good_scan hr (c := ⟨v.heap t, 0, 1, some (a.1, a.2 t)⟩) (st := .busy base rows again) (.busy (by decide) (H.num _ a ha) ho)

theorem order_nil {order : List Rid} (h : Order [] order) : order = [] := by
  cases order with
  | nil => rfl
  | cons r l =>
    have := (h.2 r).1 List.mem_cons_self
    simp at this

/-! ## Statements -/

theorem host_query {d : Disk} {ext : Value → Nat → Option Value} {sn : Seen} {cat : Catalog} {ch : Choices} (hr : Readable d) (hs : Sane d) (hf : Fresh d) (hx : TypedExt ext)
    {v : Host} {σ : Db} (H : HostOk v σ) {c t : Nat} {s : Stmt} {a : Answer} {b : Bool} {k : Conn} (hd : Distinct (cat.cols t))
    (S : Conn.Step d ext sn (cat.cols t) ((v.view c).conn t) ⟨.query s, a, b⟩ k) (hb : b = true) (hok : (σ.tab t).holder = none ∨ (σ.tab t).holder = some c)
    (hc : s.Const) (hcl : ∀ row ∈ (σ.tab t).seen c, Clear s.filter row) :
    ∃ σ', Turn d ext cat ch σ c (.query t s) (answered a) σ' ∧ HostOk (v.put c ((v.view c).put t k)) σ' := by
  have G := host_good H hok
  have ht := H.tab t
  have hbusy := H.busy c
  have hact := query_active S
  have hcov : Covered (.query s) ((σ.tab t).st (σ.busy c)) := by
    refine ⟨hc, fun row hrow => hcl row ?_⟩
    cases hs : σ.tab t with
    | free rows =>
      rw [hs] at hrow
      unfold Tab.st at hrow
      cases hbc : σ.busy c with
      | true =>
        rw [hbc] at hrow
        simp only [if_true, St.rows, List.map_map] at hrow
        simpa [Tab.seen] using hrow
      | false =>
        rw [hbc] at hrow
        exact hrow
    | held c' base rows again =>
      rw [hs] at hrow hok
      have : c' = c := by simpa [Tab.holder] using hok
      subst this
      simpa [Tab.seen, Tab.st, St.rows] using hrow
  obtain ⟨st', N, G'⟩ := conn_step hr hs hf hx hd S hb hcov G
  cases ha : v.active c with
  | none =>
    rw [ha] at hbusy
    have hk : k.active = none := by
      have : (k.active.map (·.1)) = none := by rw [hact]; simp [Server.conn, Host.view, ha]
      simpa using this
    cases htab : σ.tab t with
    | held c' base rows again =>
      rw [htab] at ht hok
      have : c' = c := by simpa [Tab.holder] using hok
      subst this
      obtain ⟨⟨e, he, _⟩, _⟩ := ht
      rw [ha] at he
      cases he
    | free rows =>
      rw [htab] at N ht
      simp only [Tab.st, hbusy, Option.isSome_none, Bool.false_eq_true, if_false] at N
      have : ∃ r rows', a = r.answer ∧ Effect d ext (cat.cols t) s rows r rows' ∧ st' = .idle rows' := by
        cases N with
        | alone E h => exact ⟨_, _, h, E, rfl⟩
      obtain ⟨r, rows', rfl, E, rfl⟩ := this
      refine ⟨_, .alone hbusy htab E, ?_⟩
      have hsame : ∀ u, (v.put c ((v.view c).put t k)).active u = v.active u := by
        intro u
        unfold Host.put Server.put
        by_cases hu : u = c
        · subst hu
          simp [hk, ha]
        · simp [hu]
      obtain ⟨kh, kn, kt, ka⟩ := k
      dsimp only at hk
      subst hk
      cases G' with
      | idle hkt hh =>
      refine ⟨fun u => by rw [hsame]; exact H.busy u, hkt, fun u e he => H.num u e (hsame u ▸ he), fun u => ?_⟩
      have hu' := H.tab u
      unfold Db.set
      by_cases hu : u = t
      · subst hu
        dsimp only
        rw [if_pos rfl]
        refine ⟨by simpa [Host.put, Server.put] using hh, fun c' e he => ht.2 c' e (hsame c' ▸ he)⟩
      · dsimp only
        rw [if_neg hu]
        have hh : (v.put c ((v.view c).put t ⟨kh, kn, kt, none⟩)).heap u = v.heap u := by simp [Host.put, Server.put, hu, Host.view]
        cases hut : σ.tab u with
        | free rows =>
          rw [hut] at hu'
          exact ⟨hh ▸ hu'.1, fun c' e he => hu'.2 c' e (hsame c' ▸ he)⟩
        | held c1 base rows again =>
          rw [hut] at hu'
          obtain ⟨⟨e, he, ho⟩, h2⟩ := hu'
          exact ⟨⟨e, hsame c1 ▸ he, hh ▸ ho⟩, fun c' e hc' he => h2 c' e hc' (hsame c' ▸ he)⟩
  | some e =>
    obtain ⟨n, trs⟩ := e
    rw [ha] at hbusy
    obtain ⟨kh, kn, kt, ka⟩ := k
    obtain ⟨tr', rfl⟩ : ∃ tr', ka = some (n, tr') := by
      have : ka.map (·.1) = some n := by rw [show ka.map (·.1) = _ from hact]; simp [Server.conn, Host.view, ha]
      obtain ⟨x, rfl, rfl⟩ := Option.map_eq_some_iff.1 this
      exact ⟨x.2, rfl⟩
    have hmine : (v.put c ((v.view c).put t ⟨kh, kn, kt, some (n, tr')⟩)).active c = some (n, fun u => if u = t then tr' else trs u) := by
      simp [Host.put, Server.put, Host.view, ha]
    have hother : ∀ u, u ≠ c → (v.put c ((v.view c).put t ⟨kh, kn, kt, some (n, tr')⟩)).active u = v.active u := fun u hu => by simp [Host.put, hu]
    have hheap : ∀ u, (v.put c ((v.view c).put t ⟨kh, kn, kt, some (n, tr')⟩)).heap u = if u = t then kh else v.heap u := fun u => rfl
    have htx : (v.put c ((v.view c).put t ⟨kh, kn, kt, some (n, tr')⟩)).txn = kt := rfl
    generalize v.put c ((v.view c).put t ⟨kh, kn, kt, some (n, tr')⟩) = v' at hmine hother hheap htx
    -- the table in the new state
    have fin : ∀ {base : List Row} {rows' : List (Row × Bool)} {again : Prop}, st' = .busy base rows' again →
        HostOk v' (σ.set t (.held c base rows' again)) := by
      rintro base rows' again rfl
      cases G' with
      | busy hkt hn ho =>
      refine ⟨fun u => ?_, htx ▸ hkt, fun u e he => ?_, fun u => ?_⟩
      · by_cases hu : u = c
        · subst hu
          rw [hmine]
          exact hbusy
        · rw [hother u hu]
          exact H.busy u
      · by_cases hu : u = c
        · subst hu
          rw [hmine] at he
          cases he
          exact hn
        · rw [hother u hu] at he
          exact H.num u e he
      · unfold Db.set
        dsimp only
        by_cases hu : u = t
        · subst hu
          rw [if_pos rfl]
          refine ⟨⟨_, hmine, by simpa [hheap] using ho⟩, fun c' e hc' he => ?_⟩
          rw [hother c' hc'] at he
          cases htab : σ.tab u with
          | free rows =>
            rw [htab] at ht
            exact ht.2 c' e he
          | held c1 b1 r1 a1 =>
            rw [htab] at ht hok
            have : c1 = c := by simpa [Tab.holder] using hok
            subst this
            exact ht.2 c' e hc' he
        · rw [if_neg hu]
          have hu' := H.tab u
          have hh : v'.heap u = v.heap u := by rw [hheap, if_neg hu]
          have hact' : ∀ c' e, v'.active c' = some e → ∃ e', v.active c' = some e' ∧ e'.1 = e.1 ∧ e'.2 u = e.2 u := by
            intro c' e he
            by_cases hc' : c' = c
            · subst hc'
              rw [hmine] at he
              cases he
              exact ⟨_, ha, rfl, by simp [hu]⟩
            · rw [hother c' hc'] at he
              exact ⟨e, he, rfl, rfl⟩
          cases hut : σ.tab u with
          | free rows =>
            rw [hut] at hu'
            refine ⟨hh ▸ hu'.1, fun c' e he => ?_⟩
            obtain ⟨e', h1, _, h3⟩ := hact' c' e he
            rw [← h3]
            exact hu'.2 c' e' h1
          | held c1 b1 r1 a1 =>
            rw [hut] at hu'
            obtain ⟨⟨e, he, ho1⟩, h2⟩ := hu'
            refine ⟨?_, fun c' e hc' he => ?_⟩
            · by_cases hc1 : c1 = c
              · subst hc1
                rw [ha] at he
                cases he
                exact ⟨_, hmine, by simpa [hh, hu] using ho1⟩
              · exact ⟨e, by rw [hother c1 hc1]; exact he, by rw [hh]; exact ho1⟩
            · obtain ⟨e', g1, _, g3⟩ := hact' c' e he
              rw [← g3]
              exact h2 c' e' hc' g1
    cases htab : σ.tab t with
    | free rows =>
      rw [htab] at N
      simp only [Tab.st, hbusy, Option.isSome_some, if_true] at N
      have : ∃ rows', Within d ext (cat.cols t) s (rows.map (·, false)) a rows' ∧ st' = .busy rows rows' False := by
        cases N with
        | within W =>
          refine ⟨_, W, ?_⟩
          have : (False ∨ DeletesOwn s (rows.map (·, false))) = False := by
            refine propext ⟨?_, False.elim⟩
            rintro (h | ⟨p, _, x, hx, h1, _⟩)
            · exact h
            · obtain ⟨y, _, rfl⟩ := List.mem_map.1 hx
              cases h1
          rw [this]
      obtain ⟨rows', W, e⟩ := this
      exact ⟨_, .first hbusy htab W, fin e⟩
    | held c1 base rows again =>
      rw [htab] at N hok
      have : c1 = c := by simpa [Tab.holder] using hok
      subst this
      simp only [Tab.st] at N
      have : ∃ rows', Within d ext (cat.cols t) s rows a rows' ∧ st' = .busy base rows' (again ∨ DeletesOwn s rows) := by
        cases N with
        | within W => exact ⟨_, W, rfl⟩
      obtain ⟨rows', W, e⟩ := this
      exact ⟨_, .more hbusy htab W, fin e⟩

/-! ## The end of a transaction -/

theorem host_close {v v' : Host} {σ : Db} (H : HostOk v σ) {c n : Nat} {trs : Nat → Trace} (ha : v.active c = some (n, trs)) (ht : v'.txn = v.txn)
    (hact : ∀ u, v'.active u = if u = c then none else v.active u) (hheap : ∀ t, trs t = [] → v'.heap t = v.heap t) {g : Tab → Tab} {res : List Row → List (Row × Bool) → List Row}
    (g1 : ∀ rows, g (.free rows) = .free rows) (g2 : ∀ c' base rows again, g (.held c' base rows again) = if c' = c then .free (res base rows) else .held c' base rows again)
    (hres : ∀ t base rows again, σ.tab t = .held c base rows again → Holds (v'.heap t) (res base rows)) :
    HostOk v' ((⟨fun t => g (σ.tab t), σ.busy⟩ : Db).mark c false) := by
  have hsub : ∀ u e, v'.active u = some e → u ≠ c ∧ v.active u = some e := by
    intro u e he
    rw [hact] at he
    split at he
    · cases he
    · exact ⟨by assumption, he⟩
  refine ⟨fun u => ?_, by rw [ht]; exact H.txn, fun u e he => H.num u e (hsub u e he).2, fun t => ?_⟩
  · unfold Db.mark
    dsimp only
    rw [hact, H.busy]
    split <;> rfl
  · unfold Db.mark
    dsimp only
    have h := H.tab t
    cases hs : σ.tab t with
    | free rows =>
      rw [hs] at h
      rw [g1]
      exact ⟨by rw [hheap t (h.2 c _ ha)]; exact h.1, fun u e he => h.2 u e (hsub u e he).2⟩
    | held c' base rows again =>
      rw [hs] at h
      rw [g2]
      by_cases hc : c' = c
      · subst hc
        rw [if_pos rfl]
        exact ⟨hres t _ _ _ hs, fun u e he => h.2 u e (hsub u e he).1 (hsub u e he).2⟩
      · rw [if_neg hc]
        obtain ⟨⟨e, he, ho⟩, h2⟩ := h
        refine ⟨⟨e, by rw [hact, if_neg hc]; exact he, ?_⟩, fun u e hu he => h2 u e hu (hsub u e he).2⟩
        rw [hheap t (h2 c _ (Ne.symm hc) ha)]
        exact ho

theorem host_same {v v' : Host} {σ : Db} (H : HostOk v σ) (h1 : v'.heap = v.heap) (h2 : v'.active = v.active) (h3 : v'.txn ≠ 0) : HostOk v' σ := by
  obtain ⟨vh, vn, vt, va⟩ := v
  obtain ⟨vh', vn', vt', va'⟩ := v'
  dsimp only at h1 h2 h3
  subst h1 h2
  exact ⟨H.busy, h3, H.num, fun t => by
    have := H.tab t
    cases hs : σ.tab t with
    | free rows => rw [hs] at this; exact this
    | held c base rows again => rw [hs] at this; exact this⟩

theorem put_view_active (v : Host) (c : Nat) : (fun u => if u = c then v.active c else v.active u) = v.active := by
  funext u
  split
  · next h => rw [h]
  · rfl

/-- A ROLLBACK, as a request or because the client left. -/
theorem host_rollback {d : Disk} {ext : Value → Nat → Option Value} {seen : Server → Nat → Seen} {cat : Catalog} {ch : Choices} (hr : Readable d) {v : Host} {σ : Db} (H : HostOk v σ)
    {c : Nat} {r : Reply} {b : Nat → Bool} {s : Server} (S : Server.Step d ext seen cat ch (v.view c) ⟨.rollback, r, b⟩ s) (hb : ∀ t, b t = true)
    (hreg : ∀ t base rows again, σ.tab t = .held c base rows again → ¬again) :
    (σ.busy c = true ∧ r = .ok ∧ HostOk (v.put c s) ((⟨fun t => (σ.tab t).undone c, σ.busy⟩ : Db).mark c false)) ∨ (σ.busy c = false ∧ r = .error ∧ v.put c s = v) := by
  have hbusy := H.busy c
  cases S with
  | @rollback n trs order ha ho =>
    have ha : v.active c = some (n, trs) := ha
    refine .inl ⟨by rw [hbusy, ha]; rfl, rfl, ?_⟩
    refine host_close (g := Tab.undone c) (res := fun base _ => base) H ha (by exact rfl) (fun u => by exact rfl) (fun t h => ?_) (fun _ => rfl) (fun _ _ _ _ => rfl) fun t base rows again hs => ?_
    · have := ho t
      rw [h] at this
      simp [Host.put, order_nil this, Host.view]
    · have h := H.tab t
      rw [hs] at h
      obtain ⟨⟨e, he, l, T, rfl, I⟩, _⟩ := h
      rw [ha] at he
      cases he
      exact I.rollback hr T (hreg t _ _ _ hs) (ho t) (hb t)
  | noRollback ha =>
    have ha : v.active c = none := ha
    refine .inr ⟨by rw [hbusy, ha]; rfl, rfl, ?_⟩
    show (⟨v.heap, v.next, v.txn, fun u => if u = c then v.active c else v.active u⟩ : Host) = v
    rw [put_view_active]

/-! ## Events -/

theorem host_step {d : Disk} {ext : Value → Nat → Option Value} {seen : Server → Nat → Seen} {cat : Catalog} {ch : Choices} (hr : Readable d) (hs : Sane d) (hf : Fresh d)
    (hx : TypedExt ext) (hd : ∀ t, Distinct (cat.cols t)) (hdr : ∀ l, (ch.drain l).Perm l) {v v' : Host} {c : Nat} {x : Event} {σ : Db} (S : Host.Step d ext seen cat ch v c x v')
    (hcomp : ∀ t, x.complete t = true) (hreg : Regular c x σ)
    (hok : ∀ y, x = .ask y → σ.marks.Ok c y.req) (H : HostOk v σ) : ∃ σ', Happens d ext cat ch σ c x σ' ∧ HostOk v' σ' := by
  have hbusy := H.busy c
  cases S with
  | leave S =>
    rcases host_rollback hr H S hcomp hreg with ⟨_, _, h⟩ | ⟨h1, _, h2⟩
    · exact ⟨_, .leave, h⟩
    · refine ⟨_, .leave, ?_⟩
      have e : ((⟨fun t => (σ.tab t).undone c, σ.busy⟩ : Db).mark c false) = σ := by
        have hb : (fun u => if u = c then false else σ.busy u) = σ.busy := by
          funext u
          split
          · next h => rw [h, h1]
          · rfl
        have ht : (fun t => (σ.tab t).undone c) = σ.tab := by
          funext t
          have h := H.tab t
          cases hs : σ.tab t with
          | free rows => rfl
          | held c' base rows again =>
            rw [hs] at h
            unfold Tab.undone
            dsimp only
            rw [if_neg]
            rintro rfl
            obtain ⟨⟨e, he, _⟩, _⟩ := h
            rw [hbusy, he] at h1
            cases h1
        unfold Db.mark
        dsimp only
        rw [hb, ht]
      rw [e, h2]
      exact H
  | @ask x s S =>
    have hok := hok x rfl
    cases S with
    | query S =>
      obtain ⟨σ', h1, h2⟩ := host_query (ch := ch) hr hs hf hx H (hd _) S (hcomp 0) hok hreg.1 hreg.2
      exact ⟨σ', .ask h1, h2⟩
    | @select f q r hl S =>
      refine ⟨σ, .ask (.select (says_congr (fun T hT => ?_) (says hdr (host_scan hr H) hl S))), host_same H rfl (put_view_active v c) ?_⟩
      · have := hok T hT
        show (σ.tab T.oid).present = (σ.tab T.oid).seen c
        cases htab : σ.tab T.oid with
        | free rows => rfl
        | held c' base rows again =>
          have : c' = c := by simpa [Db.marks, htab, Tab.holder] using this
          simp [Tab.present, Tab.seen, this]
      · show (if (v.view c).active = none then (v.view c).txn + 1 else (v.view c).txn) ≠ 0
        split
        · exact Nat.succ_ne_zero _
        · exact H.txn
    | begin ha =>
      have ha : v.active c = none := ha
      refine ⟨_, .ask (.begin (by rw [hbusy, ha]; rfl)), fun u => ?_, Nat.succ_ne_zero _, fun u e he => ?_, fun t => ?_⟩
      · show (if u = c then true else σ.busy u) = Option.isSome (if u = c then some _ else v.active u)
        rw [H.busy]
        split <;> rfl
      · have he : (if u = c then some (v.txn, fun _ => []) else v.active u) = some e := he
        split at he
        · cases he
          exact H.txn
        · exact H.num u e he
      · have h := H.tab t
        show TabOk _ t (σ.tab t)
        cases htab : σ.tab t with
        | free rows =>
          rw [htab] at h
          refine ⟨h.1, fun u e he => ?_⟩
          have he : (if u = c then some (v.txn, fun _ => []) else v.active u) = some e := he
          split at he
          · cases he
            rfl
          · exact h.2 u e he
        | held c' base rows again =>
          rw [htab] at h
          obtain ⟨⟨e, he, ho⟩, h2⟩ := h
          refine ⟨⟨e, ?_, ho⟩, fun u e hu he => ?_⟩
          · show (if c' = c then some (v.txn, fun _ => []) else v.active c') = some e
            rw [if_neg]
            · exact he
            · rintro rfl
              rw [ha] at he
              cases he
          · have he : (if u = c then some (v.txn, fun _ => []) else v.active u) = some e := he
            split at he
            · cases he
              rfl
            · exact h2 u e hu he
    | begun ha =>
      have ha : v.active c = some _ := ha
      exact ⟨_, .ask (.begun (by rw [hbusy, ha]; rfl)), host_same H rfl (put_view_active v c) H.txn⟩
    | @commit n trs order ha ho =>
      have ha : v.active c = some (n, trs) := ha
      refine ⟨_, .ask (.commit (by rw [hbusy, ha]; rfl)), ?_⟩
      refine host_close (g := Tab.kept c) (res := fun _ rows => rows.map (·.1)) H ha (by exact rfl) (fun u => by exact rfl) (fun t h => ?_) (fun _ => rfl) (fun _ _ _ _ => rfl) fun t base rows again hs => ?_
      · have := ho t
        rw [h] at this
        simp [Host.put, order_nil this, Host.view]
      · have h := H.tab t
        rw [hs] at h
        obtain ⟨⟨e, he, l, T, rfl, I⟩, _⟩ := h
        rw [ha] at he
        cases he
        exact I.commit hr T (ho t)
    | rollback ha ho =>
      rcases host_rollback (ch := ch) (cat := cat) (ext := ext) (seen := seen) hr H (.rollback ha ho) hcomp hreg with ⟨h1, h2, h⟩ | ⟨_, h, _⟩
      · exact ⟨_, .ask (.rollback h1), h⟩
      · cases h
    | noCommit ha =>
      have ha : v.active c = none := ha
      exact ⟨_, .ask (.noCommit (by rw [hbusy, ha]; rfl)), host_same H rfl (put_view_active v c) H.txn⟩
    | noRollback ha =>
      have ha : v.active c = none := ha
      exact ⟨_, .ask (.noRollback (by rw [hbusy, ha]; rfl)), host_same H rfl (put_view_active v c) H.txn⟩

/-! ## The marks follow from the requests -/

theorem host_busy {v : Host} {σ : Db} (H : HostOk v σ) {t c : Nat} (h : (σ.tab t).holder = some c) : σ.busy c = true := by
  have ht := H.tab t
  cases hs : σ.tab t with
  | free rows => rw [hs] at h; cases h
  | held c' base rows again =>
    rw [hs] at ht h
    obtain ⟨⟨e, he, _⟩, _⟩ := ht
    cases h
    rw [H.busy, he]
    rfl

theorem closed_marks {σ : Db} {c : Nat} {g : Tab → Tab} {g' : List Row → List (Row × Bool) → List Row} (g1 : ∀ rows, g (.free rows) = .free rows)
    (g2 : ∀ c' base rows again, g (.held c' base rows again) = if c' = c then .free (g' base rows) else .held c' base rows again) :
    ((⟨fun t => g (σ.tab t), σ.busy⟩ : Db).mark c false).marks = σ.marks.free c := by
  unfold Db.marks Db.mark Marks.free
  congr 1
  funext t
  have key : ∀ x : Tab, (g x).holder = if x.holder = some c then none else x.holder := by
    intro x
    rcases x with rows | ⟨c', base, rows, again⟩
    · rw [g1]; simp [Tab.holder]
    · rw [g2]
      by_cases h : c' = c <;> simp [h, Tab.holder]
  exact key (σ.tab t)

theorem free_idle {v : Host} {σ : Db} (H : HostOk v σ) {c : Nat} (h : σ.busy c = false) : σ.marks.free c = σ.marks := by
  unfold Marks.free Db.marks
  congr 1
  · funext u
    dsimp only
    split
    · next e => rw [e, h]
    · rfl
  · funext t
    dsimp only
    split
    · next e => rw [host_busy H e] at h; cases h
    · rfl

theorem set_marks (σ : Db) (t : Nat) (x : Tab) : (σ.set t x).marks = ⟨σ.busy, fun u => if u = t then x.holder else (σ.tab u).holder⟩ := by
  unfold Db.marks Db.set
  congr 1
  funext u
  dsimp only
  split <;> rfl

theorem turn_marks {d : Disk} {ext : Value → Nat → Option Value} {cat : Catalog} {ch : Choices} {v : Host} {σ σ' : Db} (H : HostOk v σ) {c : Nat} {r : Req} {a : Reply}
    (T : Turn d ext cat ch σ c r a σ') : σ'.marks = σ.marks.after c r := by
  cases T with
  | @alone t s rows r rows' hb ht _ =>
    have : σ.marks.busy c = false := hb
    rw [set_marks]
    simp only [Marks.after, this, Bool.false_eq_true, if_false]
    unfold Db.marks
    congr 1
    funext u
    split
    · next e => rw [e, ht]; rfl
    · rfl
  | first hb ht _ =>
    have : σ.marks.busy c = true := hb
    rw [set_marks]
    simp only [Marks.after, this, if_true]
    rfl
  | more hb ht _ =>
    have : σ.marks.busy c = true := hb
    rw [set_marks]
    simp only [Marks.after, this, if_true]
    rfl
  | select _ => rfl
  | begin _ => rfl
  | begun h =>
    show σ.marks = ⟨fun u => if u = c then true else σ.busy u, _⟩
    unfold Db.marks
    congr 1
    funext u
    split
    · next e => rw [e, h]
    · rfl
  | commit _ => exact closed_marks (g := Tab.kept c) (g' := fun _ rows => rows.map (·.1)) (fun _ => rfl) fun _ _ _ _ => rfl
  | rollback _ => exact closed_marks (g := Tab.undone c) (g' := fun base _ => base) (fun _ => rfl) fun _ _ _ _ => rfl
  | noCommit h => exact (free_idle H h).symm
  | noRollback h => exact (free_idle H h).symm

theorem host_run {d : Disk} {ext : Value → Nat → Option Value} {seen : Server → Nat → Seen} {cat : Catalog} {ch : Choices} (hr : Readable d) (hs : Sane d) (hf : Fresh d)
    (hx : TypedExt ext) (hd : ∀ t, Distinct (cat.cols t)) (hdr : ∀ l, (ch.drain l).Perm l) {v v' : Host} {xs : List (Nat × Event)} {σ : Db} (R : Host.Run d ext seen cat ch v xs v')
    (hcomp : ∀ x ∈ xs, ∀ t, x.2.complete t = true) (hreg : ∀ pre c x post, xs = pre ++ (c, x) :: post → ∀ σ', Happened d ext cat ch σ pre σ' → Regular c x σ')
    (hap : Apart σ.marks xs) (H : HostOk v σ) : ∃ σ', Happened d ext cat ch σ xs σ' ∧ HostOk v' σ' := by
  induction R generalizing σ with
  | nil => exact ⟨σ, .nil, H⟩
  | @cons v c x v1 xs v2 S _ ih =>
    have hok : ∀ y, x = .ask y → σ.marks.Ok c y.req := by
      rintro y rfl
      exact hap.1
    obtain ⟨σ1, g1, g2⟩ := host_step hr hs hf hx hd hdr S (hcomp _ List.mem_cons_self) (hreg [] c x xs rfl σ .nil) hok H
    have hap' : Apart σ1.marks xs := by
      cases g1 with
      | ask T =>
        rw [turn_marks H T]
        exact hap.2
      | leave =>
        rw [closed_marks (g := Tab.undone c) (g' := fun base _ => base) (fun _ => rfl) fun _ _ _ _ => rfl]
        exact hap
    obtain ⟨σ2, k1, k2⟩ := ih (fun y hy => hcomp y (List.mem_cons_of_mem _ hy)) (fun pre c' y post e σ' h => hreg ((c, x) :: pre) c' y post (by rw [e]; rfl) σ' (.cons g1 h)) hap' g2
    exact ⟨σ2, .cons g1 k1, k2⟩

/-- Any number of clients send requests, begin and end transactions, come and go in any order, on a database of any number of new tables. If none of them uses a table on which the
open transaction of another one has had a statement, then every reply is the one the specification gives: a statement or SELECT of a client sees the changes of its own transaction, and
of others exactly what is committed; a COMMIT makes the changes of its client visible to all, whatever others are doing; a ROLLBACK, or the end of the connection, takes back the changes
of that client and no others. In the end a scan of each table gives its list. Assumed: as in `C135_history_partial`. Missing: requests to a table in use by another client, for which
this is false (`C137_dirty_read_fails`), statements that run at the same time, and what is missing in C135. -/
theorem C137_clients_partial {d : Disk} {ext : Value → Nat → Option Value} {seen : Server → Nat → Seen} {cat : Catalog} {ch : Choices} {first : Nat → Option Nat} {next : Nat → Int} {txn : Nat}
    {xs : List (Nat × Event)} {v : Host} (hr : Readable d) (hs : Sane d) (hf : Fresh d) (hx : TypedExt ext) (hd : ∀ t, Distinct (cat.cols t)) (hdr : ∀ l, (ch.drain l).Perm l)
    (hne : txn ≠ 0) (R : Host.Run d ext seen cat ch (.new first next txn) xs v) (hcomp : ∀ x ∈ xs, ∀ t, x.2.complete t = true) (hap : Apart .none xs) (hreg : AllRegular d ext cat ch xs) :
    ∃ σ, Happened d ext cat ch .empty xs σ ∧ (∀ c, σ.busy c = (v.active c).isSome) ∧
      ∀ t c, (∀ c' base rows again, σ.tab t = .held c' base rows again → c' = c) → Yields (seqScan d (v.heap t)).m (seqScan d (v.heap t)).s ((σ.tab t).seen c) .done := by
  have H : HostOk (.new first next txn) .empty := ⟨fun _ => rfl, hne, nofun, fun _ => ⟨holds_new _, nofun⟩⟩
  obtain ⟨σ, h1, H'⟩ := host_run hr hs hf hx hd hdr R hcomp hreg hap H
  refine ⟨σ, h1, H'.busy, fun t c h => ?_⟩
  have := host_scan hr H' t
  cases htab : σ.tab t with
  | free rows => rw [htab] at this; exact this
  | held c' base rows again =>
    rw [htab] at this
    have e := h c' base rows again htab
    simp only [Tab.seen, if_pos e]
    exact this

end Verif.Whole
