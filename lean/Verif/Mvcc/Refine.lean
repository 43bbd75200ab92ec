import Verif.Watermark.Props
import Verif.Mvcc.Spec

/-!
# The version store refines the snapshot specification: invariant and its preservation
-/

namespace Verif.Mvcc

open Verif.Locks (Iso TState)
open Verif.Watermark (WM InvFresh)
open Verif.Mvcc.Spec (Abs)

variable {V : Type}

/-! ## Guards on histories -/

/-- A call is in the class of histories the refinement covers: the heap gives fresh row ids to inserts, a write only
touches a row whose current version its transaction can see, the write set is enumerated without repetition, and an
aborting transaction has overwritten only committed versions (it wrote each row at most once). -/
def OpOk (d : Db V) : Op V → Prop
  | .begin _ => True
  | .insert _ _ rid => d.rows.get rid = none
  | .update t _ _ rid | .delete t rid =>
    ∀ tx m v, d.txns.get t = some tx → d.rows.get rid = some (m, v) → InSnapshot m t tx.rts
  | .commit t order => ∀ tx, d.txns.get t = some tx → order.Perm tx.writes
  | .abort t order => ∀ tx, d.txns.get t = some tx → order.Perm tx.writes ∧ order.Nodup ∧
      ∀ rid ∈ order, ∀ l u, d.links.get rid = some l → getLog d l = some u → u.ts ≠ none

/-- All calls of a history are. -/
def RunOk (d : Db V) : List (Op V) → Prop
  | [] => True
  | o :: os => OpOk d o ∧ RunOk (step d o).1 os

/-! ## Invariant -/

def Running (d : Db V) (x : Nat) (tx : Txn V) : Prop := d.txns.get x = some tx ∧ tx.state = .running

/-- Read timestamps that some present or future reader has. -/
def Relevant (d : Db V) (r : Nat) : Prop := d.wm.nextTs ≤ r ∨ ∃ x tx, Running d x tx ∧ tx.rts = r

def FinishedBy (d : Db V) (x c : Nat) : Prop :=
  ∃ tx, d.txns.get x = some tx ∧ ((tx.state = .committed ∧ c ≤ tx.cts) ∨ (tx.state = .aborted ∧ c ≤ tx.rts))

def Finished (d : Db V) (x : Nat) : Prop := ∃ tx, d.txns.get x = some tx ∧ tx.state ≠ .running

/-- The value of the newest committed version at or before `r`. -/
def newest : List (Nat × Option V) → Nat → Option V
  | [], _ => none
  | (c, v) :: l, r => if c ≤ r then v else newest l r

def scan : List (Undo V) → Nat → Option V
  | [], _ => none
  | u :: us, r =>
    match u.ts with
    | some c => if c ≤ r then some u.val else scan us r
    | none => scan us r

def firstC : List (Undo V) → Option (Nat × Option V)
  | [] => none
  | u :: us => match u.ts with
    | some c => some (c, some u.val)
    | none => firstC us

/-- The timestamp of the last committed version passed. -/
def seen' (u : Undo V) (s : Option Nat) : Option Nat :=
  match u.ts with
  | some c => some c
  | none => s

def LinkOk (d : Db V) (o s : Option Nat) (x : Nat) (u : Undo V) : Prop :=
  (s = none ∧ o = some x ∧ ∃ tx, Running d x tx ∧ ∀ c, u.ts = some c → c ≤ tx.rts) ∨
  (∃ c, s = some c ∧ FinishedBy d x c)

def CreatorOk (d : Db V) (o : Option Nat) (x : Nat) : Prop := o = some x ∨ Finished d x

inductive Chain (d : Db V) (rid : Rid) (o : Option Nat) : Option Nat → Option (Nat × Nat) → List (Undo V) → Prop where
  | nil (s) : Chain d rid o s none []
  | cut {s : Option Nat} {l : Nat × Nat} (c : Nat) (hs : s = some c) (hc : ∀ r, Relevant d r → c ≤ r) :
      Chain d rid o s (some l) []
  | cons {s : Option Nat} {l : Nat × Nat} {u : Undo V} {us : List (Undo V)} (hl : getLog d l = some u)
      (ho : u.orig = some rid) (hk : LinkOk d o s l.1 u)
      (hc : CreatorOk d o u.prev.txn) (hn : Chain d rid o (seen' u s) (nextLink u) us) :
      Chain d rid o s (some l) (u :: us)

def Cov (d : Db V) (s : Option Nat) (us : List (Undo V)) (l : List (Nat × Option V)) : Prop :=
  ∀ r, Relevant d r → (∀ c, s = some c → r < c) → scan us r = newest l r

/-- The contents of a version: nothing if it is a deletion. -/
def content (m : Meta) (v : V) : Option V := if m.deleted then none else some v

inductive RowOk (d : Db V) (a : Abs V) (vers : List (Nat × Option V)) (rid : Rid) : Prop where
  | absent (h : d.rows.get rid = none) (hl : d.links.get rid = none) (hv : vers = []) (hw : ∀ x, a.wrote x rid = none)
  | dead (m : Meta) (v : V) (h : d.rows.get rid = some (m, v)) (hc : m.cts = none) (hd : m.deleted = true)
      (hf : Finished d m.creator) (hl : d.links.get rid = none) (hv : vers = []) (hw : ∀ x, a.wrote x rid = none)
  | pending (m : Meta) (v : V) (tx : Txn V) (us : List (Undo V)) (h : d.rows.get rid = some (m, v)) (hc : m.cts = none)
      (hr : Running d m.creator tx) (hin : rid ∈ tx.writes) (hw : a.wrote m.creator rid = some (content m v))
      (hno : ∀ x, x ≠ m.creator → a.wrote x rid = none)
      (hl : d.links.get rid = m.undo.map fun i => (m.creator, i))
      (hch : Chain d rid (some m.creator) none (d.links.get rid) us)
      (hf : firstC us = vers.head?) (hcov : Cov d none us vers)
  | committed (m : Meta) (v : V) (c : Nat) (rest : List (Nat × Option V)) (us us2 : List (Undo V))
      (h : d.rows.get rid = some (m, v)) (hc : m.cts = some c) (hf : Finished d m.creator)
      (hv : vers = (c, content m v) :: rest) (hw : ∀ x, a.wrote x rid = none)
      (hch : Chain d rid none (some c) (d.links.get rid) us) (hcov : Cov d (some c) us rest)
      (hch2 : Chain d rid none (some c) (m.undo.map fun i => (m.creator, i)) us2) (hcov2 : Cov d (some c) us2 rest)

structure Inv (d : Db V) (a : Abs V) (vers : Rid → List (Nat × Option V)) : Prop where
  wm : InvFresh d.wm
  ids : ∀ x tx, d.txns.get x = some tx → x < d.nextId
  states : ∀ x tx, d.txns.get x = some tx → tx.state = .running ∨ tx.state = .committed ∨ tx.state = .aborted
  act : ∀ x tx, Running d x tx → tx.rts ∈ d.wm.active
  lt : ∀ x tx, d.txns.get x = some tx → tx.rts < d.wm.nextTs ∧ tx.cts < d.wm.nextTs
  inj : ∀ x y tx ty, d.txns.get x = some tx → d.txns.get y = some ty → tx.rts = ty.rts → x = y
  inMap : ∀ x tx, Running d x tx → x ∈ d.map
  snap : ∀ x tx, Running d x tx → ∀ rid, a.snap x rid = newest (vers rid) tx.rts
  com : ∀ rid, a.committed rid = (vers rid).head?.bind (·.2)
  versLt : ∀ rid, ∀ e ∈ vers rid, e.1 < d.wm.nextTs
  wr : ∀ x tx, Running d x tx → ∀ rid ∈ tx.writes, ∃ m v, d.rows.get rid = some (m, v) ∧ m.creator = x ∧ m.cts = none
  row : ∀ rid, RowOk d a (vers rid) rid

/-! ## Frame lemmas -/

structure Ext (d d' : Db V) (ok : Nat → Prop) : Prop where
  log : ∀ l u, getLog d l = some u → getLog d' l = some u
  fin : ∀ x tx, d.txns.get x = some tx → tx.state ≠ .running → d'.txns.get x = some tx
  rel : ∀ r, Relevant d' r → Relevant d r
  run : ∀ x tx, Running d x tx → ok x → ∃ tx', Running d' x tx' ∧ tx'.rts = tx.rts ∧ ∀ rid ∈ tx.writes, rid ∈ tx'.writes

theorem Ext.finBy {d d' : Db V} {ok} (e : Ext d d' ok) {x c} (h : FinishedBy d x c) : FinishedBy d' x c := by
  obtain ⟨tx, h1, h2⟩ := h
  refine ⟨tx, e.fin x tx h1 ?_, h2⟩
  rcases h2 with h2 | h2 <;> rw [h2.1] <;> simp

theorem Ext.finished {d d' : Db V} {ok} (e : Ext d d' ok) {x} (h : Finished d x) : Finished d' x := by
  obtain ⟨tx, h1, h2⟩ := h
  exact ⟨tx, e.fin x tx h1 h2, h2⟩


theorem chain_ext {d d' : Db V} {ok} (e : Ext d d' ok) {rid o s l us} (h : Chain d rid o s l us)
    (ho : ∀ x, o = some x → ok x) : Chain d' rid o s l us := by
  induction h with
  | nil s => exact .nil s
  | cut c hs hc => exact .cut c hs fun r hr => hc r (e.rel r hr)
  | cons hl horig hk hc hn ih =>
    refine .cons (e.log _ _ hl) horig ?_ ?_ ih
    · rcases hk with ⟨h1, h2, tx, h3, h4⟩ | ⟨c, h1, h2⟩
      · obtain ⟨tx', h5, h6, -⟩ := e.run _ tx h3 (ho _ h2)
        exact Or.inl ⟨h1, h2, tx', h5, by rw [h6]; exact h4⟩
      · exact Or.inr ⟨c, h1, e.finBy h2⟩
    · rcases hc with hc | hc
      · exact Or.inl hc
      · exact Or.inr (e.finished hc)

theorem cov_rel {d d' : Db V} (e : ∀ r, Relevant d' r → Relevant d r) {s us l} (h : Cov d s us l) : Cov d' s us l :=
  fun r hr hs => h r (e r hr) hs

/-- A row nothing happens to. -/
theorem row_ext {d d' : Db V} {ok} (e : Ext d d' ok) {a a' : Abs V} {vers rid} (h : RowOk d a vers rid)
    (hrow : d'.rows.get rid = d.rows.get rid) (hlink : d'.links.get rid = d.links.get rid)
    (hw : ∀ x, a'.wrote x rid = a.wrote x rid)
    (hok : ∀ m v tx, d.rows.get rid = some (m, v) → m.cts = none → Running d m.creator tx → ok m.creator) :
    RowOk d' a' vers rid := by
  cases h with
  | absent h hl hv hw' => exact .absent (hrow.trans h) (hlink.trans hl) hv (fun x => (hw x).trans (hw' x))
  | dead m v h hc hd hf hl hv hw' =>
    exact .dead m v (hrow.trans h) hc hd (e.finished hf) (hlink.trans hl) hv (fun x => (hw x).trans (hw' x))
  | pending m v tx us h hc hr hin hw' hno hl hch hf hcov =>
    have hok' := hok m v tx h hc hr
    obtain ⟨tx', h5, -, h7⟩ := e.run _ tx hr hok'
    refine .pending m v tx' us (hrow.trans h) hc h5 (h7 _ hin) ((hw _).trans hw') (fun x hx => (hw x).trans (hno x hx))
      (hlink.trans hl) ?_ hf (cov_rel e.rel hcov)
    rw [hlink]
    exact chain_ext e hch (by intro x hx; cases hx; exact hok')
  | committed m v c rest us us2 h hc hf hv hw' hch hcov hch2 hcov2 =>
    refine .committed m v c rest us us2 (hrow.trans h) hc (e.finished hf) hv (fun x => (hw x).trans (hw' x)) ?_
      (cov_rel e.rel hcov) (chain_ext e hch2 (by simp)) (cov_rel e.rel hcov2)
    rw [hlink]; exact chain_ext e hch (by simp)

theorem get_set' {K W : Type} [DecidableEq K] (m : AMap K W) (k k' : K) (v : W) :
    (m.set k v).get k' = if k' = k then some v else m.get k' := by
  rw [AMap.get_set]
  by_cases h : k = k'
  · simp [h]
  · rw [if_neg h, if_neg (Ne.symm h)]

theorem get_erase' {K W : Type} [DecidableEq K] (m : AMap K W) (k k' : K) :
    (m.erase k).get k' = if k' = k then none else m.get k' := by
  rw [AMap.get_erase]
  by_cases h : k = k'
  · simp [h]
  · rw [if_neg h, if_neg (Ne.symm h)]

/-! ## Begin -/

theorem getLog_some {d : Db V} {l u} : getLog d l = some u ↔
    l.1 ∈ d.map ∧ ∃ tx, d.txns.get l.1 = some tx ∧ tx.undo[l.2]? = some u := by
  unfold getLog
  split
  · next h => simp [h, Option.bind_eq_some_iff]
  · next h => simp [h]

theorem mem_ins {α : Type} [DecidableEq α] {x y : α} {l : List α} : y ∈ ins x l ↔ y = x ∨ y ∈ l := by
  unfold ins; split
  · next h => constructor
              · exact Or.inr
              · rintro (e | e)
                · exact e ▸ h
                · exact e
  · simp

theorem newest_top {l : List (Nat × Option V)} {n : Nat} (h : ∀ e ∈ l, e.1 < n) : newest l n = l.head?.bind (·.2) := by
  cases l with
  | nil => rfl
  | cons e l =>
    have := h e (by simp)
    simp only [newest, List.head?_cons, Option.bind_some]
    rw [if_pos (by omega)]

theorem inv_begin {d : Db V} {a : Abs V} {vers} (I : Inv d a vers) (iso : Iso) :
    Inv (begin d iso).1 (Spec.step a (.begin iso, (begin d iso).2)) vers := by
  have hget : ∀ x, (begin d iso).1.txns.get x = if x = d.nextId then
      some { iso, state := .running, rts := d.wm.nextTs, cts := 0, undo := [], writes := [] } else d.txns.get x := by
    intro x
    simp only [begin, Watermark.getNextTsAndRegister, Watermark.getNextTs, get_set']
  have hnew : d.txns.get d.nextId = none := by
    cases h : d.txns.get d.nextId with
    | none => rfl
    | some tx => have := I.ids _ tx h; omega
  have hnt : (begin d iso).1.wm.nextTs = d.wm.nextTs + 1 := by
    simp [begin, Watermark.getNextTsAndRegister, Watermark.getNextTs, Watermark.addTxn]
  have hact : ∀ t, t ∈ (begin d iso).1.wm.active ↔ t = d.wm.nextTs ∨ t ∈ d.wm.active := by
    intro t
    simp [begin, Watermark.getNextTsAndRegister, Watermark.getNextTs, Watermark.addTxn, Watermark.mem_setInsert]
  have hmap : (begin d iso).1.map = ins d.nextId d.map := rfl
  have hrun : ∀ x tx, Running (begin d iso).1 x tx →
      (x = d.nextId ∧ tx = { iso, state := .running, rts := d.wm.nextTs, cts := 0, undo := [], writes := [] }) ∨
      (x ≠ d.nextId ∧ Running d x tx) := by
    intro x tx ⟨h1, h2⟩
    rw [hget] at h1
    split at h1
    · next e => left; exact ⟨e, (Option.some.inj h1).symm⟩
    · next e => right; exact ⟨e, h1, h2⟩
  have hne : ∀ x tx, d.txns.get x = some tx → x ≠ d.nextId := by
    intro x tx h e; rw [e, hnew] at h; cases h
  have E : Ext d (begin d iso).1 (fun _ => True) := by
    constructor
    · intro l u h
      rw [getLog_some] at h ⊢
      obtain ⟨h1, tx, h2, h3⟩ := h
      refine ⟨by rw [hmap, mem_ins]; exact Or.inr h1, tx, ?_, h3⟩
      rw [hget, if_neg (hne _ _ h2)]; exact h2
    · intro x tx h _
      rw [hget, if_neg (hne _ _ h)]; exact h
    · intro r h
      rcases h with h | ⟨x, tx, h1, h2⟩
      · left; omega
      · rcases hrun x tx h1 with ⟨-, e⟩ | ⟨-, e⟩
        · left; rw [e] at h2; simp at h2; omega
        · right; exact ⟨x, tx, e, h2⟩
    · intro x tx h _
      exact ⟨tx, ⟨by rw [hget, if_neg (hne _ _ h.1)]; exact h.1, h.2⟩, rfl, fun _ h => h⟩
  have hstep : Spec.step a (.begin iso, (begin d iso).2) =
      { Spec.clear a d.nextId with snap := fun t' => if t' = d.nextId then a.committed else a.snap t' } := rfl
  rw [hstep]
  constructor
  · have := Watermark.fresh_step d.wm I.wm .register trivial
    exact this.1
  · intro x tx h
    rw [hget] at h
    show x < d.nextId + 1
    split at h
    · omega
    · have := I.ids x tx h; omega
  · intro x tx h
    rw [hget] at h
    split at h
    · left; rw [← Option.some.inj h]
    · exact I.states x tx h
  · intro x tx h
    rw [hact]
    rcases hrun x tx h with ⟨-, e⟩ | ⟨-, e⟩
    · left; rw [e]
    · exact Or.inr (I.act x tx e)
  · intro x tx h
    rw [hget] at h
    rw [hnt]
    split at h
    · rw [← Option.some.inj h]; simp
    · have := I.lt x tx h; omega
  · intro x y tx ty hx hy e
    rw [hget] at hx hy
    split at hx <;> split at hy
    · next h1 h2 => rw [h1, h2]
    · have := (I.lt y ty hy).1
      rw [← Option.some.inj hx] at e
      simp at e; omega
    · have := (I.lt x tx hx).1
      rw [← Option.some.inj hy] at e
      simp at e; omega
    · exact I.inj x y tx ty hx hy e
  · intro x tx h
    rw [hmap, mem_ins]
    rcases hrun x tx h with ⟨e, -⟩ | ⟨-, e⟩
    · exact Or.inl e
    · exact Or.inr (I.inMap x tx e)
  · intro x tx h rid
    rcases hrun x tx h with ⟨e, e2⟩ | ⟨e, e2⟩
    · simp only [e, if_true, e2]
      rw [I.com, newest_top (I.versLt rid)]
    · simp only [e, if_false]
      exact I.snap x tx e2 rid
  · intro rid
    exact I.com rid
  · intro rid e he
    have := I.versLt rid e he
    omega
  · intro x tx h rid hrid
    rcases hrun x tx h with ⟨-, e2⟩ | ⟨-, e2⟩
    · rw [e2] at hrid; simp at hrid
    · exact I.wr x tx e2 rid hrid
  · intro rid
    have hr := I.row rid
    have hw0 : a.wrote d.nextId rid = none := by
      cases hr with
      | absent _ _ _ hw => exact hw _
      | dead _ _ _ _ _ _ _ _ hw => exact hw _
      | pending m v tx us h hc hr hin hw hno hl hch hf hcov =>
        exact hno _ (Ne.symm (hne _ _ hr.1))
      | committed _ _ _ _ _ _ _ _ _ _ hw => exact hw _
    refine row_ext E hr rfl rfl ?_ (fun _ _ _ _ _ _ => trivial)
    intro x
    simp only [Spec.clear]
    split
    · next e => rw [e, hw0]
    · rfl


/-! ## Insert, update, delete -/

theorem row_owner {d : Db V} {a : Abs V} {vers} (I : Inv d a vers) {t tx rid w} (ht : Running d t tx)
    (hw : a.wrote t rid = some w) :
    ∃ m v us, d.rows.get rid = some (m, v) ∧ m.cts = none ∧ m.creator = t ∧ rid ∈ tx.writes ∧ w = content m v ∧
      d.links.get rid = m.undo.map (fun i => (t, i)) ∧ Chain d rid (some t) none (d.links.get rid) us ∧
      firstC us = (vers rid).head? ∧ Cov d none us (vers rid) := by
  cases I.row rid with
  | absent _ _ _ hn => rw [hn] at hw; cases hw
  | dead _ _ _ _ _ _ _ _ hn => rw [hn] at hw; cases hw
  | committed _ _ _ _ _ _ _ _ _ _ hn => rw [hn] at hw; cases hw
  | pending m v tx' us h hc hr hin hw' hno hl hch hf hcov =>
    have e : m.creator = t := by
      refine Decidable.byContradiction fun h => ?_
      rw [hno t (Ne.symm h)] at hw; cases hw
    subst e
    have e2 : tx' = tx := Option.some.inj (hr.1.symm.trans ht.1)
    subst e2
    rw [hw'] at hw
    exact ⟨m, v, us, h, hc, rfl, hin, (Option.some.inj hw).symm, hl, hch, hf, hcov⟩

/-- What all three writing calls do to the bookkeeping: `t` keeps its identity, its undo list grows, one row changes. -/
structure Wrote (d d' : Db V) (t : Nat) (tx tx' : Txn V) (rid : Rid) : Prop where
  wm : d'.wm = d.wm
  nextId : d'.nextId = d.nextId
  map : d'.map = d.map
  txns : ∀ x, d'.txns.get x = if x = t then some tx' else d.txns.get x
  st : tx'.state = tx.state
  rts : tx'.rts = tx.rts
  cts : tx'.cts = tx.cts
  writes : ∀ r, r ∈ tx'.writes ↔ r = rid ∨ r ∈ tx.writes
  undo : ∃ l, tx'.undo = tx.undo ++ l
  rows : ∀ r, r ≠ rid → d'.rows.get r = d.rows.get r
  links : ∀ r, r ≠ rid → d'.links.get r = d.links.get r
  row : ∃ m v, d'.rows.get rid = some (m, v) ∧ m.creator = t ∧ m.cts = none

theorem Wrote.ext {d d' : Db V} {t tx tx' rid} (w : Wrote d d' t tx tx' rid) (ht : Running d t tx) :
    Ext d d' (fun _ => True) := by
  have hgo : ∀ x y, d.txns.get x = some y → x ≠ t ∨ y = tx := by
    intro x y h
    by_cases e : x = t
    · subst e; exact Or.inr (Option.some.inj (h.symm.trans ht.1))
    · exact Or.inl e
  constructor
  · intro l u h
    rw [getLog_some] at h ⊢
    obtain ⟨h1, ty, h2, h3⟩ := h
    refine ⟨by rw [w.map]; exact h1, ?_⟩
    rw [w.txns]
    by_cases e : l.1 = t
    · rw [if_pos e]
      refine ⟨tx', rfl, ?_⟩
      have : ty = tx := by rcases hgo _ _ h2 with h | h; exact absurd e h; exact h
      subst this
      obtain ⟨l', hl'⟩ := w.undo
      rw [hl', List.getElem?_append_left]
      · exact h3
      · exact (List.getElem?_eq_some_iff.1 h3).1
    · rw [if_neg e]; exact ⟨ty, h2, h3⟩
  · intro x ty h hs
    rw [w.txns]
    rcases hgo _ _ h with e | e
    · rw [if_neg e]; exact h
    · subst e; exact absurd ht.2 hs
  · intro r h
    rcases h with h | ⟨x, ty, h1, h2⟩
    · left; rw [w.wm] at h; exact h
    · right
      obtain ⟨h3, h4⟩ := h1
      rw [w.txns] at h3
      split at h3
      · have := Option.some.inj h3
        subst this
        exact ⟨t, tx, ht, by rw [← w.rts]; exact h2⟩
      · exact ⟨x, ty, ⟨h3, h4⟩, h2⟩
  · intro x ty h _
    rcases hgo _ _ h.1 with e | e
    · exact ⟨ty, ⟨by rw [w.txns, if_neg e]; exact h.1, h.2⟩, rfl, fun _ h => h⟩
    · subst e
      by_cases e : x = t
      · subst e
        exact ⟨tx', ⟨by rw [w.txns, if_pos rfl], by rw [w.st]; exact h.2⟩, w.rts, fun r hr => (w.writes r).2 (Or.inr hr)⟩
      · exact ⟨ty, ⟨by rw [w.txns, if_neg e]; exact h.1, h.2⟩, rfl, fun _ h => h⟩

theorem Wrote.running {d d' : Db V} {t tx tx' rid} (w : Wrote d d' t tx tx' rid) {x ty}
    (h : Running d' x ty) : (x = t ∧ ty = tx') ∨ (x ≠ t ∧ Running d x ty) := by
  obtain ⟨h3, h4⟩ := h
  rw [w.txns] at h3
  split at h3
  · next e => exact Or.inl ⟨e, (Option.some.inj h3).symm⟩
  · next e => exact Or.inr ⟨e, h3, h4⟩

theorem Wrote.inv {d d' : Db V} {a : Abs V} {vers} (I : Inv d a vers) {t tx tx' rid} (w : Wrote d d' t tx tx' rid)
    (ht : Running d t tx) (wv : Option V)
    (hrow : RowOk d' (Spec.write a t rid wv) (vers rid) rid)
    (hfree : ∀ x ty, Running d x ty → x ≠ t → rid ∉ ty.writes) :
    Inv d' (Spec.write a t rid wv) vers := by
  have E := w.ext ht
  constructor
  · rw [w.wm]; exact I.wm
  · intro x ty h
    rw [w.txns] at h; rw [w.nextId]
    split at h
    · next e => rw [e]; exact I.ids t tx ht.1
    · exact I.ids x ty h
  · intro x ty h
    rw [w.txns] at h
    split at h
    · rw [← Option.some.inj h, w.st]; exact Or.inl ht.2
    · exact I.states x ty h
  · intro x ty h
    rw [w.wm]
    rcases w.running h with ⟨e1, e2⟩ | ⟨e1, e2⟩
    · rw [e2, w.rts]; exact I.act t tx ht
    · exact I.act x ty e2
  · intro x ty h
    rw [w.txns] at h; rw [w.wm]
    split at h
    · rw [← Option.some.inj h, w.rts, w.cts]; exact I.lt t tx ht.1
    · exact I.lt x ty h
  · have key : ∀ x ty, d'.txns.get x = some ty → ∃ tz, d.txns.get x = some tz ∧ tz.rts = ty.rts := by
      intro x ty h
      rw [w.txns] at h
      split at h
      · next e => exact ⟨tx, by rw [e]; exact ht.1, by rw [← Option.some.inj h, w.rts]⟩
      · exact ⟨ty, h, rfl⟩
    intro x y tx1 ty1 hx hy e
    obtain ⟨z1, h1, h2⟩ := key x tx1 hx
    obtain ⟨z2, h3, h4⟩ := key y ty1 hy
    exact I.inj x y z1 z2 h1 h3 (by rw [h2, h4, e])
  · intro x ty h
    rw [w.map]
    rcases w.running h with ⟨e1, e2⟩ | ⟨e1, e2⟩
    · rw [e1]; exact I.inMap t tx ht
    · exact I.inMap x ty e2
  · intro x ty h r
    show a.snap x r = _
    rcases w.running h with ⟨e1, e2⟩ | ⟨e1, e2⟩
    · rw [e1, e2, w.rts]; exact I.snap t tx ht r
    · exact I.snap x ty e2 r
  · intro r; exact I.com r
  · intro r; rw [w.wm]; exact I.versLt r
  · intro x ty h r hr
    by_cases er : r = rid
    · subst er
      rcases w.running h with ⟨e1, e2⟩ | ⟨e1, e2⟩
      · rw [e1]; exact w.row
      · exact absurd hr (hfree x ty e2 e1)
    · rw [w.rows r er]
      rcases w.running h with ⟨e1, e2⟩ | ⟨e1, e2⟩
      · rw [e1]; refine I.wr t tx ht r ?_
        rw [e2, w.writes] at hr
        exact hr.resolve_left er
      · exact I.wr x ty e2 r hr
  · intro r
    by_cases er : r = rid
    · subst er; exact hrow
    · refine row_ext E (I.row r) (w.rows r er) (w.links r er) ?_ (fun _ _ _ _ _ _ => trivial)
      intro x
      simp only [Spec.write]
      rw [if_neg (fun h => er h.2)]

theorem inv_insert {d : Db V} {a : Abs V} {vers} (I : Inv d a vers) (t : Nat) (v : V) (rid : Rid)
    (hok : d.rows.get rid = none) :
    Inv (insert d t v rid).1 (Spec.step a (.insert t v rid, (insert d t v rid).2)) vers := by
  unfold insert
  cases hg : d.txns.get t with
  | none => exact I
  | some tx =>
    by_cases hs : tx.state = .running
    · simp only [hs, ne_eq, not_true, if_false]
      have ht : Running d t tx := ⟨hg, hs⟩
      have w : Wrote d (addWrite { d with rows := d.rows.set rid (({ creator := t, cts := none, deleted := false, undo := none } : Meta), v) } t tx rid)
          t tx { tx with writes := ins rid tx.writes } rid := by
        constructor
        · rfl
        · rfl
        · rfl
        · intro x; simp only [addWrite, get_set']
        · rfl
        · rfl
        · rfl
        · intro r; simp only [mem_ins]
        · exact ⟨[], by simp⟩
        · intro r hr; simp only [addWrite, get_set', if_neg hr]
        · intro r _; rfl
        · exact ⟨{ creator := t, cts := none, deleted := false, undo := none }, v, by simp only [addWrite, get_set', if_true], rfl, rfl⟩
      have hrow0 : d.links.get rid = none ∧ vers rid = [] ∧ ∀ x, a.wrote x rid = none := by
        cases I.row rid with
        | absent _ hl hv hw => exact ⟨hl, hv, hw⟩
        | dead _ _ h => rw [hok] at h; cases h
        | pending _ _ _ _ h => rw [hok] at h; cases h
        | committed _ _ _ _ _ _ h => rw [hok] at h; cases h
      obtain ⟨hl, hv, hw⟩ := hrow0
      refine w.inv I ht (some v) ?_ ?_
      · refine .pending { creator := t, cts := none, deleted := false, undo := none } v
          { tx with writes := ins rid tx.writes } [] (by simp only [addWrite, get_set', if_true]) rfl
          ⟨by simp only [addWrite, get_set', if_true], hs⟩ (by simp only [mem_ins]; exact Or.inl trivial) ?_ ?_ ?_ ?_ ?_ ?_
        · simp [Spec.write, content]
        · intro x hx
          simp only [Spec.write]
          rw [if_neg (fun h => hx h.1), hw]
        · exact hl
        · show Chain _ rid _ none (d.links.get rid) []
          rw [hl]; exact .nil none
        · rw [hv]; rfl
        · rw [hv]; intro r _ _; rfl
      · intro x ty hx _ hin
        obtain ⟨m, v', h, -⟩ := I.wr x ty hx rid hin
        rw [hok] at h; cases h
    · simp only [ne_eq, hs, not_false_eq_true, if_true]
      exact I

theorem running_not_finished {d : Db V} {t tx} (h : Running d t tx) : ¬ Finished d t := by
  rintro ⟨ty, h1, h2⟩
  rw [h.1] at h1
  exact h2 (Option.some.inj h1 ▸ h.2)

/-- Writing a new version over the current one. -/
theorem inv_writeVersion {d : Db V} {a : Abs V} {vers} (I : Inv d a vers) (t : Nat) (tx : Txn V) (rid : Rid) (m : Meta)
    (cur new : V) (del : Bool) (ht : Running d t tx) (hrow : d.rows.get rid = some (m, cur)) (hdel : m.deleted = false)
    (hsnap : InSnapshot m t tx.rts) :
    Inv (writeVersion d t tx rid m cur new del) (Spec.write a t rid (if del then none else some new)) vers := by
  let u : Undo V := { isDeleted := del, val := cur, ts := m.cts, prev := { txn := m.creator, idx := m.undo }, orig := some rid }
  let tx' : Txn V := { tx with undo := tx.undo ++ [u], writes := ins rid tx.writes }
  have w : Wrote d (writeVersion d t tx rid m cur new del) t tx tx' rid := by
    constructor
    · rfl
    · rfl
    · rfl
    · intro x; simp only [writeVersion, addWrite, get_set']; rfl
    · rfl
    · rfl
    · rfl
    · intro r; exact mem_ins
    · exact ⟨[u], rfl⟩
    · intro r hr; simp only [writeVersion, addWrite, get_set', if_neg hr]
    · intro r hr; simp only [writeVersion, addWrite, get_set', if_neg hr]
    · exact ⟨{ creator := t, cts := none, deleted := del, undo := some tx.undo.length }, new,
        by simp only [writeVersion, addWrite, get_set', if_true], rfl, rfl⟩
  have E := w.ext ht
  have hlog : getLog (writeVersion d t tx rid m cur new del) (t, tx.undo.length) = some u := by
    rw [getLog_some]
    refine ⟨by rw [w.map]; exact I.inMap t tx ht, tx', by rw [w.txns, if_pos rfl], ?_⟩
    simp [tx']
  have hrun' : Running (writeVersion d t tx rid m cur new del) t tx' := ⟨by rw [w.txns, if_pos rfl], ht.2⟩
  have hlink : (writeVersion d t tx rid m cur new del).links.get rid = some (t, tx.undo.length) := by
    simp only [writeVersion, addWrite, get_set', if_true]
  -- the version that is overwritten: own or committed
  have hcase : (m.creator = t ∧ m.cts = none ∧ (∀ x, x ≠ t → a.wrote x rid = none) ∧
        ∃ us, Chain d rid (some t) none (m.undo.map fun i => (t, i)) us ∧ firstC us = (vers rid).head? ∧
          Cov d none us (vers rid)) ∨
      (∃ c rest us, m.cts = some c ∧ c ≤ tx.rts ∧ Finished d m.creator ∧ vers rid = (c, some cur) :: rest ∧
        (∀ x, a.wrote x rid = none) ∧
        Chain d rid none (some c) (m.undo.map fun i => (m.creator, i)) us ∧ Cov d (some c) us rest) := by
    cases I.row rid with
    | absent h => rw [hrow] at h; cases h
    | dead m' v' h hc hd =>
      rw [hrow] at h; cases h; rw [hdel] at hd; cases hd
    | pending m' v' tx0 us h hc hr hin hw hno hl hch hf hcov =>
      rw [hrow] at h; cases h
      have e : m.creator = t := by
        rcases hsnap with e | ⟨c, e, -⟩
        · exact e
        · rw [hc] at e; cases e
      left
      rw [hl] at hch
      rw [e] at hch hno
      exact ⟨e, hc, hno, us, hch, hf, hcov⟩
    | committed m' v' c rest us us2 h hc hf hv hw hch hcov hch2 hcov2 =>
      rw [hrow] at h; cases h
      right
      refine ⟨c, rest, us2, hc, ?_, hf, ?_, hw, hch2, hcov2⟩
      · rcases hsnap with e | ⟨c', e, h'⟩
        · rw [e] at hf; exact absurd hf (running_not_finished ht)
        · rw [hc] at e; cases e; exact h'
      · rw [hv]; simp [content, hdel]
  have hno : ∀ x, x ≠ t → a.wrote x rid = none := by
    rcases hcase with ⟨-, -, h, -⟩ | ⟨c, rest, us, -, -, -, -, h, -⟩
    · exact h
    · exact fun x _ => h x
  refine w.inv I ht _ ?_ ?_
  · have hch : ∃ us, Chain (writeVersion d t tx rid m cur new del) rid (some t) none (some (t, tx.undo.length)) us ∧
        firstC us = (vers rid).head? ∧ Cov (writeVersion d t tx rid m cur new del) none us (vers rid) := by
      rcases hcase with ⟨e, hc, -, us, h1, h2, h3⟩ | ⟨c, rest, us, hc, hle, hf, hv, -, h1, h2⟩
      · refine ⟨u :: us, ?_, ?_, ?_⟩
        · refine .cons hlog rfl (Or.inl ⟨rfl, rfl, tx', hrun', ?_⟩) (Or.inl (by rw [← e])) ?_
          · intro c h'; simp only [u, hc] at h'; cases h'
          · have : nextLink u = m.undo.map fun i => (t, i) := by simp [nextLink, u, e]
            rw [this]
            have : seen' u none = none := by simp [seen', u, hc]
            rw [this]
            exact chain_ext E h1 (fun _ _ => trivial)
        · simp only [firstC, u, hc]; exact h2
        · intro r hr hs
          simp only [scan, u, hc]
          exact h3 r (E.rel r hr) hs
      · refine ⟨u :: us, ?_, ?_, ?_⟩
        · refine .cons hlog rfl (Or.inl ⟨rfl, rfl, tx', hrun', ?_⟩) (Or.inr (E.finished hf)) ?_
          · intro c' h'; simp only [u, hc] at h'; cases h'; exact hle
          · have : nextLink u = m.undo.map fun i => (m.creator, i) := rfl
            rw [this]
            have : seen' u none = some c := by simp [seen', u, hc]
            rw [this]
            have := chain_ext E h1 (by simp)
            -- the owner does not matter below a committed version
            have gen : ∀ s l us, Chain (writeVersion d t tx rid m cur new del) rid none s l us →
                Chain (writeVersion d t tx rid m cur new del) rid (some t) s l us := by
              intro s l us h
              induction h with
              | nil s => exact .nil s
              | cut c hs hc => exact .cut c hs hc
              | cons hl ho hk hc hn ih =>
                refine .cons hl ho ?_ ?_ ih
                · rcases hk with ⟨-, h2, -⟩ | h
                  · cases h2
                  · exact Or.inr h
                · rcases hc with h | h
                  · cases h
                  · exact Or.inr h
            exact gen _ _ _ this
        · simp only [firstC, u, hc, hv, List.head?_cons]
        · intro r hr hs
          simp only [scan, u, hc, hv, newest]
          by_cases hcr : c ≤ r
          · rw [if_pos hcr, if_pos hcr]
          · rw [if_neg hcr, if_neg hcr]
            exact h2 r (E.rel r hr) (by intro c' h'; cases h'; omega)
    obtain ⟨us, h1, h2, h3⟩ := hch
    refine .pending { creator := t, cts := none, deleted := del, undo := some tx.undo.length } new tx' us
      (by simp only [writeVersion, addWrite, get_set', if_true]) rfl hrun' (mem_ins.2 (Or.inl rfl)) ?_ ?_ ?_ ?_ h2 h3
    · cases del <;> simp [Spec.write, content]
    · intro x hx
      simp only [Spec.write]
      rw [if_neg (fun h => hx h.1)]
      exact hno x hx
    · rw [hlink]; rfl
    · rw [hlink]; exact h1
  · intro x ty hx hne hin
    obtain ⟨m', v', h, h2, h3⟩ := I.wr x ty hx rid hin
    rw [hrow] at h; cases h
    rcases hsnap with e | ⟨c, e, -⟩
    · exact hne (h2.symm.trans e)
    · rw [h3] at e; cases e

theorem inv_update {d : Db V} {a : Abs V} {vers} (I : Inv d a vers) (t who : Nat) (v : V) (rid : Rid)
    (hok : OpOk d (.update t who v rid)) :
    Inv (update d t who v rid).1 (Spec.step a (.update t who v rid, (update d t who v rid).2)) vers := by
  unfold update
  cases hg : d.txns.get t with
  | none => exact I
  | some tx =>
    by_cases hs : tx.state = .running
    · simp only [hs, ne_eq, not_true, if_false]
      cases hr : d.rows.get rid with
      | none => exact I
      | some p =>
        obtain ⟨m, cur⟩ := p
        simp only
        by_cases hd : m.deleted
        · simp only [hd, if_true]; exact I
        · simp only [hd, if_false, Bool.false_eq_true]
          split
          · exact I
          · have := inv_writeVersion I t tx rid m cur v false ⟨hg, hs⟩ hr (by simpa using hd) (hok tx m cur hg hr)
            exact this
    · simp only [ne_eq, hs, not_false_eq_true, if_true]; exact I

theorem inv_delete {d : Db V} {a : Abs V} {vers} (I : Inv d a vers) (t : Nat) (rid : Rid)
    (hok : OpOk d (.delete t rid)) :
    Inv (delete d t rid).1 (Spec.step a (.delete t rid, (delete d t rid).2)) vers := by
  unfold delete
  cases hg : d.txns.get t with
  | none => exact I
  | some tx =>
    by_cases hs : tx.state = .running
    · simp only [hs, ne_eq, not_true, if_false]
      cases hr : d.rows.get rid with
      | none => exact I
      | some p =>
        obtain ⟨m, cur⟩ := p
        simp only
        by_cases hd : m.deleted
        · simp only [hd, if_true]; exact I
        · simp only [hd, if_false, Bool.false_eq_true]
          split
          · exact I
          · have := inv_writeVersion I t tx rid m cur cur true ⟨hg, hs⟩ hr (by simpa using hd) (hok tx m cur hg hr)
            exact this
    · simp only [ne_eq, hs, not_false_eq_true, if_true]; exact I


/-! ## Prune -/

theorem prune_getLog {d : Db V} {l u} (h : getLog d l = some u)
    (hk : ∀ tx, d.txns.get l.1 = some tx → keeps d.wm.watermark tx = true) : getLog (prune d) l = some u := by
  rw [getLog_some] at h ⊢
  obtain ⟨h1, tx, h2, h3⟩ := h
  refine ⟨?_, tx, h2, h3⟩
  simp only [prune, List.mem_filter, Watermark.getWatermark]
  refine ⟨h1, ?_⟩
  rw [h2]; exact hk tx h2

theorem wm_le_relevant {d : Db V} {a : Abs V} {vers} (I : Inv d a vers) {r} (h : Relevant d r) : d.wm.watermark ≤ r := by
  rcases h with h | ⟨x, tx, h1, h2⟩
  · have := I.wm.le; omega
  · have := I.wm.inv.le_active _ (I.act x tx h1); omega

theorem chain_prune {d : Db V} {a : Abs V} {vers} (I : Inv d a vers) {rid o s l us} (h : Chain d rid o s l us) :
    ∃ us', Chain (prune d) rid o s l us' ∧
      (∀ r, Relevant d r → (∀ c, s = some c → r < c) → scan us' r = scan us r) ∧ (s = none → firstC us' = firstC us) := by
  induction h with
  | nil s => exact ⟨[], .nil s, fun _ _ _ => rfl, fun _ => rfl⟩
  | cut c hs hc => exact ⟨[], .cut c hs hc, fun _ _ _ => rfl, fun _ => rfl⟩
  | @cons s l u us hl ho hk hc hn ih =>
    by_cases hkeep : ∀ tx, d.txns.get l.1 = some tx → keeps d.wm.watermark tx = true
    · obtain ⟨us', h1, h2, h3⟩ := ih
      refine ⟨u :: us', .cons (prune_getLog hl hkeep) ho hk hc h1, ?_, ?_⟩
      · intro r hr hs
        cases hts : u.ts with
        | none =>
          simp only [scan, hts]
          exact h2 r hr (by simp only [seen', hts]; exact hs)
        | some c =>
          simp only [scan, hts]
          by_cases hcr : c ≤ r
          · simp [hcr]
          · rw [if_neg hcr, if_neg hcr]
            exact h2 r hr (by simp only [seen', hts]; intro c' e; cases e; omega)
      · intro hs
        cases hts : u.ts with
        | none =>
          simp only [firstC, hts]
          exact h3 (by simp only [seen', hts]; exact hs)
        | some c => simp only [firstC, hts]
    · obtain ⟨tx, hkk⟩ := Classical.not_forall.1 hkeep
      rw [Classical.not_imp] at hkk
      obtain ⟨hget, hnk⟩ := hkk
      rcases hk with ⟨-, -, tx', ⟨h3, h3'⟩, -⟩ | ⟨c, hs, tx', h3, h4⟩
      · rw [hget] at h3; cases h3
        rw [keeps, h3'] at hnk
        exact absurd rfl hnk
      · rw [hget] at h3; cases h3
        have hle : c < d.wm.watermark := by
          rcases h4 with ⟨e, h4⟩ | ⟨e, h4⟩
          · simp only [keeps, e, ge_iff_le, Bool.or_eq_true, beq_iff_eq, decide_eq_true_eq, not_or] at hnk
            omega
          · simp only [keeps, e, ge_iff_le, decide_eq_true_eq] at hnk
            omega
        refine ⟨[], .cut c hs ?_, ?_, ?_⟩
        · intro r hr
          have := wm_le_relevant I (r := r) hr
          omega
        · intro r hr h'
          have := wm_le_relevant I hr
          have := h' c hs
          omega
        · intro e; rw [e] at hs; cases hs

theorem inv_prune {d : Db V} {a : Abs V} {vers} (I : Inv d a vers) : Inv (prune d) a vers := by
  refine ⟨I.wm, I.ids, I.states, I.act, I.lt, I.inj, ?_, I.snap, I.com, I.versLt, I.wr, ?_⟩
  · intro x tx h
    simp only [prune, List.mem_filter]
    refine ⟨I.inMap x tx h, ?_⟩
    have : d.txns.get x = some tx := h.1
    rw [this]
    show keeps _ tx = true
    rw [keeps, h.2]
  · intro rid
    cases I.row rid with
    | absent h hl hv hw => exact .absent h hl hv hw
    | dead m v h hc hd hf hl hv hw => exact .dead m v h hc hd hf hl hv hw
    | pending m v tx us h hc hr hin hw hno hl hch hf hcov =>
      obtain ⟨us', h1, h2, h3⟩ := chain_prune I hch
      exact .pending m v tx us' h hc hr hin hw hno hl h1 ((h3 rfl).trans hf)
        (fun r hr' hs => (h2 r hr' hs).trans (hcov r hr' hs))
    | committed m v c rest us us2 h hc hf hv hw hch hcov hch2 hcov2 =>
      obtain ⟨us', h1, h2, -⟩ := chain_prune I hch
      obtain ⟨us2', h3, h4, -⟩ := chain_prune I hch2
      exact .committed m v c rest us' us2' h hc hf hv hw h1 (fun r hr' hs => (h2 r hr' hs).trans (hcov r hr' hs))
        h3 (fun r hr' hs => (h4 r hr' hs).trans (hcov2 r hr' hs))

/-! ## Commit -/

/-- The owner finishes. -/
theorem chain_finish {d d' : Db V} {t : Nat} (e : Ext d d' (fun x => x ≠ t)) {c : Nat} (hfin : FinishedBy d' t c)
    {rid s l us} (h : Chain d rid (some t) s l us) :
    ∀ s', (s = none → s' = some c) → (∀ k, s = some k → s' = some k) → Chain d' rid none s' l us := by
  have hF : Finished d' t := by
    obtain ⟨tx, h1, h2⟩ := hfin
    exact ⟨tx, h1, by rcases h2 with h2 | h2 <;> rw [h2.1] <;> simp⟩
  induction h with
  | nil s => intro s' _ _; exact .nil s'
  | cut k hs hc => intro s' _ h2; exact .cut k (h2 k hs) fun r hr => hc r (e.rel r hr)
  | @cons s l u us hl ho hk hc hn ih =>
    intro s' h1 h2
    refine .cons (e.log _ _ hl) ho ?_ ?_ (ih _ ?_ ?_)
    · rcases hk with ⟨hs, hx, -⟩ | ⟨k, hs, hf⟩
      · have := Option.some.inj hx
        exact Or.inr ⟨c, h1 hs, this ▸ hfin⟩
      · exact Or.inr ⟨k, h2 k hs, e.finBy hf⟩
    · rcases hc with hc | hc
      · exact Or.inr (Option.some.inj hc ▸ hF)
      · exact Or.inr (e.finished hc)
    · intro hs
      unfold seen' at hs ⊢
      cases hts : u.ts with
      | none => rw [hts] at hs; exact h1 hs
      | some k => rw [hts] at hs; cases hs
    · intro k hs
      unfold seen' at hs ⊢
      cases hts : u.ts with
      | none => rw [hts] at hs; exact h2 k hs
      | some k' => rw [hts] at hs; exact hs

theorem stamp_fields (t c : Nat) (d : Db V) (rid : Rid) :
    (stamp t c d rid).wm = d.wm ∧ (stamp t c d rid).nextId = d.nextId ∧ (stamp t c d rid).txns = d.txns ∧
    (stamp t c d rid).map = d.map ∧ (stamp t c d rid).links = d.links := by
  unfold stamp
  split
  · simp
  · split <;> simp

theorem stamps_fields (t c : Nat) (order : List Rid) : ∀ d : Db V,
    (order.foldl (stamp t c) d).wm = d.wm ∧ (order.foldl (stamp t c) d).nextId = d.nextId ∧
    (order.foldl (stamp t c) d).txns = d.txns ∧ (order.foldl (stamp t c) d).map = d.map ∧
    (order.foldl (stamp t c) d).links = d.links := by
  induction order with
  | nil => intro d; simp
  | cons r os ih =>
    intro d
    have h1 := ih (stamp t c d r)
    have h2 := stamp_fields t c d r
    simp only [List.foldl_cons]
    exact ⟨h1.1.trans h2.1, h1.2.1.trans h2.2.1, h1.2.2.1.trans h2.2.2.1, h1.2.2.2.1.trans h2.2.2.2.1,
      h1.2.2.2.2.trans h2.2.2.2.2⟩

theorem stamp_row (t c : Nat) (d : Db V) (rid r : Rid) :
    (stamp t c d rid).rows.get r = (d.rows.get r).map fun p =>
      if r = rid ∧ p.1.creator = t then ({ p.1 with cts := some c }, p.2) else p := by
  unfold stamp
  cases h : d.rows.get rid with
  | none =>
    simp only
    by_cases e : r = rid
    · subst e; rw [h]; rfl
    · simp [e]
  | some p =>
    obtain ⟨m, v⟩ := p
    simp only
    split
    · next hm =>
      simp only [get_set']
      by_cases e : r = rid
      · subst e; rw [if_pos rfl, h]; simp [hm]
      · simp [e]
    · next hm =>
      by_cases e : r = rid
      · subst e; rw [h]; simp [hm]
      · simp [e]

theorem stamps_row (t c : Nat) (order : List Rid) : ∀ (d : Db V) (r : Rid),
    (order.foldl (stamp t c) d).rows.get r = (d.rows.get r).map fun p =>
      if r ∈ order ∧ p.1.creator = t then ({ p.1 with cts := some c }, p.2) else p := by
  induction order with
  | nil => intro d r; simp
  | cons x os ih =>
    intro d r
    simp only [List.foldl_cons]
    rw [ih, stamp_row]
    cases d.rows.get r with
    | none => rfl
    | some p =>
      simp only [Option.map_some, Option.some.injEq, List.mem_cons]
      by_cases h1 : p.1.creator = t
      · by_cases h2 : r = x
        · simp only [h1, h2, and_self, if_true, true_or]; split <;> rfl
        · simp [h1, h2]
      · simp [h1]

theorem updateCommitTs_next (w : WM) (c : Nat) (h : w.nextTs = c + 1) : (Watermark.updateCommitTs w c).nextTs = c + 1 := by
  simp only [Watermark.updateCommitTs, Watermark.update_nextTs, h]
  rw [if_neg (by omega)]

theorem ext_finish {d d' : Db V} {a : Abs V} {vers} (I : Inv d a vers) {t tx tx'} (ht : Running d t tx)
    (htx : ∀ x, d'.txns.get x = if x = t then some tx' else d.txns.get x) (hu : tx'.undo = tx.undo)
    (hst : tx'.state ≠ .running) (hmap : ∀ x, x ∈ d'.map ↔ x = t ∨ x ∈ d.map) (hnt : d.wm.nextTs ≤ d'.wm.nextTs) :
    Ext d d' (fun x => x ≠ t) := by
  have _ := I
  constructor
  · intro l u h
    rw [getLog_some] at h ⊢
    obtain ⟨h1, ty, h2, h3⟩ := h
    refine ⟨(hmap _).2 (Or.inr h1), ?_⟩
    rw [htx]
    by_cases e : l.1 = t
    · rw [if_pos e]
      rw [e] at h2
      have : ty = tx := Option.some.inj (h2.symm.trans ht.1)
      subst this
      exact ⟨tx', rfl, by rw [hu]; exact h3⟩
    · rw [if_neg e]; exact ⟨ty, h2, h3⟩
  · intro x ty h hs
    rw [htx]
    by_cases e : x = t
    · subst e
      have : ty = tx := Option.some.inj (h.symm.trans ht.1)
      subst this
      exact absurd ht.2 hs
    · rw [if_neg e]; exact h
  · intro r h
    rcases h with h | ⟨x, ty, ⟨h1, h1'⟩, h2⟩
    · left; omega
    · right
      rw [htx] at h1
      split at h1
      · have := Option.some.inj h1
        subst this
        exact absurd h1' hst
      · exact ⟨x, ty, ⟨h1, h1'⟩, h2⟩
  · intro x ty h hx
    exact ⟨ty, ⟨by rw [htx, if_neg hx]; exact h.1, h.2⟩, rfl, fun _ h => h⟩

theorem inv_commit {d : Db V} {a : Abs V} {vers} (I : Inv d a vers) (t : Nat) (order : List Rid)
    (hok : OpOk d (.commit t order)) :
    ∃ vers', Inv (commit d t order).1 (Spec.step a (.commit t order, (commit d t order).2)) vers' := by
  unfold commit
  cases hg : d.txns.get t with
  | none => exact ⟨vers, I⟩
  | some tx =>
    simp only
    rcases I.states t tx hg with hs | hs | hs
    · rw [hs]
      simp only
      have ht : Running d t tx := ⟨hg, hs⟩
      let c := d.wm.nextTs
      let d1 := (commitStart d t tx).1
      have hd2 : (commitStart d t tx) = (d1, c) := rfl
      rw [hd2]
      simp only
      have f := stamps_fields t c order d1
      have fr := stamps_row t c order d1
      generalize hd2' : order.foldl (stamp t c) d1 = d2 at f fr ⊢
      obtain ⟨f1, f2, f3, f4, f5⟩ := f
      have hnt : d2.wm.nextTs = c + 1 := by
        rw [f1]
        show (Watermark.removeTxn (Watermark.updateCommitTs (Watermark.getNextTs d.wm).1 c) tx.rts).nextTs = _
        rw [Watermark.removeTxn, Watermark.update_nextTs]
        exact updateCommitTs_next _ c rfl
      have hact : ∀ r, r ∈ d2.wm.active ↔ r ∈ d.wm.active ∧ r ≠ tx.rts := by
        intro r
        rw [f1]
        simp [d1, commitStart, Watermark.getNextTs, Watermark.removeTxn, Watermark.updateCommitTs]
      have htx : ∀ x, d2.txns.get x = if x = t then some { tx with state := .committed, cts := c } else d.txns.get x := by
        intro x; rw [f3]; simp only [d1, commitStart, get_set']; rfl
      have hmap : ∀ x, x ∈ d2.map ↔ x = t ∨ x ∈ d.map := by
        intro x; rw [f4]; simp only [d1, commitStart, mem_ins]
      have hlinks : d2.links = d.links := by rw [f5]; rfl
      have E := ext_finish (d' := d2) I ht htx rfl (by simp) hmap (by rw [hnt]; simp only [c]; omega)
      have hfin : FinishedBy d2 t c := ⟨_, by rw [htx, if_pos rfl], Or.inl ⟨rfl, Nat.le_refl _⟩⟩
      have hrun : ∀ x ty, Running d2 x ty → x ≠ t ∧ Running d x ty := by
        intro x ty ⟨h1, h2⟩
        rw [htx] at h1
        split at h1
        · rw [← Option.some.inj h1] at h2; simp at h2
        · next e => exact ⟨e, h1, h2⟩
      let vers' : Rid → List (Nat × Option V) := fun rid =>
        match a.wrote t rid with
        | some w => (c, w) :: vers rid
        | none => vers rid
      refine ⟨vers', inv_prune ?_⟩
      have hstep : Spec.step a (.commit t order, .committed true) =
        { Spec.clear a t with committed := fun rid => (a.wrote t rid).getD (a.committed rid) } := rfl
      rw [hstep]
      constructor
      · have g1 := Watermark.fresh_step d.wm I.wm .getNextTs trivial
        have g2 := Watermark.fresh_step _ g1.1 (.updateCommitTs c) trivial
        have g3 := Watermark.fresh_step _ g2.1 (.removeTxn tx.rts) trivial
        rw [f1]; exact g3.1
      · intro x ty h
        rw [htx] at h
        rw [f2]
        show x < d.nextId
        split at h
        · next e => rw [e]; exact I.ids t tx hg
        · exact I.ids x ty h
      · intro x ty h
        rw [htx] at h
        split at h
        · rw [← Option.some.inj h]; simp
        · exact I.states x ty h
      · intro x ty h
        rw [hact]
        obtain ⟨h1, h2⟩ := hrun x ty h
        exact ⟨I.act x ty h2, fun e => h1 (I.inj x t ty tx h2.1 hg e)⟩
      · intro x ty h
        rw [htx] at h; rw [hnt]
        split at h
        · rw [← Option.some.inj h]
          have := (I.lt t tx hg).1
          simp only [c]; omega
        · have := I.lt x ty h
          simp only [c]; omega
      · have key : ∀ x ty, d2.txns.get x = some ty → ∃ tz, d.txns.get x = some tz ∧ tz.rts = ty.rts := by
          intro x ty h
          rw [htx] at h
          split at h
          · next e => exact ⟨tx, by rw [e]; exact hg, by rw [← Option.some.inj h]⟩
          · exact ⟨ty, h, rfl⟩
        intro x y tx1 ty1 hx hy e
        obtain ⟨z1, h1, h2⟩ := key x tx1 hx
        obtain ⟨z2, h3, h4⟩ := key y ty1 hy
        exact I.inj x y z1 z2 h1 h3 (by rw [h2, h4, e])
      · intro x ty h
        rw [hmap]; exact Or.inr (I.inMap x ty (hrun x ty h).2)
      · intro x ty h rid
        have h1 := I.snap x ty (hrun x ty h).2 rid
        have h2 := (I.lt x ty (hrun x ty h).2.1).1
        show a.snap x rid = _
        rw [h1]
        simp only [vers']
        split
        · simp only [newest]; rw [if_neg (by simp only [c]; omega)]
        · rfl
      · intro rid
        simp only [vers']
        cases hw : a.wrote t rid with
        | none => simp [I.com rid]
        | some w => simp
      · intro rid e he
        rw [hnt]
        simp only [vers'] at he
        split at he
        · rcases List.mem_cons.1 he with he | he
          · rw [he]; simp
          · have := I.versLt rid e he; simp only [c]; omega
        · have := I.versLt rid e he; simp only [c]; omega
      · intro x ty h rid hin
        obtain ⟨h1, h2⟩ := hrun x ty h
        obtain ⟨m, v, h3, h4, h5⟩ := I.wr x ty h2 rid hin
        refine ⟨m, v, ?_, h4, h5⟩
        rw [fr]
        show (d.rows.get rid).map _ = _
        rw [h3]
        simp [h4, h1]
      · intro rid
        cases hw : a.wrote t rid with
        | some w =>
          obtain ⟨m, v, us, h1, h2, h3, h4, h5, h6, h7, h8, h9⟩ := row_owner I ht hw
          have hin : rid ∈ order := (hok tx hg).mem_iff.2 h4
          have hv : vers' rid = (c, w) :: vers rid := by simp only [vers', hw]
          rw [hv]
          have hch : Chain d2 rid none (some c) (d2.links.get rid) us := by
            rw [hlinks]
            exact chain_finish E hfin h7 (some c) (fun _ => rfl) (fun _ h => by cases h)
          have hcov : Cov d2 (some c) us (vers rid) := by
            intro r hr _
            exact h9 r (E.rel r hr) (fun _ h => by cases h)
          refine .committed { m with cts := some c } v c (vers rid) us us ?_ rfl ?_ ?_ ?_ hch hcov ?_ hcov
          · rw [fr]
            show (d.rows.get rid).map _ = _
            rw [h1]
            simp [hin, h3]
          · exact ⟨_, by show d2.txns.get m.creator = _; rw [htx, if_pos h3], by simp⟩
          · rw [h5]; rfl
          · intro x
            simp only [Spec.clear]
            split
            · rfl
            · next e =>
              cases I.row rid with
              | absent h => rw [h1] at h; cases h
              | dead _ _ _ _ _ _ _ _ hn => exact hn x
              | committed _ _ _ _ _ _ _ _ _ _ hn => exact hn x
              | pending m' v' tx' us' h hc hr hin hw' hno hl hch hf hcov =>
                rw [h1] at h; cases h
                exact hno x (by rw [h3]; exact e)
          · show Chain d2 rid none (some c) (m.undo.map fun i => (m.creator, i)) us
            rw [h3, ← h6, ← hlinks]; exact hch
        | none =>
          have hv : vers' rid = vers rid := by simp only [vers', hw]
          rw [hv]
          have hnc : ∀ m v, d.rows.get rid = some (m, v) → m.creator ≠ t := by
            intro m v h e
            cases I.row rid with
            | absent h' => rw [h] at h'; cases h'
            | dead m' v' h' _ _ hf => rw [h] at h'; cases h'; exact running_not_finished ht (e ▸ hf)
            | committed m' v' _ _ _ _ h' _ hf => rw [h] at h'; cases h'; exact running_not_finished ht (e ▸ hf)
            | pending m' v' _ _ h' _ _ _ hw' => rw [h] at h'; cases h'; rw [e, hw] at hw'; cases hw'
          refine row_ext E (I.row rid) ?_ (by rw [hlinks]) ?_ ?_
          · rw [fr]
            show (d.rows.get rid).map _ = _
            cases h : d.rows.get rid with
            | none => rfl
            | some p => simp [hnc p.1 p.2 h]
          · intro x
            simp only [Spec.clear]
            split
            · next e => rw [e, hw]
            · rfl
          · intro m v _ h _ _; exact hnc m v h
    · -- already committed: nothing is written and nothing is left to apply
      rw [hs]
      simp only
      have hw : ∀ rid, a.wrote t rid = none := by
        intro rid
        cases I.row rid with
        | absent _ _ _ hw => exact hw t
        | dead _ _ _ _ _ _ _ _ hw => exact hw t
        | committed _ _ _ _ _ _ _ _ _ _ hw => exact hw t
        | pending m v ty us h hc hr hin hw hno hl hch hf hcov =>
          refine hno t ?_
          intro e
          obtain ⟨hr1, hr2⟩ := hr
          rw [← e, hg] at hr1
          rw [← Option.some.inj hr1, hs] at hr2
          cases hr2
      refine ⟨vers, ?_⟩
      have : Spec.step a (.commit t order, .committed true) = a := by
        show ({ Spec.clear a t with committed := fun rid => (a.wrote t rid).getD (a.committed rid) } : Abs V) = a
        obtain ⟨cm, sn, wr⟩ := a
        simp only [Spec.clear, Abs.mk.injEq, true_and]
        refine ⟨?_, ?_⟩
        · funext rid; simp only at hw; simp [hw]
        · funext x
          split
          · next e => funext rid; rw [e]; exact (hw rid).symm
          · rfl
      rw [this]; exact I
    · rw [hs]; exact ⟨vers, I⟩


/-! ## Abort -/

theorem setLink_get (d : Db V) (rid r : Rid) (o : Option (Nat × Nat)) :
    (setLink d rid o).links.get r = if r = rid then o else d.links.get r := by
  cases o with
  | none => simp only [setLink, get_erase']
  | some l => simp only [setLink, get_set']

theorem setLink_fields (d : Db V) (rid : Rid) (o : Option (Nat × Nat)) :
    (setLink d rid o).wm = d.wm ∧ (setLink d rid o).nextId = d.nextId ∧ (setLink d rid o).txns = d.txns ∧
    (setLink d rid o).map = d.map ∧ (setLink d rid o).rows = d.rows := by
  cases o <;> simp [setLink]

/-- What rollback makes of one row. -/
def rolled (d : Db V) (t : Nat) (rid : Rid) : Option (Meta × V) × Option (Nat × Nat) :=
  match d.links.get rid with
  | some l =>
    match getLog d l with
    | none => (d.rows.get rid, some l)
    | some u =>
      if (d.rows.get rid).isSome then
        (some ({ creator := l.1, cts := u.ts, deleted := false, undo := some l.2 }, u.val), nextLink u)
      else (d.rows.get rid, some l)
  | none => ((d.rows.get rid).map fun p => ({ creator := t, cts := none, deleted := true, undo := none }, p.2), none)

def OrigOk (d : Db V) (rid : Rid) : Prop :=
  ∀ l u, d.links.get rid = some l → getLog d l = some u → u.orig = some rid

theorem abortRow_eff (t : Nat) (d : Db V) (rid : Rid) (ho : OrigOk d rid) :
    (abortRow t d rid).wm = d.wm ∧ (abortRow t d rid).nextId = d.nextId ∧ (abortRow t d rid).txns = d.txns ∧
    (abortRow t d rid).map = d.map ∧
    ∀ r, ((abortRow t d rid).rows.get r, (abortRow t d rid).links.get r) =
      if r = rid then rolled d t rid else (d.rows.get r, d.links.get r) := by
  unfold abortRow rolled
  cases hl : d.links.get rid with
  | none =>
    simp only
    cases hr : d.rows.get rid with
    | none =>
      refine ⟨rfl, rfl, rfl, rfl, ?_⟩
      intro r
      by_cases e : r = rid
      · subst e; simp [hr, hl]
      · simp [e]
    | some p =>
      refine ⟨rfl, rfl, rfl, rfl, ?_⟩
      intro r
      by_cases e : r = rid
      · subst e; simp [hl]
      · simp [e, get_set']
  | some l =>
    simp only
    cases hg : getLog d l with
    | none =>
      refine ⟨rfl, rfl, rfl, rfl, ?_⟩
      intro r
      by_cases e : r = rid
      · subst e; simp [hl]
      · simp [e]
    | some u =>
      simp only [ho l u hl hg]
      cases hr : d.rows.get rid with
      | none =>
        simp only [Option.isSome_none, Bool.false_eq_true, if_false, true_and]
        intro r
        by_cases e : r = rid
        · subst e; simp [hr, hl]
        · simp [e]
      | some p =>
        simp only [Option.isSome_some, if_true]
        have f := setLink_fields { d with rows := d.rows.set rid (({ creator := l.1, cts := u.ts, deleted := false, undo := some l.2 } : Meta), u.val) } rid (nextLink u)
        refine ⟨f.1, f.2.1, f.2.2.1, f.2.2.2.1, ?_⟩
        intro r
        rw [f.2.2.2.2, setLink_get]
        simp only [get_set']
        by_cases e : r = rid
        · simp [e]
        · simp [e]

theorem abortRow_fields (t : Nat) (d : Db V) (x : Rid) :
    (abortRow t d x).wm = d.wm ∧ (abortRow t d x).nextId = d.nextId ∧ (abortRow t d x).txns = d.txns ∧
    (abortRow t d x).map = d.map := by
  unfold abortRow
  split
  · split
    · exact ⟨rfl, rfl, rfl, rfl⟩
    · split
      · split
        · refine ⟨(setLink_fields _ _ _).1, (setLink_fields _ _ _).2.1, (setLink_fields _ _ _).2.2.1, (setLink_fields _ _ _).2.2.2.1⟩
        · exact ⟨rfl, rfl, rfl, rfl⟩
      · simp only
        refine ⟨(setLink_fields _ _ _).1.trans ?_, (setLink_fields _ _ _).2.1.trans ?_,
          (setLink_fields _ _ _).2.2.1.trans ?_, (setLink_fields _ _ _).2.2.2.1.trans ?_⟩ <;>
        · split
          · rfl
          · split
            · rfl
            · split <;> rfl
  · split <;> exact ⟨rfl, rfl, rfl, rfl⟩

theorem aborts_fields (t : Nat) (order : List Rid) : ∀ d : Db V,
    (order.foldl (abortRow t) d).wm = d.wm ∧ (order.foldl (abortRow t) d).nextId = d.nextId ∧
    (order.foldl (abortRow t) d).txns = d.txns ∧ (order.foldl (abortRow t) d).map = d.map := by
  induction order with
  | nil => intro d; exact ⟨rfl, rfl, rfl, rfl⟩
  | cons r os ih =>
    intro d
    have h1 := ih (abortRow t d r)
    have h2 := abortRow_fields t d r
    simp only [List.foldl_cons]
    exact ⟨h1.1.trans h2.1, h1.2.1.trans h2.2.1, h1.2.2.1.trans h2.2.2.1, h1.2.2.2.trans h2.2.2.2⟩

theorem getLog_congr {d d' : Db V} (h1 : d'.txns = d.txns) (h2 : d'.map = d.map) (l) : getLog d' l = getLog d l := by
  unfold getLog; rw [h1, h2]

theorem rolled_congr {d d' : Db V} (h1 : d'.txns = d.txns) (h2 : d'.map = d.map) (t : Nat) (r : Rid)
    (h3 : d'.rows.get r = d.rows.get r) (h4 : d'.links.get r = d.links.get r) : rolled d' t r = rolled d t r := by
  unfold rolled
  simp only [getLog_congr h1 h2, h3, h4]

theorem aborts_eff (t : Nat) (order : List Rid) : ∀ d : Db V, order.Nodup → (∀ r ∈ order, OrigOk d r) →
    (order.foldl (abortRow t) d).wm = d.wm ∧ (order.foldl (abortRow t) d).nextId = d.nextId ∧
    (order.foldl (abortRow t) d).txns = d.txns ∧ (order.foldl (abortRow t) d).map = d.map ∧
    ∀ r, ((order.foldl (abortRow t) d).rows.get r, (order.foldl (abortRow t) d).links.get r) =
      if r ∈ order then rolled d t r else (d.rows.get r, d.links.get r) := by
  induction order with
  | nil => intro d _ _; simp
  | cons x os ih =>
    intro d hnd ho
    obtain ⟨e1, e2, e3, e4, e5⟩ := abortRow_eff t d x (ho x (by simp))
    have hnd' := List.nodup_cons.1 hnd
    have hne : ∀ r ∈ os, r ≠ x := fun r hr e => hnd'.1 (e ▸ hr)
    have h5 : ∀ r, r ≠ x → (abortRow t d x).rows.get r = d.rows.get r ∧ (abortRow t d x).links.get r = d.links.get r := by
      intro r hr
      have := e5 r
      rw [if_neg hr] at this
      exact ⟨congrArg Prod.fst this, congrArg Prod.snd this⟩
    obtain ⟨f1, f2, f3, f4, f5⟩ := ih (abortRow t d x) hnd'.2 (by
      intro r hr l u hl hg
      rw [(h5 r (hne r hr)).2] at hl
      rw [getLog_congr e3 e4] at hg
      exact ho r (by simp [hr]) l u hl hg)
    simp only [List.foldl_cons]
    refine ⟨f1.trans e1, f2.trans e2, f3.trans e3, f4.trans e4, ?_⟩
    intro r
    rw [f5]
    by_cases hr : r ∈ os
    · have := hne r hr
      rw [if_pos hr, if_pos (by simp [hr]), rolled_congr e3 e4 t r (h5 r this).1 (h5 r this).2]
    · rw [if_neg hr, e5]
      by_cases e : r = x
      · subst e; simp
      · simp [e, hr]

theorem inv_abort {d : Db V} {a : Abs V} {vers} (I : Inv d a vers) (t : Nat) (order : List Rid)
    (hok : OpOk d (.abort t order)) :
    Inv (abort d t order).1 (Spec.step a (.abort t order, (abort d t order).2)) vers := by
  unfold abort
  cases hg : d.txns.get t with
  | none => exact I
  | some tx =>
    simp only
    have hdone : tx.state ≠ .running → Spec.step a (.abort t order, .ok) = a := by
      intro hs
      have hw : ∀ rid, a.wrote t rid = none := by
        intro rid
        cases I.row rid with
        | absent _ _ _ hw => exact hw t
        | dead _ _ _ _ _ _ _ _ hw => exact hw t
        | committed _ _ _ _ _ _ _ _ _ _ hw => exact hw t
        | pending m v ty us h hc hr hin hw hno hl hch hf hcov =>
          refine hno t ?_
          intro e
          obtain ⟨hr1, hr2⟩ := hr
          rw [← e, hg] at hr1
          rw [← Option.some.inj hr1] at hr2
          exact hs hr2
      show Spec.clear a t = a
      obtain ⟨cm, sn, wr⟩ := a
      simp only [Spec.clear, Abs.mk.injEq, true_and]
      funext x
      split
      · next e => funext rid; rw [e]; exact (hw rid).symm
      · rfl
    rcases I.states t tx hg with hs | hs | hs
    · rw [hs]
      simp only
      have ht : Running d t tx := ⟨hg, hs⟩
      obtain ⟨hperm, hnd, hts⟩ := hok tx hg
      have hpend : ∀ rid ∈ tx.writes, ∃ m v us, d.rows.get rid = some (m, v) ∧ m.cts = none ∧ m.creator = t ∧
          (∀ x, x ≠ t → a.wrote x rid = none) ∧
          d.links.get rid = m.undo.map (fun i => (t, i)) ∧ Chain d rid (some t) none (d.links.get rid) us ∧
          firstC us = (vers rid).head? ∧ Cov d none us (vers rid) := by
        intro rid hin
        obtain ⟨m, v, h1, h2, h3⟩ := I.wr t tx ht rid hin
        cases I.row rid with
        | absent h => rw [h1] at h; cases h
        | dead m' v' h' _ _ hf => rw [h1] at h'; cases h'; exact absurd (h2 ▸ hf) (running_not_finished ht)
        | committed m' v' _ _ _ _ h' hc => rw [h1] at h'; cases h'; rw [h3] at hc; cases hc
        | pending m' v' ty us h hc hr hin hw hno hl hch hf hcov =>
          rw [h1] at h; cases h
          rw [h2] at hno hl hch
          exact ⟨m, v, us, h1, hc, h2, hno, hl, hch, hf, hcov⟩
      have horig : ∀ r ∈ order, OrigOk d r := by
        intro r hr l u hl hlog
        obtain ⟨m, v, us, -, -, -, -, -, hch, -, -⟩ := hpend r (hperm.mem_iff.1 hr)
        rw [hl] at hch
        cases hch with
        | cut c hs => cases hs
        | cons hl' ho => rw [hlog] at hl'; cases hl'; exact ho
      obtain ⟨f1, f2, f3, f4, f5⟩ := aborts_eff t order d hnd horig
      generalize hd1 : order.foldl (abortRow t) d = d1 at f1 f2 f3 f4 f5 ⊢
      refine inv_prune ?_
      have htx : ∀ x, (AMap.set d1.txns t { tx with state := .aborted }).get x =
          if x = t then some { tx with state := .aborted } else d.txns.get x := by
        intro x; rw [get_set', f3]
      have E : Ext d { d1 with wm := Watermark.removeTxn d1.wm tx.rts, map := ins t d1.map, txns := d1.txns.set t { tx with state := .aborted } } (fun x => x ≠ t) := by
        refine ext_finish (tx' := { tx with state := .aborted }) I ht htx rfl (by simp) ?_ ?_
        · intro x; simp only [mem_ins, f4]
        · simp only [Watermark.removeTxn, Watermark.update_nextTs, f1]; exact Nat.le_refl _
      have hnt : (Watermark.removeTxn d1.wm tx.rts).nextTs = d.wm.nextTs := by
        simp only [Watermark.removeTxn, Watermark.update_nextTs, f1]
      have hact : ∀ r, r ∈ (Watermark.removeTxn d1.wm tx.rts).active ↔ r ∈ d.wm.active ∧ r ≠ tx.rts := by
        intro r; simp [Watermark.removeTxn, f1]
      generalize hd3 : ({ d1 with wm := Watermark.removeTxn d1.wm tx.rts, map := ins t d1.map, txns := d1.txns.set t { tx with state := .aborted } } : Db V) = d3 at E
      have g1 : d3.wm = Watermark.removeTxn d1.wm tx.rts := by rw [← hd3]
      have g2 : d3.nextId = d.nextId := by rw [← hd3]; exact f2
      have g3 : ∀ x, d3.txns.get x = if x = t then some { tx with state := .aborted } else d.txns.get x := by
        rw [← hd3]; exact htx
      have g4 : ∀ x, x ∈ d3.map ↔ x = t ∨ x ∈ d.map := by intro x; rw [← hd3]; simp only [mem_ins, f4]
      have g5 : ∀ r, (d3.rows.get r, d3.links.get r) = if r ∈ order then rolled d t r else (d.rows.get r, d.links.get r) := by
        rw [← hd3]; exact f5
      have hrun : ∀ x ty, Running d3 x ty → x ≠ t ∧ Running d x ty := by
        intro x ty ⟨h1, h2⟩
        rw [g3] at h1
        split at h1
        · rw [← Option.some.inj h1] at h2; simp at h2
        · next e => exact ⟨e, h1, h2⟩
      have hfin : ∀ c, c ≤ tx.rts → FinishedBy d3 t c := fun c hc =>
        ⟨{ tx with state := .aborted }, by rw [g3, if_pos rfl], Or.inr ⟨rfl, hc⟩⟩
      have hF : Finished d3 t := ⟨{ tx with state := .aborted }, by rw [g3, if_pos rfl], by simp⟩
      show Inv d3 (Spec.clear a t) vers
      constructor
      · have := Watermark.fresh_step d.wm I.wm (.removeTxn tx.rts) trivial
        rw [g1, f1]; exact this.1
      · intro x ty h
        rw [g3] at h; rw [g2]
        split at h
        · next e => rw [e]; exact I.ids t tx hg
        · exact I.ids x ty h
      · intro x ty h
        rw [g3] at h
        split at h
        · rw [← Option.some.inj h]; simp
        · exact I.states x ty h
      · intro x ty h
        rw [g1, hact]
        obtain ⟨h1, h2⟩ := hrun x ty h
        exact ⟨I.act x ty h2, fun e => h1 (I.inj x t ty tx h2.1 hg e)⟩
      · intro x ty h
        rw [g3] at h; rw [g1, hnt]
        split at h
        · rw [← Option.some.inj h]; exact I.lt t tx hg
        · exact I.lt x ty h
      · have key : ∀ x ty, d3.txns.get x = some ty → ∃ tz, d.txns.get x = some tz ∧ tz.rts = ty.rts := by
          intro x ty h
          rw [g3] at h
          split at h
          · next e => exact ⟨tx, by rw [e]; exact hg, by rw [← Option.some.inj h]⟩
          · exact ⟨ty, h, rfl⟩
        intro x y tx1 ty1 hx hy e
        obtain ⟨z1, h1, h2⟩ := key x tx1 hx
        obtain ⟨z2, h3, h4⟩ := key y ty1 hy
        exact I.inj x y z1 z2 h1 h3 (by rw [h2, h4, e])
      · intro x ty h
        rw [g4]; exact Or.inr (I.inMap x ty (hrun x ty h).2)
      · intro x ty h rid
        exact I.snap x ty (hrun x ty h).2 rid
      · intro rid; exact I.com rid
      · intro rid; rw [g1, hnt]; exact I.versLt rid
      · intro x ty h rid hin
        obtain ⟨h1, h2⟩ := hrun x ty h
        obtain ⟨m, v, h3, h4, h5⟩ := I.wr x ty h2 rid hin
        have hnot : rid ∉ order := by
          intro hr
          obtain ⟨m', v', us, h6, -, h7, -⟩ := hpend rid (hperm.mem_iff.1 hr)
          rw [h3] at h6; cases h6
          exact h1 (h4.symm.trans h7)
        have := g5 rid
        rw [if_neg hnot] at this
        exact ⟨m, v, (congrArg Prod.fst this).trans h3, h4, h5⟩
      · intro rid
        have hg5 := g5 rid
        by_cases hin : rid ∈ order
        · rw [if_pos hin] at hg5
          have hgr : d3.rows.get rid = (rolled d t rid).1 := congrArg Prod.fst hg5
          have hgl : d3.links.get rid = (rolled d t rid).2 := congrArg Prod.snd hg5
          obtain ⟨m, v, us, h1, h2, h3, h4, h5, h6, h7, h8⟩ := hpend rid (hperm.mem_iff.1 hin)
          have hw : ∀ x, (Spec.clear a t).wrote x rid = none := by
            intro x
            simp only [Spec.clear]
            split
            · rfl
            · next e => exact h4 x e
          cases hu : m.undo with
          | none =>
            rw [hu] at h5
            simp only [Option.map_none] at h5
            rw [h5] at h6
            cases h6
            have hv : vers rid = [] := by
              simp only [firstC] at h7
              cases hv : vers rid with
              | nil => rfl
              | cons _ _ => rw [hv] at h7; cases h7
            simp only [rolled, h5, h1, Option.map_some] at hgr hgl
            exact .dead _ _ hgr rfl rfl hF hgl hv hw
          | some i =>
            rw [hu] at h5
            simp only [Option.map_some] at h5
            rw [h5] at h6
            cases h6 with
            | cut c hs => cases hs
            | @cons _ _ u us' hl ho hk hc hn =>
              have hne := hts rid hin _ u h5 hl
              cases hu' : u.ts with
              | none => exact absurd hu' hne
              | some c =>
                have hle : c ≤ tx.rts := by
                  rcases hk with ⟨-, -, tx', ⟨hr1, -⟩, hr3⟩ | ⟨c', hs, -⟩
                  · rw [hg] at hr1; cases hr1; exact hr3 c hu'
                  · cases hs
                simp only [rolled, h5, hl, h1, Option.isSome_some, if_true, hu'] at hgr hgl
                have hv : vers rid = (c, some u.val) :: (vers rid).tail := by
                  simp only [firstC, hu'] at h7
                  cases hv : vers rid with
                  | nil => rw [hv] at h7; cases h7
                  | cons e l =>
                    rw [hv] at h7
                    simp only [List.head?_cons, Option.some.injEq] at h7
                    rw [← h7]; rfl
                have hseen : seen' u none = some c := by simp [seen', hu']
                rw [hseen] at hn
                have hch : Chain d3 rid none (some c) (nextLink u) us' :=
                  chain_finish E (hfin c hle) hn (some c) (fun h => by cases h) (fun _ h => h)
                have hcov : Cov d3 (some c) us' (vers rid).tail := by
                  intro r hr hs
                  have h9 := h8 r (E.rel r hr) (fun _ h => by cases h)
                  rw [hv] at h9
                  have := hs c rfl
                  simp only [scan, hu', newest] at h9
                  rw [if_neg (by omega), if_neg (by omega)] at h9
                  exact h9
                refine .committed _ _ c (vers rid).tail us' (u :: us') hgr rfl hF ?_ hw ?_ hcov ?_ ?_
                · exact hv
                · rw [hgl]; exact hch
                · refine .cons (E.log _ _ hl) ho (Or.inr ⟨c, rfl, hfin c hle⟩) ?_ ?_
                  · rcases hc with hc | hc
                    · exact Or.inr (Option.some.inj hc ▸ hF)
                    · exact Or.inr (E.finished hc)
                  · have hseen : seen' u (some c) = some c := by simp [seen', hu']
                    rw [hseen]; exact hch
                · intro r hr hs
                  have := hs c rfl
                  simp only [scan, hu']
                  rw [if_neg (by omega)]
                  exact hcov r hr hs
        · rw [if_neg hin] at hg5
          have hgr : d3.rows.get rid = d.rows.get rid := congrArg Prod.fst hg5
          have hgl : d3.links.get rid = d.links.get rid := congrArg Prod.snd hg5
          refine row_ext E (I.row rid) hgr hgl ?_ ?_
          · intro x
            simp only [Spec.clear]
            split
            · next e =>
              rw [e]
              cases hw : a.wrote t rid with
              | none => rfl
              | some w =>
                obtain ⟨_, _, _, _, _, _, h4, _⟩ := row_owner I ht hw
                exact absurd (hperm.mem_iff.2 h4) hin
            · rfl
          · intro m v ty h hc hr e
            subst e
            cases I.row rid with
            | absent h' => rw [h] at h'; cases h'
            | dead m' v' h' _ _ hf => rw [h] at h'; cases h'; exact absurd hf (running_not_finished hr)
            | committed m' v' _ _ _ _ h' hc' => rw [h] at h'; cases h'; rw [hc] at hc'; cases hc'
            | pending m' v' ty' us h' hc' hr' hin' =>
              rw [h] at h'; cases h'
              obtain ⟨hr1, -⟩ := hr'
              rw [hg] at hr1; cases hr1
              exact hin (hperm.mem_iff.2 hin')
    · rw [hs]
      simp only
      rw [hdone (by rw [hs]; simp)]
      exact I
    · rw [hs]
      simp only
      rw [hdone (by rw [hs]; simp)]
      exact I

/-! ## Whole histories -/

theorem inv_new : Inv (Db.new : Db V) Spec.init (fun _ => []) := by
  refine ⟨⟨Watermark.inv_new, by simp [Db.new, Watermark.new], by simp [Db.new, Watermark.new]⟩, ?_, ?_, ?_, ?_, ?_, ?_, ?_, ?_, ?_, ?_, ?_⟩
  · intro x tx h; cases h
  · intro x tx h; cases h
  · intro x tx h; cases h.1
  · intro x tx h; cases h
  · intro x y tx ty h; cases h
  · intro x tx h; cases h.1
  · intro x tx h; cases h.1
  · intro rid; rfl
  · intro rid e he; cases he
  · intro x tx h; cases h.1
  · intro rid; exact .absent rfl rfl rfl (fun _ => rfl)

theorem inv_step {d : Db V} {a : Abs V} {vers} (I : Inv d a vers) (o : Op V) (hok : OpOk d o) :
    ∃ vers', Inv (step d o).1 (Spec.step a (o, (step d o).2)) vers' := by
  cases o with
  | begin iso => exact ⟨vers, inv_begin I iso⟩
  | insert t v rid => exact ⟨vers, inv_insert I t v rid hok⟩
  | update t who v rid => exact ⟨vers, inv_update I t who v rid hok⟩
  | delete t rid => exact ⟨vers, inv_delete I t rid hok⟩
  | commit t order => exact inv_commit I t order hok
  | abort t order => exact ⟨vers, inv_abort I t order hok⟩

theorem inv_run (os : List (Op V)) : ∀ {d : Db V} {a : Abs V} {vers}, Inv d a vers → RunOk d os →
    ∃ vers', Inv (run d os).1 (Spec.run a (run d os).2) vers' := by
  induction os with
  | nil => intro d a vers I _; exact ⟨vers, I⟩
  | cons o os ih =>
    intro d a vers I h
    obtain ⟨v', I'⟩ := inv_step I o h.1
    exact ih I' h.2

/-! ## Reading -/

/-- What the caller of a read learns: a value, or that there is no row (`get_tuple` returns an error in all other
cases); nothing if the walk has not ended. -/
def Found.answer : Found V → Option (Option V)
  | .val v => some (some v)
  | .deleted | .noVersion | .missing => some none
  | .diverges => none

theorem walk_scan {d : Db V} {t tx} (ht : Running d t tx) {rid o s l us} (h : Chain d rid o s l us)
    (ho : o ≠ some t) (hs : ∀ c, s = some c → tx.rts < c) :
    ∀ n, us.length < n → (walk d t tx.rts n l).answer = some (scan us tx.rts) := by
  induction h with
  | nil s => intro n _; cases n <;> rfl
  | cut c hs' hc =>
    have h1 := hc tx.rts (Or.inr ⟨t, tx, ht, rfl⟩)
    have h2 := hs c hs'
    omega
  | @cons s l u us hl horig hk hc hn ih =>
    intro n hn'
    cases n with
    | zero => simp at hn'
    | succ n =>
      have hn'' : us.length < n := by simp at hn'; omega
      have hcr : u.prev.txn ≠ t := by
        intro e
        rcases hc with hc | hc
        · rw [e] at hc; exact ho hc
        · rw [e] at hc; exact running_not_finished ht hc
      simp only [walk, hl, visibilityStatus, prevMeta, horig, Option.isSome_some, if_true, hcr, if_false]
      cases hts : u.ts with
      | none =>
        simp only [scan, hts]
        exact ih (by simp only [seen', hts]; exact hs) n hn''
      | some c =>
        simp only [scan, hts]
        by_cases hc' : c ≤ tx.rts
        · rw [if_neg (by omega), if_pos hc']; rfl
        · rw [if_pos (by omega), if_neg hc']
          exact ih (by simp only [seen', hts]; intro c' e; cases e; omega) n hn''

theorem getTuple_spec {d : Db V} {a : Abs V} {vers} (I : Inv d a vers) {t tx} (ht : Running d t tx)
    (hiso : tx.iso = .repeatableRead ∨ tx.iso = .serializable ∨ tx.iso = .snapshot) (rid : Rid) :
    ∃ n0, ∀ n, n0 ≤ n → (getTuple n d t tx rid).answer = some (Spec.read a t rid) := by
  have hget : ∀ n m v, d.rows.get rid = some (m, v) →
      getTuple n d t tx rid = getVisibleVersion n d t tx.rts rid m v := by
    intro n m v h
    unfold getTuple
    rw [h]
    rcases hiso with e | e | e <;> simp only [e]
  have hsn := I.snap t tx ht rid
  cases I.row rid with
  | absent h hl hv hw =>
    refine ⟨0, fun n _ => ?_⟩
    simp only [getTuple, h, Found.answer, Spec.read, hw, Option.getD_none, hsn, hv, newest]
  | dead m v h hc hd hf hl hv hw =>
    refine ⟨0, fun n _ => ?_⟩
    have hne : m.creator ≠ t := fun e => running_not_finished ht (e ▸ hf)
    rw [hget n m v h]
    simp only [getVisibleVersion, visibilityStatus, hne, if_false, hc, hl, Spec.read, hw, Option.getD_none, hsn, hv, newest]
    cases n <;> rfl
  | pending m v ty us h hc hr hin hw hno hl hch hf hcov =>
    by_cases e : m.creator = t
    · refine ⟨0, fun n _ => ?_⟩
      rw [hget n m v h]
      rw [e] at hw
      simp only [getVisibleVersion, visibilityStatus, e, if_true, Spec.read, hw, Option.getD_some, content]
      cases m.deleted <;> rfl
    · refine ⟨us.length + 1, fun n hn => ?_⟩
      rw [hget n m v h]
      simp only [getVisibleVersion, visibilityStatus, e, if_false, hc, Spec.read, hno t (Ne.symm e), Option.getD_none, hsn]
      rw [walk_scan ht hch (by simp [e]) (fun _ h => by cases h) n (by omega),
        hcov tx.rts (Or.inr ⟨t, tx, ht, rfl⟩) (fun _ h => by cases h)]
  | committed m v c rest us us2 h hc hf hv hw hch hcov hch2 hcov2 =>
    have hne : m.creator ≠ t := fun e => running_not_finished ht (e ▸ hf)
    refine ⟨us.length + 1, fun n hn => ?_⟩
    rw [hget n m v h]
    simp only [getVisibleVersion, visibilityStatus, hne, if_false, hc, Spec.read, hw, Option.getD_none, hsn, hv, newest]
    by_cases hcr : c ≤ tx.rts
    · rw [if_neg (by omega), if_pos hcr]
      simp only [content]
      cases m.deleted <;> rfl
    · rw [if_pos (by omega), if_neg hcr]
      rw [walk_scan ht hch (by simp) (fun _ h => by cases h; omega) n (by omega),
        hcov tx.rts (Or.inr ⟨t, tx, ht, rfl⟩) (fun _ h => by cases h; omega)]

end Verif.Mvcc
