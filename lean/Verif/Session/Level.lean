import Verif.Session.Props

/-!
# C87: every transaction runs at the isolation level that was asked for
-/

namespace Verif.Session

open Verif.Locks (Iso)

variable {D : Type}

/-- The level of a session: that of its latest BEGIN that was granted, READ COMMITTED before any. -/
def level (c : Nat) (l : Iso) : List (Call D × Reply) → Iso
  | [] => l
  | (.begin c' iso, .results) :: xs => level c (if c' = c then iso else l) xs
  | _ :: xs => level c l xs

/-- The transactions that were there keep their level, the sessions are as they were. -/
structure Keeps (w w' : World D) : Prop where
  txn : ∀ t iso s, w.txn t = some (iso, s) → ∃ s', w'.txn t = some (iso, s')
  client : w'.client = w.client
  count : w'.nextClient = w.nextClient
  next : w.next ≤ w'.next

/-- All transactions are older than the next. -/
def Old (w : World D) : Prop := ∀ t, w.next ≤ t → w.txn t = none

theorem Keeps.refl (w : World D) : Keeps w w := ⟨fun _ _ s h => ⟨s, h⟩, rfl, rfl, Nat.le_refl _⟩

theorem Keeps.trans {w w' w'' : World D} (h : Keeps w w') (h' : Keeps w' w'') : Keeps w w'' :=
  ⟨fun t iso s e => by obtain ⟨s', e'⟩ := h.txn t iso s e; exact h'.txn t iso s' e', h'.client.trans h.client, h'.count.trans h.count, Nat.le_trans h.next h'.next⟩

theorem keeps_begin {w : World D} (h : Old w) (iso : Iso) : Keeps w (w.begin iso).1 ∧ Old (w.begin iso).1 := by
  refine ⟨⟨fun t i s e => ⟨s, ?_⟩, rfl, rfl, Nat.le_succ _⟩, fun t ht => ?_⟩
  · show (if t = w.next then _ else w.txn t) = _
    rw [if_neg]
    · exact e
    · rintro rfl
      rw [h _ (Nat.le_refl _)] at e
      cases e
  · have ht : w.next + 1 ≤ t := ht
    show (if t = w.next then _ else w.txn t) = _
    rw [if_neg (by omega)]
    exact h t (by omega)

theorem keeps_commit {w : World D} (h : Old w) (t : Nat) : Keeps w (w.commit t).1 ∧ Old (w.commit t).1 := by
  unfold World.commit
  split
  · rename_i iso e
    refine ⟨⟨fun t' i s e' => ?_, rfl, rfl, Nat.le_refl _⟩, fun t' ht' => ?_⟩
    · show ∃ s', (if t' = t then _ else w.txn t') = some (i, s')
      split
      · rename_i x; subst x; rw [e] at e'; cases e'; exact ⟨_, rfl⟩
      · exact ⟨s, e'⟩
    · show (if t' = t then _ else w.txn t') = _
      have := h t' ht'
      rw [if_neg]
      · exact this
      · rintro rfl; rw [e] at this; cases this
  · exact ⟨.refl w, h⟩
  · exact ⟨.refl w, h⟩

theorem keeps_abort {w : World D} (h : Old w) (t : Nat) : Keeps w (w.abort t) ∧ Old (w.abort t) := by
  unfold World.abort
  split
  · rename_i iso e
    refine ⟨⟨fun t' i s e' => ?_, rfl, rfl, Nat.le_refl _⟩, fun t' ht' => ?_⟩
    · show ∃ s', (if t' = t then _ else w.txn t') = some (i, s')
      split
      · rename_i x; subst x; rw [e] at e'; cases e'; exact ⟨_, rfl⟩
      · exact ⟨s, e'⟩
    · show (if t' = t then _ else w.txn t') = _
      have := h t' ht'
      rw [if_neg]
      · exact this
      · rintro rfl; rw [e] at this; cases this
  · exact ⟨.refl w, h⟩

theorem keeps_factoryCommit (env : Env D) {w : World D} (h : Old w) (t : Nat) : Keeps w (w.factoryCommit env t).1 ∧ Old (w.factoryCommit env t).1 := by
  unfold World.factoryCommit
  simp only
  split <;> exact keeps_commit h t

theorem keeps_execute (env : Env D) {w : World D} (h : Old w) (t : Nat) (s : Stmt D) : Keeps w (w.execute env t s).1 ∧ Old (w.execute env t s).1 := by
  cases s with
  | data d =>
    unfold World.execute
    simp only
    split
    · exact ⟨⟨fun _ _ s e => ⟨s, e⟩, rfl, rfl, Nat.le_refl _⟩, h⟩
    · exact ⟨.refl w, h⟩
  | begin iso => exact keeps_begin h iso
  | commit chain =>
    unfold World.execute
    simp only
    have hk := keeps_commit h t
    split
    · exact hk
    · cases chain
      · exact hk
      · have hb := keeps_begin hk.2 ((w.txn t).map (·.1) |>.getD .readCommitted)
        exact ⟨hk.1.trans hb.1, hb.2⟩
  | rollback chain =>
    unfold World.execute
    have hk := keeps_abort h t
    cases chain
    · exact hk
    · have hb := keeps_begin hk.2 ((w.txn t).map (·.1) |>.getD .readCommitted)
      exact ⟨hk.1.trans hb.1, hb.2⟩

theorem keeps_query (env : Env D) {w : World D} (h : Old w) (c : Nat) (s : Stmt D) : Keeps w (w.query env c s).1 ∧ Old (w.query env c s).1 := by
  unfold World.query
  match w.client c with
  | none => exact ⟨.refl w, h⟩
  | some ⟨some t, i⟩ =>
    have e := keeps_execute env h t s
    match hx : w.execute env t s with
    | (w', none) => rw [hx] at e; simp only [hx]; exact e
    | (w', some b) => rw [hx] at e; simp only [hx]; exact e
  | some ⟨none, i⟩ =>
    have hb := keeps_begin h i
    have e := keeps_execute env hb.2 (w.begin i).2 s
    match hx : (w.begin i).1.execute env (w.begin i).2 s with
    | (w', none) =>
      rw [hx] at e
      simp only [hx]
      have ha := keeps_abort e.2 (w.begin i).2
      exact ⟨(hb.1.trans e.1).trans ha.1, ha.2⟩
    | (w', some b) =>
      rw [hx] at e
      have e2 := keeps_factoryCommit env e.2 (w.begin i).2
      match hy : w'.factoryCommit env (w.begin i).2 with
      | (w2, true) => rw [hy] at e2; simp only [hx, hy]; exact ⟨(hb.1.trans e.1).trans e2.1, e2.2⟩
      | (w2, false) =>
        rw [hy] at e2
        simp only [hx, hy]
        have ha := keeps_abort e2.2 (w.begin i).2
        exact ⟨((hb.1.trans e.1).trans e2.1).trans ha.1, ha.2⟩

theorem keeps_prepare (env : Env D) {w : World D} (h : Old w) (c : Nat) (s : Stmt D) : Keeps w (w.prepare env c s).1 ∧ Old (w.prepare env c s).1 := by
  unfold World.prepare
  match w.client c with
  | none => exact ⟨.refl w, h⟩
  | some ⟨some t, i⟩ =>
    have e := keeps_execute env h t s
    match hx : w.execute env t s with
    | (w', none) => rw [hx] at e; simp only [hx]; exact e
    | (w', some true) => rw [hx] at e; simp only [hx]; exact e
    | (w', some false) => rw [hx] at e; simp only [hx]; exact e
  | some ⟨none, i⟩ =>
    have hb := keeps_begin h i
    have e := keeps_execute env hb.2 (w.begin i).2 s
    match hx : (w.begin i).1.execute env (w.begin i).2 s with
    | (w', none) | (w', some false) =>
      rw [hx] at e
      simp only [hx]
      have ha := keeps_abort e.2 (w.begin i).2
      exact ⟨(hb.1.trans e.1).trans ha.1, ha.2⟩
    | (w', some true) =>
      rw [hx] at e
      have e2 := keeps_factoryCommit env e.2 (w.begin i).2
      simp only [hx]
      split
      · exact ⟨hb.1.trans e.1, e.2⟩
      · match hy : w'.factoryCommit env (w.begin i).2 with
        | (w2, true) => rw [hy] at e2; simp only; exact ⟨(hb.1.trans e.1).trans e2.1, e2.2⟩
        | (w2, false) =>
          rw [hy] at e2
          simp only
          have ha := keeps_abort e2.2 (w.begin i).2
          exact ⟨((hb.1.trans e.1).trans e2.1).trans ha.1, ha.2⟩

theorem keeps_runPrepared (env : Env D) {w : World D} (h : Old w) (c n : Nat) : Keeps w (w.runPrepared env c n).1 ∧ Old (w.runPrepared env c n).1 := by
  unfold World.runPrepared
  match w.client c, w.prepared n with
  | none, none | none, some _ | some ⟨none, _⟩, none | some ⟨some _, _⟩, none => exact ⟨.refl w, h⟩
  | some ⟨some t, _⟩, some d =>
    have e := keeps_execute env h t (.data d)
    simp only
    match hx : w.execute env t (.data d) with
    | (w', none) => rw [hx] at e; simp only [hx]; exact e
    | (w', some true) => rw [hx] at e; simp only [hx]; exact e
    | (w', some false) => rw [hx] at e; simp only [hx]; exact e
  | some ⟨none, i⟩, some d =>
    have hb := keeps_begin h i
    have e := keeps_execute env hb.2 (w.begin i).2 (.data d)
    match hx : (w.begin i).1.execute env (w.begin i).2 (.data d) with
    | (w', none) | (w', some false) =>
      rw [hx] at e
      simp only [hx]
      have ha := keeps_abort e.2 (w.begin i).2
      exact ⟨(hb.1.trans e.1).trans ha.1, ha.2⟩
    | (w', some true) =>
      rw [hx] at e
      have e2 := keeps_factoryCommit env e.2 (w.begin i).2
      simp only [hx]
      match hy : w'.factoryCommit env (w.begin i).2 with
      | (w2, true) => rw [hy] at e2; simp only [hy]; exact ⟨(hb.1.trans e.1).trans e2.1, e2.2⟩
      | (w2, false) => rw [hy] at e2; simp only [hy]; exact ⟨(hb.1.trans e.1).trans e2.1, e2.2⟩

/-- What holds of the sessions `L` of which levels. -/
structure Levels (w : World D) (L : Nat → Iso) : Prop where
  old : Old w
  iso : ∀ c x, w.client c = some x → x.iso = L c
  young : ∀ c, w.nextClient ≤ c → w.client c = none ∧ L c = .readCommitted

theorem Levels.keep {w w' : World D} {L : Nat → Iso} (h : Levels w L) (hk : Keeps w w' ∧ Old w') : Levels w' L :=
  ⟨hk.2, by rw [hk.1.client]; exact h.iso, by rw [hk.1.client, hk.1.count]; exact h.young⟩

theorem Levels.set {w : World D} {L : Nat → Iso} (h : Levels w L) {c : Nat} {x : Client} (hc : w.client c = some x) {L' : Nat → Iso} {y : Option Client}
    (hy : ∀ x, y = some x → x.iso = L' c) (hL : ∀ c', c' ≠ c → L' c' = L c') : Levels (w.setClient c y) L' := by
  refine ⟨h.old, fun c' x' e => ?_, fun c' hc' => ?_⟩
  · have e : (if c' = c then y else w.client c') = some x' := e
    split at e
    · rename_i e'; rw [e']; exact hy x' e
    · rename_i e'; rw [hL c' e']; exact h.iso c' x' e
  · have hyg := h.young c' hc'
    have hne : c' ≠ c := by rintro rfl; rw [hc] at hyg; cases hyg.1
    exact ⟨by show (if c' = c then y else w.client c') = none; rw [if_neg hne]; exact hyg.1, by rw [hL c' hne]; exact hyg.2⟩

theorem Levels.step {w : World D} {L : Nat → Iso} (env : Env D) (h : Levels w L) (x : Call D) :
    Levels (w.step env x).1 (fun c => level c (L c) [(x, (w.step env x).2)]) ∧ ∀ t iso s, w.txn t = some (iso, s) → ∃ s', (w.step env x).1.txn t = some (iso, s') := by
  have triv : ∀ (x : Call D) (r : Reply), (∀ c iso, x ≠ .begin c iso) → (fun c => level c (L c) [(x, r)]) = L := by
    intro x r hx
    funext c
    cases x <;> cases r <;> first | rfl | exact absurd rfl (hx _ _)
  match x with
  | .connect =>
    refine ⟨?_, fun t iso s e => ⟨s, e⟩⟩
    rw [triv _ _ (by intros _ _ e; cases e)]
    refine ⟨h.old, fun c' x e => ?_, fun c' hc' => ?_⟩
    · have e : (if c' = w.nextClient then some ⟨none, .readCommitted⟩ else w.client c') = some x := e
      split at e
      · rename_i e'
        cases e
        rw [e', (h.young _ (Nat.le_refl _)).2]
      · exact h.iso c' x e
    · have hc' : w.nextClient + 1 ≤ c' := hc'
      have := h.young c' (by omega)
      exact ⟨by show (if c' = w.nextClient then _ else w.client c') = _; rw [if_neg (by omega)]; exact this.1, this.2⟩
  | .query c s =>
    rw [triv _ _ (by intros _ _ e; cases e)]
    exact ⟨h.keep (keeps_query env h.old c s), (keeps_query env h.old c s).1.txn⟩
  | .begin c iso =>
    match hc : w.client c with
    | none => simp only [World.step, World.startTxn, hc, level]; exact ⟨h, fun t iso s e => ⟨s, e⟩⟩
    | some ⟨some t, i⟩ => simp only [World.step, World.startTxn, hc, level]; exact ⟨h, fun t iso s e => ⟨s, e⟩⟩
    | some ⟨none, i⟩ =>
      simp only [World.step, World.startTxn, hc, level]
      have hb := keeps_begin h.old iso
      refine ⟨(h.keep hb).set (c := c) (x := ⟨none, i⟩) (by rw [hb.1.client]; exact hc) (fun x e => ?_) (fun c' hne => ?_), hb.1.txn⟩
      · cases e; rw [if_pos rfl]
      · rw [if_neg (Ne.symm hne)]
  | .commit c =>
    rw [triv _ _ (by intros _ _ e; cases e)]
    match hc : w.client c with
    | none => simp only [World.step, World.commitTxn, hc]; exact ⟨h, fun t iso s e => ⟨s, e⟩⟩
    | some ⟨none, i⟩ => simp only [World.step, World.commitTxn, hc]; exact ⟨h, fun t iso s e => ⟨s, e⟩⟩
    | some ⟨some t, i⟩ =>
      simp only [World.step, World.commitTxn, hc]
      have h1 : Levels (w.setClient c (some ⟨none, i⟩)) L := h.set hc (fun x e => by cases e; exact h.iso c ⟨some t, i⟩ hc) (fun _ _ => rfl)
      have hk := keeps_factoryCommit env h1.old t
      match hy : (w.setClient c (some ⟨none, i⟩)).factoryCommit env t with
      | (w2, true) => rw [hy] at hk; simp only [hy]; exact ⟨h1.keep hk, hk.1.txn⟩
      | (w2, false) => rw [hy] at hk; simp only [hy]; exact ⟨h1.keep hk, hk.1.txn⟩
  | .rollback c =>
    rw [triv _ _ (by intros _ _ e; cases e)]
    match hc : w.client c with
    | none => simp only [World.step, World.rollbackTxn, hc]; exact ⟨h, fun t iso s e => ⟨s, e⟩⟩
    | some ⟨none, i⟩ => simp only [World.step, World.rollbackTxn, hc]; exact ⟨h, fun t iso s e => ⟨s, e⟩⟩
    | some ⟨some t, i⟩ =>
      simp only [World.step, World.rollbackTxn, hc]
      have h1 : Levels (w.setClient c (some ⟨none, i⟩)) L := h.set hc (fun x e => by cases e; exact h.iso c ⟨some t, i⟩ hc) (fun _ _ => rfl)
      have hk := keeps_abort h1.old t
      exact ⟨h1.keep hk, hk.1.txn⟩
  | .prepare c s =>
    rw [triv _ _ (by intros _ _ e; cases e)]
    exact ⟨h.keep (keeps_prepare env h.old c s), (keeps_prepare env h.old c s).1.txn⟩
  | .execute c n =>
    rw [triv _ _ (by intros _ _ e; cases e)]
    exact ⟨h.keep (keeps_runPrepared env h.old c n), (keeps_runPrepared env h.old c n).1.txn⟩
  | .close c n =>
    rw [triv _ _ (by intros _ _ e; cases e)]
    match hc : w.client c with
    | none => simp only [World.step, World.closeStmt, hc]; exact ⟨h, fun t iso s e => ⟨s, e⟩⟩
    | some x => simp only [World.step, World.closeStmt, hc]; exact ⟨⟨h.old, h.iso, h.young⟩, fun t iso s e => ⟨s, e⟩⟩
  | .disconnect c =>
    rw [triv _ _ (by intros _ _ e; cases e)]
    match hc : w.client c with
    | none => simp only [World.step, hc]; exact ⟨h, fun t iso s e => ⟨s, e⟩⟩
    | some ⟨none, i⟩ => simp only [World.step, hc]; exact ⟨h.set hc (fun x e => by cases e) (fun _ _ => rfl), fun t iso s e => ⟨s, e⟩⟩
    | some ⟨some t, i⟩ =>
      simp only [World.step, hc]
      have h1 : Levels (w.setClient c none) L := h.set hc (fun x e => by cases e) (fun _ _ => rfl)
      have hk := keeps_abort h1.old t
      exact ⟨h1.keep hk, hk.1.txn⟩

theorem level_cons (c : Nat) (l : Iso) (y : Call D × Reply) (ys : List (Call D × Reply)) : level c l (y :: ys) = level c (level c l [y]) ys := by
  match y with
  | (.begin _ _, .results) => rfl
  | (.begin _ _, .error) => rfl
  | (.connect, r) | (.query _ _, r) | (.commit _, r) | (.rollback _, r) | (.prepare _ _, r) | (.execute _ _, r) | (.close _ _, r) | (.disconnect _, r) => cases r <;> rfl

theorem Levels.run {w : World D} {L : Nat → Iso} (env : Env D) (h : Levels w L) (xs : List (Call D)) : Levels (w.run env xs).1 (fun c => level c (L c) (w.run env xs).2) := by
  induction xs generalizing w L with
  | nil => exact h
  | cons x xs ih =>
    have := ih (h.step env x).1
    have e : (fun c => level c (L c) (w.run env (x :: xs)).2) = fun c => level c (level c (L c) [(x, (w.step env x).2)]) ((w.step env x).1.run env xs).2 := by
      funext c
      exact level_cons ..
    rw [e]
    exact this

theorem keeps_run {w : World D} {L : Nat → Iso} (env : Env D) (h : Levels w L) (xs : List (Call D)) {t : Nat} {iso : Iso} {s : St} (e : w.txn t = some (iso, s)) :
    ∃ s', (w.run env xs).1.txn t = some (iso, s') := by
  induction xs generalizing w L s with
  | nil => exact ⟨s, e⟩
  | cons x xs ih =>
    obtain ⟨s1, e1⟩ := (h.step env x).2 t iso s e
    exact ih (h.step env x).1 e1

theorem Levels.init : Levels (World.new (D := D)) (fun _ => .readCommitted) := ⟨fun _ _ => rfl, fun _ _ e => (nomatch e), fun _ _ => ⟨rfl, rfl⟩⟩

/-! ## The theorems -/

/-- A transaction begun by a request has the level the request names, and keeps it whatever happens. -/
theorem C87_begin_level (env : Env D) (xs ys : List (Call D)) (c : Nat) (iso : Iso) (h : ((World.new.run env xs).1.step env (.begin c iso)).2 = .results) :
    ∃ t, (∃ x, ((World.new.run env xs).1.step env (.begin c iso)).1.client c = some x ∧ x.current = some t) ∧
      ∃ s, (((World.new.run env xs).1.step env (.begin c iso)).1.run env ys).1.txn t = some (iso, s) := by
  have hl := Levels.init.run env xs
  have hs := (hl.step env (.begin c iso)).1
  generalize World.run env World.new xs = r at h hl hs ⊢
  match hc : r.1.client c with
  | none => simp [World.step, World.startTxn, hc] at h
  | some ⟨some _, _⟩ => simp [World.step, World.startTxn, hc] at h
  | some ⟨none, i⟩ =>
    have e : (r.1.step env (.begin c iso)).1 = (r.1.begin iso).1.setClient c (some ⟨some r.1.next, iso⟩) := by
      simp only [World.step, World.startTxn, hc]
      rfl
    refine ⟨r.1.next, ⟨⟨some r.1.next, iso⟩, ?_, rfl⟩, keeps_run env hs ys (s := .running) ?_⟩
    · rw [e]
      show (if c = c then _ else _) = _
      rw [if_pos rfl]
    · rw [e]
      show (if r.1.next = r.1.next then _ else _) = _
      rw [if_pos rfl]

/-- A statement outside a transaction gets one of the level of the session's latest BEGIN, of READ COMMITTED if there was none. -/
theorem C87_autocommit_level (env : Env D) (xs : List (Call D)) (c : Nat) {x : Client} (hc : (World.new.run env xs).1.client c = some x) (hn : x.current = none) (s : Stmt D) :
    ∃ s', ((World.new.run env xs).1.step env (.query c s)).1.txn (World.new.run env xs).1.next = some (level c .readCommitted (World.new.run env xs).2, s') := by
  have hl := Levels.init.run env xs
  have hi := hl.iso c x hc
  rw [← hi]
  generalize World.run env World.new xs = r at hc hl ⊢
  obtain ⟨cur, i⟩ := x
  cases hn
  have hb := keeps_begin hl.old i
  have hb0 : (r.1.begin i).1.txn r.1.next = some (i, .running) := by
    show (if r.1.next = r.1.next then _ else _) = _
    rw [if_pos rfl]
  have e := keeps_execute env hb.2 (r.1.begin i).2 s
  show ∃ s', (World.query env r.1 c s).1.txn r.1.next = some (i, s')
  unfold World.query
  rw [hc]
  match hx : (r.1.begin i).1.execute env (r.1.begin i).2 s with
  | (w', none) =>
    rw [hx] at e
    simp only [hx]
    exact (e.1.trans (keeps_abort e.2 _).1).txn _ _ _ hb0
  | (w', some b) =>
    rw [hx] at e
    have e2 := keeps_factoryCommit env e.2 (r.1.begin i).2
    match hy : w'.factoryCommit env (r.1.begin i).2 with
    | (w2, true) => rw [hy] at e2; simp only [hx, hy]; exact (e.1.trans e2.1).txn _ _ _ hb0
    | (w2, false) =>
      rw [hy] at e2
      simp only [hx, hy]
      exact ((e.1.trans e2.1).trans (keeps_abort e2.2 _).1).txn _ _ _ hb0

/-- After a transaction at one level the statements of the session outside transactions keep running at it. -/
example : (World.new.run fine [.connect, .query 1 (.data 1), .begin 1 .readUncommitted, .commit 1, .query 1 (.data 2)]).1.txn 2 = some (.readUncommitted, .committed) := by decide

example : ((World.new.run nine story).1.client 2).map (·.current) = some none ∧ level 2 .readCommitted (World.new.run nine story).2 = .snapshot := ⟨by decide, by decide⟩

end Verif.Session
