import Verif.Session.Spec

/-!
# C84, C85, C86: what clients do takes effect as one session at a time would have it
-/

namespace Verif.Session

open Verif.Locks (Iso)

variable {D : Type}

/-! ## The log -/

theorem didBy_append (t : Nat) (l l' : List (Event D)) : didBy t (l ++ l') = didBy t l ++ didBy t l' := List.filterMap_append

theorem groups_did {l : List (Event D)} {t : Nat} {d : D} (h : Event.committed t ∉ l) : groups (l ++ [.did t d]) = groups l := by
  unfold groups
  rw [List.filterMap_append]
  simp only [List.filterMap_cons, List.filterMap_nil, List.append_nil]
  have : ∀ (m : List (Event D)), Event.committed t ∉ m →
      m.filterMap (fun x => match x with | .committed t' => some (didBy t' (l ++ [.did t d])) | _ => none) = m.filterMap (fun x => match x with | .committed t' => some (didBy t' l) | _ => none) := by
    intro m hm
    induction m with
    | nil => rfl
    | cons e m ih =>
      have ih := ih fun hx => hm (List.mem_cons_of_mem _ hx)
      cases e with
      | did t' d' => simp only [List.filterMap_cons]; exact ih
      | aborted t' => simp only [List.filterMap_cons]; exact ih
      | committed t' =>
        have hne : t ≠ t' := by rintro rfl; exact hm (List.mem_cons_self ..)
        simp only [List.filterMap_cons]
        rw [ih, didBy_append]
        simp [didBy, hne]
  exact this l h

theorem didBy_commit (t t' : Nat) (l : List (Event D)) : didBy t (l ++ [.committed t']) = didBy t l := by
  rw [didBy_append]; simp [didBy]

theorem didBy_abort (t t' : Nat) (l : List (Event D)) : didBy t (l ++ [.aborted t']) = didBy t l := by
  rw [didBy_append]; simp [didBy]

theorem groups_commit (l : List (Event D)) (t : Nat) : groups (l ++ [.committed t]) = groups l ++ [didBy t l] := by
  unfold groups
  rw [List.filterMap_append]
  simp [didBy_commit]

theorem groups_abort (l : List (Event D)) (t : Nat) : groups (l ++ [.aborted t]) = groups l := by
  unfold groups
  rw [List.filterMap_append]
  simp [didBy_abort]

/-! ## What the world and the specification have in common -/

/-- A client of the world and the same client of the specification. -/
def Match (w : World D) : Option Client → Option (Option (List D)) → Prop
  | none, none => True
  | some ⟨none, _⟩, some none => True
  | some ⟨some t, _⟩, some (some ds) => (∃ iso, w.txn t = some (iso, .running)) ∧ didBy t w.log = ds
  | _, _ => False

structure Inv (w : World D) (a : Spec.Abs D) : Prop where
  count : w.nextClient = a.count
  fresh : ∀ t, w.next ≤ t → w.txn t = none
  logged : ∀ t, w.next ≤ t → didBy t w.log = []
  done : ∀ t, Event.committed t ∈ w.log → ∃ iso, w.txn t = some (iso, .committed)
  clients : ∀ c, Match w (w.client c) (a.client c)
  own : ∀ c c' t, (w.client c).bind (·.current) = some t → (w.client c').bind (·.current) = some t → c = c'
  held : ∀ t iso, w.txn t = some (iso, .running) → ∃ c, (w.client c).bind (·.current) = some t
  groups : groups w.log = a.durable
  none : ∀ n, w.prepared n = none
  young : ∀ c, w.nextClient ≤ c → w.client c = Option.none

theorem Match.congr {w w' : World D} {x : Option Client} {y : Option (Option (List D))} (h : Match w x y)
    (e : ∀ t, x.bind (·.current) = some t → w'.txn t = w.txn t ∧ didBy t w'.log = didBy t w.log) : Match w' x y := by
  match x, y, h with
  | .none, .none, _ => trivial
  | some ⟨.none, _⟩, some .none, _ => trivial
  | some ⟨some t, _⟩, some (some ds), h =>
    have := e t rfl
    exact ⟨by rw [this.1]; exact h.1, by rw [this.2]; exact h.2⟩

theorem Inv.init : Inv (World.new (D := D)) Spec.init :=
  ⟨rfl, fun _ _ => rfl, fun _ _ => rfl, fun _ h => absurd h (List.not_mem_nil), fun _ => trivial, fun _ _ _ h => by simp [World.new] at h, fun _ _ h => by simp [World.new] at h, rfl,
    fun _ => rfl, fun _ _ => rfl⟩

/-- The transaction of a client is running, and older than the next one. -/
theorem Inv.current {w : World D} {a : Spec.Abs D} (h : Inv w a) {c t : Nat} {iso : Iso} (hc : w.client c = some ⟨some t, iso⟩) :
    (∃ i, w.txn t = some (i, .running)) ∧ t < w.next ∧ a.client c = some (some (didBy t w.log)) := by
  have := h.clients c
  rw [hc] at this
  match ha : a.client c, this with
  | some (some ds), this =>
    refine ⟨this.1, ?_, by rw [this.2]⟩
    obtain ⟨i, hi⟩ := this.1
    rcases Nat.lt_or_ge t w.next with h' | h'
    · exact h'
    · rw [h.fresh t h'] at hi; cases hi

theorem Inv.idle {w : World D} {a : Spec.Abs D} (h : Inv w a) {c : Nat} {iso : Iso} (hc : w.client c = some ⟨Option.none, iso⟩) : a.client c = some Option.none := by
  have := h.clients c
  rw [hc] at this
  match ha : a.client c, this with
  | some .none, _ => rfl

theorem Inv.absent {w : World D} {a : Spec.Abs D} (h : Inv w a) {c : Nat} (hc : w.client c = Option.none) : a.client c = Option.none := by
  have := h.clients c
  rw [hc] at this
  match ha : a.client c, this with
  | .none, _ => rfl

theorem Inv.uncommitted {w : World D} {a : Spec.Abs D} (h : Inv w a) {t : Nat} (ht : ∀ i, w.txn t ≠ some (i, .committed)) : Event.committed t ∉ w.log := fun hm => by
  obtain ⟨i, hi⟩ := h.done t hm
  exact ht i hi

/-- A statement in a transaction of the client. -/
theorem Inv.did {w : World D} {a : Spec.Abs D} (h : Inv w a) {c t : Nat} {iso : Iso} (hc : w.client c = some ⟨some t, iso⟩) (d : D) :
    Inv { w with log := w.log ++ [.did t d] } (Spec.set a c (some (some (didBy t w.log ++ [d])))) := by
  obtain ⟨⟨i, hi⟩, hlt, _⟩ := h.current hc
  have hu : Event.committed t ∉ w.log := h.uncommitted fun i' e => by rw [hi] at e; cases e
  refine ⟨h.count, h.fresh, fun t' ht' => ?_, fun t' ht' => ?_, fun c' => ?_, h.own, h.held, ?_, h.none, h.young⟩
  · show didBy t' (w.log ++ [.did t d]) = []
    have hne : t ≠ t' := fun e => by have : w.next ≤ t' := ht'; omega
    rw [didBy_append, h.logged t' ht']
    simp [didBy, hne]
  · have ht' : Event.committed t' ∈ w.log ++ [Event.did t d] := ht'
    rw [List.mem_append, List.mem_singleton] at ht'
    rcases ht' with ht' | ht'
    · exact h.done t' ht'
    · cases ht'
  · show Match _ (w.client c') (if c' = c then _ else a.client c')
    by_cases e : c' = c
    · subst e
      rw [hc, if_pos rfl]
      exact ⟨⟨i, hi⟩, by show didBy t (w.log ++ [.did t d]) = _; rw [didBy_append]; simp [didBy]⟩
    · rw [if_neg e]
      refine (h.clients c').congr fun t' ht' => ⟨rfl, ?_⟩
      have hne : t ≠ t' := by rintro rfl; exact e (h.own c' c t ht' (by rw [hc]; rfl))
      show didBy t' (w.log ++ [.did t d]) = _
      rw [didBy_append]
      simp [didBy, hne]
  · show Session.groups (w.log ++ [.did t d]) = a.durable
    rw [groups_did hu, h.groups]

/-- A transaction that is begun and ended by one call. -/
theorem Inv.whole {w : World D} {a : Spec.Abs D} (h : Inv w a) {w' : World D} (iso : Iso) {s : St} (hs : s ≠ .running) (d : D) {a' : Spec.Abs D}
    (hn : w'.next = w.next + 1) (hc : w'.client = w.client) (hk : w'.nextClient = w.nextClient) (hp : w'.prepared = w.prepared)
    (ht : ∀ t, w'.txn t = if t = w.next then some (iso, s) else w.txn t)
    (hl : (s = .committed ∧ w'.log = w.log ++ [.did w.next d] ++ [.committed w.next] ∧ a' = { a with durable := a.durable ++ [[d]] }) ∨
      (s = .aborted ∧ w'.log = w.log ++ [.did w.next d] ++ [.aborted w.next] ∧ a' = a)) : Inv w' a' := by
  have hac : a'.client = a.client ∧ a'.count = a.count := by rcases hl with ⟨_, _, rfl⟩ | ⟨_, _, rfl⟩ <;> exact ⟨rfl, rfl⟩
  have hd : ∀ t, t ≠ w.next → didBy t w'.log = didBy t w.log := by
    intro t hne
    have hne' : w.next ≠ t := fun e => hne e.symm
    rcases hl with ⟨_, hl, _⟩ | ⟨_, hl, _⟩ <;> rw [hl]
    · rw [didBy_commit, didBy_append]; simp [didBy, hne']
    · rw [didBy_abort, didBy_append]; simp [didBy, hne']
  have hcur : ∀ c t, (w.client c).bind (·.current) = some t → t < w.next := by
    intro c t e
    match hcc : w.client c with
    | .none => rw [hcc] at e; cases e
    | some ⟨.none, _⟩ => rw [hcc] at e; cases e
    | some ⟨some t', iso'⟩ =>
      rw [hcc] at e
      cases e
      exact (h.current hcc).2.1
  have hu : Event.committed w.next ∉ w.log := h.uncommitted fun i e => by rw [h.fresh _ (Nat.le_refl _)] at e; cases e
  refine ⟨by rw [hk, hac.2]; exact h.count, fun t htt => ?_, fun t htt => ?_, fun t hm => ?_, fun c => ?_, by rw [hc]; exact h.own, fun t i e => ?_, ?_, by rw [hp]; exact h.none, by rw [hc, hk]; exact h.young⟩
  · rw [hn] at htt
    rw [ht, if_neg (by omega)]
    exact h.fresh t (by omega)
  · rw [hn] at htt
    rw [hd t (by omega)]
    exact h.logged t (by omega)
  · rw [ht]
    by_cases e : t = w.next
    · rw [if_pos e]
      rcases hl with ⟨rfl, _, _⟩ | ⟨rfl, hl, _⟩
      · exact ⟨_, rfl⟩
      · subst e
        rw [hl] at hm
        simp only [List.mem_append, List.mem_singleton, reduceCtorEq, or_false] at hm
        exact absurd hm hu
    · rw [if_neg e]
      apply h.done
      rcases hl with ⟨_, hl, _⟩ | ⟨_, hl, _⟩ <;> rw [hl] at hm <;> simpa [e] using hm
  · rw [hc, hac.1]
    refine (h.clients c).congr fun t e => ?_
    have := hcur c t e
    exact ⟨by rw [ht, if_neg (by omega)], hd t (by omega)⟩
  · rw [ht] at e
    rw [hc]
    split at e
    · cases e; exact absurd rfl hs
    · exact h.held t i e
  · rcases hl with ⟨_, hl, rfl⟩ | ⟨_, hl, rfl⟩ <;> rw [hl]
    · rw [groups_commit, groups_did hu, h.groups, didBy_append, h.logged _ (Nat.le_refl _)]
      simp [didBy]
    · rw [groups_abort, groups_did hu, h.groups]

/-- A client begins a transaction. -/
theorem Inv.start {w : World D} {a : Spec.Abs D} (h : Inv w a) {c : Nat} {i : Iso} (hc : w.client c = some ⟨Option.none, i⟩) (iso : Iso) :
    Inv ((w.begin iso).1.setClient c (some ⟨some w.next, iso⟩)) (Spec.set a c (some (some []))) := by
  have hcur : ∀ c t, (w.client c).bind (·.current) = some t → t < w.next := by
    intro c t e
    match hcc : w.client c with
    | .none => rw [hcc] at e; cases e
    | some ⟨.none, _⟩ => rw [hcc] at e; cases e
    | some ⟨some t', iso'⟩ =>
      rw [hcc] at e
      cases e
      exact (h.current hcc).2.1
  refine ⟨h.count, fun t ht => ?_, fun t ht => ?_, fun t hm => ?_, fun c' => ?_, fun c1 c2 t e1 e2 => ?_, fun t i' e => ?_, h.groups, h.none, fun c' hy => ?_⟩
  · have ht : w.next + 1 ≤ t := ht
    show (if t = w.next then _ else w.txn t) = _
    rw [if_neg (by omega)]
    exact h.fresh t (by omega)
  · have ht : w.next + 1 ≤ t := ht
    exact h.logged t (by omega)
  · show ∃ i', (if t = w.next then _ else w.txn t) = some (i', St.committed)
    have hm : Event.committed t ∈ w.log := hm
    by_cases e : t = w.next
    · subst e
      exact absurd hm (h.uncommitted fun i e => by rw [h.fresh _ (Nat.le_refl _)] at e; cases e)
    · rw [if_neg e]
      exact h.done t hm
  · show Match _ (if c' = c then _ else w.client c') (if c' = c then _ else a.client c')
    by_cases e : c' = c
    · rw [if_pos e, if_pos e]
      refine ⟨⟨iso, ?_⟩, h.logged _ (Nat.le_refl _)⟩
      show (if w.next = w.next then _ else _) = _
      rw [if_pos rfl]
    · rw [if_neg e, if_neg e]
      refine (h.clients c').congr fun t ht => ⟨?_, rfl⟩
      show (if t = w.next then _ else w.txn t) = _
      have := hcur c' t ht
      rw [if_neg (by omega)]
  · have e1 : (if c1 = c then some ⟨some w.next, iso⟩ else w.client c1).bind (·.current) = some t := e1
    have e2 : (if c2 = c then some ⟨some w.next, iso⟩ else w.client c2).bind (·.current) = some t := e2
    split at e1 <;> split at e2 <;> rename_i x1 x2
    · rw [x1, x2]
    · cases e1
      have := hcur c2 _ e2
      omega
    · cases e2
      have := hcur c1 _ e1
      omega
    · exact h.own c1 c2 t e1 e2
  · have e : (if t = w.next then some (iso, St.running) else w.txn t) = some (i', .running) := e
    show ∃ c', (if c' = c then some ⟨some w.next, iso⟩ else w.client c').bind (·.current) = some t
    split at e
    · rename_i x
      exact ⟨c, by rw [if_pos rfl, x]; rfl⟩
    · obtain ⟨c', hc'⟩ := h.held t i' e
      refine ⟨c', ?_⟩
      rw [if_neg]
      · exact hc'
      · rintro rfl
        rw [hc] at hc'
        cases hc'
  · show (if c' = c then _ else w.client c') = _
    have := h.young c' hy
    rw [if_neg]
    · exact this
    · rintro rfl
      rw [hc] at this
      cases this

/-- The transaction of a client ends, and with it perhaps the session. -/
theorem Inv.finish {w : World D} {a : Spec.Abs D} (h : Inv w a) {c t : Nat} {i : Iso} (hc : w.client c = some ⟨some t, i⟩) {w' : World D} (iso : Iso) {s : St} {a' : Spec.Abs D}
    {x : Option Client} {y : Option (Option (List D))} (hxy : (x = Option.none ∧ y = Option.none) ∨ ((∃ i, x = some ⟨Option.none, i⟩) ∧ y = some Option.none))
    (hn : w'.next = w.next) (hcl : ∀ c', w'.client c' = if c' = c then x else w.client c') (hk : w'.nextClient = w.nextClient) (hp : w'.prepared = w.prepared)
    (ht : ∀ t', w'.txn t' = if t' = t then some (iso, s) else w.txn t') (ha : ∀ c', a'.client c' = if c' = c then y else a.client c') (hak : a'.count = a.count)
    (hl : (s = .committed ∧ w'.log = w.log ++ [.committed t] ∧ a'.durable = a.durable ++ [didBy t w.log]) ∨
      (s = .aborted ∧ w'.log = w.log ++ [.aborted t] ∧ a'.durable = a.durable)) : Inv w' a' := by
  obtain ⟨⟨i0, hi0⟩, hlt, hac⟩ := h.current hc
  have hd : ∀ t', didBy t' w'.log = didBy t' w.log := by
    intro t'
    rcases hl with ⟨_, hl, _⟩ | ⟨_, hl, _⟩ <;> rw [hl]
    · exact didBy_commit ..
    · exact didBy_abort ..
  have hu : Event.committed t ∉ w.log := h.uncommitted fun i' e => by rw [hi0] at e; cases e
  have hxc : x.bind (·.current) = Option.none := by rcases hxy with ⟨rfl, _⟩ | ⟨⟨i, rfl⟩, _⟩ <;> rfl
  refine ⟨by rw [hk, hak]; exact h.count, fun t' htt => ?_, fun t' htt => ?_, fun t' hm => ?_, fun c' => ?_, fun c1 c2 t' e1 e2 => ?_, fun t' i' e => ?_, ?_, by rw [hp]; exact h.none, fun c' hy => ?_⟩
  · rw [hn] at htt
    rw [ht, if_neg (by omega)]
    exact h.fresh t' htt
  · rw [hn] at htt
    rw [hd]
    exact h.logged t' htt
  · rw [ht]
    by_cases e : t' = t
    · rw [if_pos e]
      rcases hl with ⟨rfl, _, _⟩ | ⟨rfl, hl, _⟩
      · exact ⟨_, rfl⟩
      · subst e
        rw [hl] at hm
        simp only [List.mem_append, List.mem_singleton, reduceCtorEq, or_false] at hm
        exact absurd hm hu
    · rw [if_neg e]
      apply h.done
      rcases hl with ⟨_, hl, _⟩ | ⟨_, hl, _⟩ <;> rw [hl] at hm <;> simpa [e] using hm
  · rw [hcl, ha]
    by_cases e : c' = c
    · rw [if_pos e, if_pos e]
      rcases hxy with ⟨rfl, rfl⟩ | ⟨⟨i, rfl⟩, rfl⟩ <;> trivial
    · rw [if_neg e, if_neg e]
      refine (h.clients c').congr fun t' e' => ⟨?_, hd t'⟩
      rw [ht, if_neg]
      rintro rfl
      exact e (h.own c' c _ e' (by rw [hc]; rfl))
  · rw [hcl] at e1 e2
    split at e1
    · rw [hxc] at e1; cases e1
    · split at e2
      · rw [hxc] at e2; cases e2
      · exact h.own c1 c2 t' e1 e2
  · rw [ht] at e
    split at e
    · rename_i x0
      cases e
      rcases hl with ⟨hl, _⟩ | ⟨hl, _⟩ <;> cases hl
    · rename_i x0
      obtain ⟨c', hc'⟩ := h.held t' i' e
      refine ⟨c', ?_⟩
      rw [hcl, if_neg]
      · exact hc'
      · rintro rfl
        rw [hc] at hc'
        cases hc'
        exact x0 rfl
  · rcases hl with ⟨_, hl, hdu⟩ | ⟨_, hl, hdu⟩ <;> rw [hl, hdu]
    · rw [groups_commit, h.groups]
    · rw [groups_abort, h.groups]
  · rw [hk] at hy
    have := h.young c' hy
    rw [hcl, if_neg]
    · exact this
    · rintro rfl
      rw [hc] at this
      cases this

/-- A session without a transaction begins or ends. -/
theorem Inv.session {w : World D} {a : Spec.Abs D} (h : Inv w a) {c : Nat} (hc : (w.client c).bind (·.current) = Option.none) {w' : World D} {a' : Spec.Abs D}
    {x : Option Client} {y : Option (Option (List D))} (hxy : (x = Option.none ∧ y = Option.none) ∨ ((∃ i, x = some ⟨Option.none, i⟩) ∧ y = some Option.none))
    (hn : w'.next = w.next) (hcl : ∀ c', w'.client c' = if c' = c then x else w.client c') (hk : w'.nextClient = a'.count) (hp : w'.prepared = w.prepared)
    (ht : w'.txn = w.txn) (hl : w'.log = w.log) (ha : ∀ c', a'.client c' = if c' = c then y else a.client c') (hd : a'.durable = a.durable)
    (hy : ∀ c, w'.nextClient ≤ c → w'.client c = Option.none) : Inv w' a' := by
  have hxc : x.bind (·.current) = Option.none := by rcases hxy with ⟨rfl, _⟩ | ⟨⟨i, rfl⟩, _⟩ <;> rfl
  refine ⟨hk, by rw [hn, ht]; exact h.fresh, by rw [hn, hl]; exact h.logged, by rw [ht, hl]; exact h.done, fun c' => ?_, fun c1 c2 t' e1 e2 => ?_, fun t' i' e => ?_,
    by rw [hl, hd]; exact h.groups, by rw [hp]; exact h.none, hy⟩
  · rw [hcl, ha]
    by_cases e : c' = c
    · rw [if_pos e, if_pos e]
      rcases hxy with ⟨rfl, rfl⟩ | ⟨⟨i, rfl⟩, rfl⟩ <;> trivial
    · rw [if_neg e, if_neg e]
      exact (h.clients c').congr fun t' _ => ⟨by rw [ht], by rw [hl]⟩
  · rw [hcl] at e1 e2
    split at e1
    · rw [hxc] at e1; cases e1
    · split at e2
      · rw [hxc] at e2; cases e2
      · exact h.own c1 c2 t' e1 e2
  · rw [ht] at e
    obtain ⟨c', hc'⟩ := h.held t' i' e
    refine ⟨c', ?_⟩
    rw [hcl, if_neg]
    · exact hc'
    · rintro rfl
      rw [hc] at hc'
      cases hc'

theorem Inv.query {env : Env D} (hf : ∀ l t, env.flush l t = true) {w : World D} {a : Spec.Abs D} (h : Inv w a) (c : Nat) (d : D) :
    Inv (w.query env c (.data d)).1 (Spec.step a (.query c (.data d), (w.query env c (.data d)).2)) := by
  match hc : w.client c with
  | .none =>
    simp only [World.query, hc, Spec.step, h.absent hc]
    exact h
  | some ⟨some t, iso⟩ =>
    obtain ⟨⟨i, hi⟩, _, ha⟩ := h.current hc
    have := h.did hc d
    simp only [World.query, hc, Spec.step, ha, World.execute, hi]
    cases env.result w.log t d <;> exact this
  | some ⟨.none, iso⟩ =>
    have ha := h.idle hc
    cases hr : env.result w.log w.next d with
    | none =>
      have e : w.query env c (.data d) =
          (({ w.setTxn w.next (iso, .running) with next := w.next + 1, log := w.log ++ [.did w.next d] } : World D).abort w.next, .error) := by
        simp only [World.query, hc, World.begin, World.execute, World.setTxn, if_true, hr]
      have e' : (({ w.setTxn w.next (iso, .running) with next := w.next + 1, log := w.log ++ [.did w.next d] } : World D).abort w.next) =
          { ({ w.setTxn w.next (iso, .running) with next := w.next + 1 } : World D).setTxn w.next (iso, .aborted) with log := w.log ++ [.did w.next d] ++ [.aborted w.next] } := by
        simp only [World.abort, World.setTxn, if_true]
      rw [e, e']
      simp only [Spec.step, ha]
      refine h.whole iso (s := .aborted) (by decide) d rfl rfl rfl rfl (fun t => ?_) (.inr ⟨rfl, rfl, rfl⟩)
      show (if t = w.next then _ else if t = w.next then _ else w.txn t) = _
      split <;> rfl
    | some b =>
      have e : w.query env c (.data d) =
          ({ ({ w.setTxn w.next (iso, .running) with next := w.next + 1 } : World D).setTxn w.next (iso, .committed) with log := w.log ++ [.did w.next d] ++ [.committed w.next] }, .results) := by
        simp only [World.query, hc, World.begin, World.execute, World.setTxn, if_true, hr, World.factoryCommit, World.commit, hf]
        rfl
      rw [e]
      simp only [Spec.step, ha]
      refine h.whole iso (s := .committed) (by decide) d rfl rfl rfl rfl (fun t => ?_) (.inl ⟨rfl, rfl, rfl⟩)
      show (if t = w.next then _ else if t = w.next then _ else w.txn t) = _
      split <;> rfl

theorem Inv.step {env : Env D} (hf : ∀ l t, env.flush l t = true) {w : World D} {a : Spec.Abs D} (h : Inv w a) {x : Call D} (hp : Plain x) :
    Inv (w.step env x).1 (Spec.step a (x, (w.step env x).2)) := by
  match x, hp with
  | .connect, _ =>
    have hy := h.young w.nextClient (Nat.le_refl _)
    refine h.session (c := w.nextClient) (by rw [hy]; rfl) (.inr ⟨⟨.readCommitted, rfl⟩, rfl⟩) rfl (fun _ => rfl) (by show w.nextClient + 1 = a.count + 1; rw [h.count]) rfl rfl rfl
      (fun _ => by simp only [Spec.step, Spec.set, h.count]) rfl (fun c hc => ?_)
    have hc : w.nextClient + 1 ≤ c := hc
    show (if c = w.nextClient then _ else w.client c) = _
    rw [if_neg (by omega)]
    exact h.young c (by omega)
  | .query c (.data d), _ => exact h.query hf c d
  | .begin c iso, _ =>
    match hc : w.client c with
    | .none => simp only [World.step, World.startTxn, hc, Spec.step]; exact h
    | some ⟨some t, i⟩ => simp only [World.step, World.startTxn, hc, Spec.step]; exact h
    | some ⟨.none, i⟩ => simp only [World.step, World.startTxn, hc, Spec.step]; exact h.start hc iso
  | .commit c, _ =>
    match hc : w.client c with
    | .none => simp only [World.step, World.commitTxn, hc, Spec.step]; exact h
    | some ⟨.none, i⟩ => simp only [World.step, World.commitTxn, hc, Spec.step]; exact h
    | some ⟨some t, i⟩ =>
      obtain ⟨⟨i0, hi0⟩, _, ha⟩ := h.current hc
      simp only [World.step, World.commitTxn, hc, Spec.step, World.factoryCommit, World.commit, World.setClient, hi0, hf, if_true, ha]
      exact h.finish hc i0 (s := .committed) (.inr ⟨⟨i, rfl⟩, rfl⟩) rfl (fun _ => rfl) rfl rfl (fun _ => rfl) (fun _ => rfl) rfl (.inl ⟨rfl, rfl, rfl⟩)
  | .rollback c, _ =>
    match hc : w.client c with
    | .none => simp only [World.step, World.rollbackTxn, hc, Spec.step]; exact h
    | some ⟨.none, i⟩ => simp only [World.step, World.rollbackTxn, hc, Spec.step]; exact h
    | some ⟨some t, i⟩ =>
      obtain ⟨⟨i0, hi0⟩, _, ha⟩ := h.current hc
      simp only [World.step, World.rollbackTxn, hc, Spec.step, World.abort, World.setClient, hi0, ha]
      exact h.finish hc i0 (s := .aborted) (.inr ⟨⟨i, rfl⟩, rfl⟩) rfl (fun _ => rfl) rfl rfl (fun _ => rfl) (fun _ => rfl) rfl (.inr ⟨rfl, rfl, rfl⟩)
  | .execute c n, _ =>
    have : World.runPrepared env w c n = (w, .error) := by
      unfold World.runPrepared
      rw [h.none n]
      match w.client c with
      | .none => rfl
      | some ⟨.none, _⟩ => rfl
      | some ⟨some _, _⟩ => rfl
    simp only [World.step, this, Spec.step]
    exact h
  | .close c n, _ =>
    match hc : w.client c with
    | .none => simp only [World.step, World.closeStmt, hc, Spec.step]; exact h
    | some x =>
      simp only [World.step, World.closeStmt, hc, Spec.step]
      refine ⟨h.count, h.fresh, h.logged, h.done, fun c' => (h.clients c').congr fun _ _ => ⟨rfl, rfl⟩, h.own, h.held, h.groups, fun m => ?_, h.young⟩
      show (if m = n then _ else w.prepared m) = _
      split
      · rfl
      · exact h.none m
  | .disconnect c, _ =>
    match hc : w.client c with
    | .none =>
      simp only [World.step, hc, Spec.step]
      refine h.session (c := c) (by rw [hc]; rfl) (.inl ⟨rfl, rfl⟩) rfl (fun c' => ?_) h.count rfl rfl rfl (fun _ => rfl) rfl h.young
      split
      · rename_i e; rw [e]; exact hc
      · rfl
    | some ⟨.none, i⟩ =>
      simp only [World.step, hc, Spec.step]
      refine h.session (c := c) (by rw [hc]; rfl) (.inl ⟨rfl, rfl⟩) rfl (fun c' => rfl) h.count rfl rfl rfl (fun _ => rfl) rfl (fun c' hc' => ?_)
      show (if c' = c then _ else w.client c') = _
      split
      · rfl
      · exact h.young c' hc'
    | some ⟨some t, i⟩ =>
      obtain ⟨⟨i0, hi0⟩, _, ha⟩ := h.current hc
      simp only [World.step, hc, Spec.step, World.abort, World.setClient, hi0]
      exact h.finish hc i0 (s := .aborted) (.inl ⟨rfl, rfl⟩) rfl (fun _ => rfl) rfl rfl (fun _ => rfl) (fun _ => rfl) rfl (.inr ⟨rfl, rfl, rfl⟩)

theorem Inv.run {env : Env D} (hf : ∀ l t, env.flush l t = true) {w : World D} {a : Spec.Abs D} (h : Inv w a) {xs : List (Call D)} (hp : ∀ x ∈ xs, Plain x) :
    Inv (w.run env xs).1 (Spec.run a (w.run env xs).2) := by
  induction xs generalizing w a with
  | nil => exact h
  | cons x xs ih => exact ih (h.step hf (hp x (List.mem_cons_self ..))) fun y hy => hp y (List.mem_cons_of_mem _ hy)

/-! ## The theorems -/

/-- Whatever any number of clients do in any order, and however their statements end: what is committed is what was done in transactions that were committed and by statements outside
transactions that were answered with results; each transaction as a whole, and in the order of the commits.
Missing from the full property: transactions begun or ended by SQL statements (`C84_sql_begin_fails`, `C84_sql_commit_fails`), PREPARE (`C86_prepare_fails`), pages that cannot be flushed
(`C84_flush_fails`). -/
theorem C84_sessions_partial {env : Env D} (hf : ∀ l t, env.flush l t = true) {xs : List (Call D)} (hp : ∀ x ∈ xs, Plain x) :
    groups (World.new.run env xs).1.log = (Spec.run Spec.init (World.new.run env xs).2).durable := (Inv.init.run hf hp).groups

/-- The same environment when every flush succeeds. -/
def Env.flushing (env : Env D) : Env D := { env with flush := fun _ _ => true }

theorem abort_commit (w : World D) (t : Nat) (h : (w.commit t).2 = true) : (w.commit t).1.abort t = (w.commit t).1 := by
  unfold World.commit at h ⊢
  split at h
  · simp [World.abort, World.setTxn]
  · rename_i e
    simp only [World.abort, e]
  · cases h

/-- Whether pages can be flushed changes the replies and nothing else. -/
theorem step_flushing (env : Env D) (w : World D) {x : Call D} (hp : Plain x) : (w.step env.flushing x).1 = (w.step env x).1 := by
  match x, hp with
  | .connect, _ => rfl
  | .query c (.data d), _ =>
    show (World.query env.flushing w c (.data d)).1 = (World.query env w c (.data d)).1
    unfold World.query
    match w.client c with
    | .none => rfl
    | some ⟨some t, i⟩ => rfl
    | some ⟨.none, i⟩ =>
      have e : ∀ (w : World D) (t : Nat), w.execute env.flushing t (.data d) = w.execute env t (.data d) := fun _ _ => rfl
      simp only [e]
      match (w.begin i).1.execute env (w.begin i).2 (.data d) with
      | (w', .none) => rfl
      | (w', some b) =>
        simp only [World.factoryCommit, Env.flushing]
        have ha := abort_commit w' (w.begin i).2
        match hc : w'.commit (w.begin i).2 with
        | (w2, false) => simp
        | (w2, true) =>
          rw [hc] at ha
          match env.flush w2.log (w.begin i).2 with
          | true => simp
          | false => simp [ha]
  | .begin c iso, _ => rfl
  | .commit c, _ =>
    show (World.commitTxn env.flushing w c).1 = (World.commitTxn env w c).1
    unfold World.commitTxn
    match w.client c with
    | .none => rfl
    | some ⟨.none, i⟩ => rfl
    | some ⟨some t, i⟩ =>
      simp only [World.factoryCommit, Env.flushing]
      match (w.setClient c (some ⟨Option.none, i⟩)).commit t with
      | (w2, false) => simp
      | (w2, true) =>
        match env.flush w2.log t with
        | true => simp
        | false => simp
  | .rollback c, _ => rfl
  | .execute c n, _ =>
    show (World.runPrepared env.flushing w c n).1 = (World.runPrepared env w c n).1
    unfold World.runPrepared
    match w.client c, w.prepared n with
    | .none, _ => rfl
    | some ⟨.none, _⟩, .none => rfl
    | some ⟨some _, _⟩, .none => rfl
    | some ⟨some t, _⟩, some d => rfl
    | some ⟨.none, i⟩, some d =>
      have e : ∀ (w : World D) (t : Nat), w.execute env.flushing t (.data d) = w.execute env t (.data d) := fun _ _ => rfl
      simp only [e]
      match (w.begin i).1.execute env (w.begin i).2 (.data d) with
      | (w', .none) => rfl
      | (w', some false) => rfl
      | (w', some true) =>
        simp only [World.factoryCommit, Env.flushing]
        match w'.commit (w.begin i).2 with
        | (w2, false) => simp
        | (w2, true) =>
          match env.flush w2.log (w.begin i).2 with
          | true => simp
          | false => simp
  | .close c n, _ => rfl
  | .disconnect c, _ => rfl

theorem run_flushing (env : Env D) (w : World D) {xs : List (Call D)} (hp : ∀ x ∈ xs, Plain x) : (w.run env.flushing xs).1 = (w.run env xs).1 := by
  induction xs generalizing w with
  | nil => rfl
  | cons x xs ih =>
    show ((w.step env.flushing x).1.run env.flushing xs).1 = ((w.step env x).1.run env xs).1
    rw [step_flushing env w (hp x (List.mem_cons_self ..))]
    exact ih _ fun y hy => hp y (List.mem_cons_of_mem _ hy)

/-- No transaction outlives its session: each one that runs is the transaction of one client that is connected. Flushes may fail.
Missing from the full property: transactions begun by SQL statements (`C85_leak_fails`). -/
theorem C85_running_is_held_partial {env : Env D} {xs : List (Call D)} (hp : ∀ x ∈ xs, Plain x) {t : Nat} {iso : Iso}
    (ht : (World.new.run env xs).1.txn t = some (iso, .running)) : ∃ c, (∃ x, (World.new.run env xs).1.client c = some x ∧ x.current = some t) ∧
      ∀ c' x, (World.new.run env xs).1.client c' = some x → x.current = some t → c' = c := by
  have h := Inv.init.run (env := env.flushing) (fun _ _ => rfl) hp
  rw [run_flushing env _ hp] at h
  obtain ⟨c, hc⟩ := h.held t iso ht
  refine ⟨c, ?_, fun c' x hx hxt => h.own c' c t (by rw [hx]; exact hxt) hc⟩
  match hx : (World.new.run env xs).1.client c with
  | .none => rw [hx] at hc; cases hc
  | some x => rw [hx] at hc; exact ⟨x, rfl, hc⟩

/-- When no client is connected no transaction runs. -/
theorem C85_all_gone_partial {env : Env D} {xs : List (Call D)} (hp : ∀ x ∈ xs, Plain x) (hc : ∀ c, (World.new.run env xs).1.client c = none) (t : Nat) (iso : Iso) :
    (World.new.run env xs).1.txn t ≠ some (iso, .running) := fun ht => by
  obtain ⟨c, ⟨x, hx, _⟩, _⟩ := C85_running_is_held_partial hp ht
  rw [hc] at hx
  cases hx

/-! ## Prepared statements -/

theorem begin_prepared (w : World D) (iso : Iso) : (w.begin iso).1.prepared = w.prepared := rfl

theorem commit_prepared (w : World D) (t : Nat) : (w.commit t).1.prepared = w.prepared := by
  unfold World.commit; split <;> rfl

theorem abort_prepared (w : World D) (t : Nat) : (w.abort t).prepared = w.prepared := by
  unfold World.abort; split <;> rfl

theorem factoryCommit_prepared (env : Env D) (w : World D) (t : Nat) : (w.factoryCommit env t).1.prepared = w.prepared := by
  unfold World.factoryCommit
  simp only
  split <;> exact commit_prepared w t

theorem execute_prepared (env : Env D) (w : World D) (t : Nat) (s : Stmt D) : (w.execute env t s).1.prepared = w.prepared := by
  cases s with
  | data d => unfold World.execute; simp only; split <;> rfl
  | begin iso => rfl
  | commit chain =>
    unfold World.execute
    simp only
    split
    · exact commit_prepared w t
    · cases chain
      · exact commit_prepared w t
      · simp only [if_true, begin_prepared]; exact commit_prepared w t
  | rollback chain =>
    unfold World.execute
    cases chain
    · exact abort_prepared w t
    · simp only [if_true, begin_prepared]; exact abort_prepared w t

theorem step_prepared {env : Env D} {w : World D} (h : ∀ n, w.prepared n = none) (x : Call D) : ∀ n, (w.step env x).1.prepared n = none := by
  match x with
  | .connect => exact h
  | .query c s =>
    show ∀ n, (World.query env w c s).1.prepared n = none
    unfold World.query
    match w.client c with
    | .none => exact h
    | some ⟨some t, i⟩ =>
      have e := execute_prepared env w t s
      match hx : w.execute env t s with
      | (w', .none) => rw [hx] at e; simp only [hx] at e ⊢; rw [e]; exact h
      | (w', some b) => rw [hx] at e; simp only [hx] at e ⊢; rw [e]; exact h
    | some ⟨.none, i⟩ =>
      have e := execute_prepared env (w.begin i).1 (w.begin i).2 s
      rw [begin_prepared] at e
      match hx : (w.begin i).1.execute env (w.begin i).2 s with
      | (w', .none) => rw [hx] at e; simp only [hx, abort_prepared] at e ⊢; rw [e]; exact h
      | (w', some b) =>
        rw [hx] at e
        have e2 := factoryCommit_prepared env w' (w.begin i).2
        match hy : w'.factoryCommit env (w.begin i).2 with
        | (w2, true) => rw [hy] at e2; simp only [hx, hy] at e e2 ⊢; rw [e2, e]; exact h
        | (w2, false) => rw [hy] at e2; simp only [hx, hy, abort_prepared] at e e2 ⊢; rw [e2, e]; exact h
  | .begin c iso =>
    show ∀ n, (World.startTxn w c iso).1.prepared n = none
    unfold World.startTxn
    split <;> exact h
  | .commit c =>
    show ∀ n, (World.commitTxn env w c).1.prepared n = none
    unfold World.commitTxn
    match w.client c with
    | .none => exact h
    | some ⟨.none, i⟩ => exact h
    | some ⟨some t, i⟩ =>
      have e2 := factoryCommit_prepared env (w.setClient c (some ⟨Option.none, i⟩)) t
      match hy : (w.setClient c (some ⟨Option.none, i⟩)).factoryCommit env t with
      | (w2, true) => rw [hy] at e2; simp only [hy] at e2 ⊢; rw [e2]; exact h
      | (w2, false) => rw [hy] at e2; simp only [hy] at e2 ⊢; rw [e2]; exact h
  | .rollback c =>
    show ∀ n, (World.rollbackTxn w c).1.prepared n = none
    unfold World.rollbackTxn
    split
    · simp only [abort_prepared]; exact h
    · exact h
  | .prepare c s =>
    show ∀ n, (World.prepare env w c s).1.prepared n = none
    unfold World.prepare
    match w.client c with
    | .none => exact h
    | some ⟨some t, i⟩ =>
      have e := execute_prepared env w t s
      match hx : w.execute env t s with
      | (w', .none) => rw [hx] at e; simp only [hx] at e ⊢; rw [e]; exact h
      | (w', some true) => rw [hx] at e; simp only [hx] at e ⊢; rw [e]; exact h
      | (w', some false) => rw [hx] at e; simp only [hx] at e ⊢; rw [e]; exact h
    | some ⟨.none, i⟩ =>
      have e := execute_prepared env (w.begin i).1 (w.begin i).2 s
      rw [begin_prepared] at e
      match hx : (w.begin i).1.execute env (w.begin i).2 s with
      | (w', .none) => rw [hx] at e; simp only [hx, abort_prepared] at e ⊢; rw [e]; exact h
      | (w', some false) => rw [hx] at e; simp only [hx, abort_prepared] at e ⊢; rw [e]; exact h
      | (w', some true) =>
        rw [hx] at e
        have e2 := factoryCommit_prepared env w' (w.begin i).2
        simp only [hx] at e ⊢
        split
        · rw [e]; exact h
        · match hy : w'.factoryCommit env (w.begin i).2 with
          | (w2, true) => rw [hy] at e2; simp only at e2 ⊢; rw [e2, e]; exact h
          | (w2, false) => rw [hy] at e2; simp only [abort_prepared] at e2 ⊢; rw [e2, e]; exact h
  | .execute c n =>
    have : World.runPrepared env w c n = (w, .error) := by
      unfold World.runPrepared
      rw [h n]
      match w.client c with
      | .none => rfl
      | some ⟨.none, _⟩ => rfl
      | some ⟨some _, _⟩ => rfl
    show ∀ n', (World.runPrepared env w c n).1.prepared n' = none
    rw [this]
    exact h
  | .close c n =>
    show ∀ n', (World.closeStmt w c n).1.prepared n' = none
    unfold World.closeStmt
    split
    · exact h
    · intro m
      show (if m = n then _ else w.prepared m) = _
      split
      · rfl
      · exact h m
  | .disconnect c =>
    match hc : w.client c with
    | .none => simp only [World.step, hc]; exact h
    | some ⟨.none, i⟩ => simp only [World.step, hc]; exact h
    | some ⟨some t, i⟩ => simp only [World.step, hc, abort_prepared]; exact h

theorem run_prepared {env : Env D} {w : World D} (h : ∀ n, w.prepared n = none) (xs : List (Call D)) : ∀ n, (w.run env xs).1.prepared n = none := by
  induction xs generalizing w with
  | nil => exact h
  | cons x xs ih => exact ih (step_prepared h x)

/-- Whatever has been done before, executing a prepared statement is an error and does nothing: no statement is ever known as prepared. -/
theorem C86_execute_fails (env : Env D) (xs : List (Call D)) (c n : Nat) : (World.new.run env xs).1.step env (.execute c n) = ((World.new.run env xs).1, .error) := by
  have h := run_prepared (env := env) (w := World.new) (fun _ => rfl) xs n
  show World.runPrepared env _ c n = _
  unfold World.runPrepared
  rw [h]
  match (World.new.run env xs).1.client c with
  | .none => rfl
  | some ⟨.none, _⟩ => rfl
  | some ⟨some _, _⟩ => rfl

/-! ## Cases -/

/-- Statements are numbers, each succeeds, all write. -/
def fine : Env Nat := ⟨fun _ => true, fun _ _ _ => some true, fun _ _ => true⟩

/-- Statement 9 fails. -/
def nine : Env Nat := ⟨fun _ => true, fun _ _ d => if d = 9 then none else some true, fun _ _ => true⟩

/-- Two clients whose transactions overlap, a statement that fails in a transaction and one outside, a rollback, a connection that is lost. -/
def story : List (Call Nat) := [.connect, .connect, .begin 1 .serializable, .query 1 (.data 10), .query 2 (.data 20), .begin 2 .readCommitted, .query 2 (.data 21), .query 1 (.data 9), .query 1 (.data 11),
  .commit 2, .commit 1, .query 2 (.data 9), .begin 2 .snapshot, .query 2 (.data 22), .rollback 2, .begin 1 .snapshot, .query 1 (.data 12), .disconnect 1, .query 2 (.data 23)]

example : (∀ l t, nine.flush l t = true) ∧ ∀ x ∈ story, Plain x := ⟨fun _ _ => rfl, by simp [story, Plain]⟩

example : groups (World.new.run nine story).1.log = [[20], [21], [10, 9, 11], [23]] := by decide

example : (World.new.run nine (story.take 8)).1.txn 0 = some (.serializable, .running) := by decide

/-- BEGIN as a statement has no effect on the statements that follow: what was to be rolled back stays, and ROLLBACK reports an error. -/
theorem C84_sql_begin_fails : ∃ xs : List (Call Nat), xs = [.connect, .query 1 (.begin .readCommitted), .query 1 (.data 5), .query 1 (.rollback false)] ∧
    groups (World.new.run fine xs).1.log ≠ [] ∧ (World.new.run fine xs).1.log = [.committed 0, .did 2 5, .committed 2, .aborted 3] ∧
    (World.new.run fine xs).2.map (·.2) = [.results, .results, .results, .error] := ⟨_, rfl, by decide, by decide, by decide⟩

/-- After COMMIT as a statement, in a transaction that a request began, every further change is an error until the client sends a commit or rollback request. -/
theorem C84_sql_commit_fails : (World.new.run fine [.connect, .begin 1 .readCommitted, .query 1 (.data 5), .query 1 (.commit false), .query 1 (.data 6), .query 1 (.begin .readCommitted), .query 1 (.data 7)]).2.map (·.2) =
    [.results, .results, .results, .results, .error, .results, .error] := by decide

/-- ROLLBACK as a statement does the same; the commit request that ends the session's transaction then fails. -/
theorem C84_sql_rollback_fails : (World.new.run fine [.connect, .begin 1 .readCommitted, .query 1 (.data 5), .query 1 (.rollback false), .query 1 (.data 6), .commit 1]).2.map (·.2) =
    [.results, .results, .results, .results, .error, .error] := by decide

/-- Pages cannot be flushed. -/
def stuck : Env Nat := { fine with flush := fun _ _ => false }

/-- When its pages cannot be flushed a statement is reported as failed and is committed nevertheless. -/
theorem C84_flush_fails : (World.new.run stuck [.connect, .query 1 (.data 5)]).2.map (·.2) = [.results, .error] ∧ groups (World.new.run stuck [.connect, .query 1 (.data 5)]).1.log = [[5]] :=
  ⟨by decide, by decide⟩

/-- A transaction that BEGIN as a statement begins, or AND CHAIN, belongs to nobody and runs for ever; two of them remain when the client has gone. -/
theorem C85_leak_fails : ∃ xs : List (Call Nat), xs = [.connect, .query 1 (.begin .readCommitted), .query 1 (.commit true), .disconnect 1] ∧
    (World.new.run fine xs).1.client 1 = none ∧ (World.new.run fine xs).1.txn 1 = some (.readCommitted, .running) ∧ (World.new.run fine xs).1.txn 3 = some (.readCommitted, .running) :=
  ⟨_, rfl, by rfl, by decide, by decide⟩

/-- Preparing a statement runs it and commits it. -/
theorem C86_prepare_fails : groups (World.new.run fine [.connect, .prepare 1 (.data 5)]).1.log = [[5]] := by decide

/-- UPDATE or DELETE finds no row. -/
def noRow : Env Nat := { fine with result := fun _ _ _ => some false }

/-- The same statement that finds no row succeeds as a query and is an error when it is prepared. -/
theorem C86_no_row_fails : (World.new.run noRow [.connect, .query 1 (.data 5), .prepare 1 (.data 5)]).2.map (·.2) = [.results, .results, .error] := by decide

end Verif.Session
