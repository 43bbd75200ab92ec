import Verif.Wal.RecoverySpec

/-!
# C31: what recovery makes of the log
-/

namespace Verif.Wal

open Verif.Wire

theorem snocInd {α : Type} {P : List α → Prop} (h0 : P []) (h1 : ∀ l a, P l → P (l ++ [a])) (l : List α) : P l := by
  rw [← List.reverse_reverse l]
  induction l.reverse with
  | nil => exact h0
  | cons a l ih => rw [List.reverse_cons]; exact h1 _ _ ih

/-! ### The log of a history -/

theorem logOf_snoc_aux (as : List Act) (a : Act) :
    logOf (as ++ [a]) = logOf as ++ [a.rec_ (logOf as).length (lastLsn (logOf as) a.txn)] := by
  simp [logOf, List.foldl_append]

@[simp] theorem length_logOf (as : List Act) : (logOf as).length = as.length := by
  induction as using snocInd with
  | h0 => rfl
  | h1 as a ih => rw [logOf_snoc_aux]; simp [ih]

theorem logOf_snoc (as : List Act) (a : Act) : logOf (as ++ [a]) = logOf as ++ [a.rec_ as.length (lastLsn (logOf as) a.txn)] := by
  rw [logOf_snoc_aux, length_logOf]

@[simp] theorem lsn_rec (a : Act) (l p : Nat) : (a.rec_ l p).lsn = l := by
  cases a with
  | change t rid c => cases c <;> rfl
  | _ => rfl
@[simp] theorem txn_rec (a : Act) (l p : Nat) : (a.rec_ l p).txn = a.txn := by
  cases a with
  | change t rid c => cases c <;> rfl
  | _ => rfl
@[simp] theorem prev_rec (a : Act) (l p : Nat) : (a.rec_ l p).prevLsn = p := by
  cases a with
  | change t rid c => cases c <;> rfl
  | _ => rfl

theorem lookup_snoc (L : List Rec) (r : Rec) (l : Nat) : lookupLsn (L ++ [r]) l = if r.lsn = l then some r else lookupLsn L l := by
  simp only [lookupLsn, List.reverse_append, List.reverse_cons, List.reverse_nil, List.nil_append, List.cons_append, List.find?_cons]
  by_cases h : r.lsn = l
  · simp [h]
  · rw [show (r.lsn == l) = false by simpa using h, if_neg h]

theorem lookup_logOf (pre : List Act) (a : Act) (suf : List Act) :
    lookupLsn (logOf (pre ++ [a] ++ suf)) pre.length = some (a.rec_ pre.length (lastLsn (logOf pre) a.txn)) := by
  induction suf using snocInd with
  | h0 => rw [List.append_nil, logOf_snoc, lookup_snoc]; simp
  | h1 suf b ih =>
    rw [← List.append_assoc, logOf_snoc, lookup_snoc]
    rw [if_neg (by simp)]
    exact ih

theorem lastLsn_snoc (L : List Rec) (r : Rec) (t : Nat) : lastLsn (L ++ [r]) t = if r.txn = t then r.lsn else lastLsn L t := by
  simp only [lastLsn, List.reverse_append, List.reverse_cons, List.reverse_nil, List.nil_append, List.cons_append, List.find?_cons]
  by_cases h : r.txn = t
  · simp [h]
  · rw [show (r.txn == t) = false by simpa using h, if_neg h]

/-! ### Rows -/

/-- What a user sees in a slot, `none` if there is no such slot. -/
def Store.seen (st : Store) (rid : Rid) : Option Row := (st.get rid).map fun s => if s.1.deleted then none else some s.2

theorem get_update (st : Store) (rid rid' : Rid) (m : Meta) (t : List Value) :
    (st.update rid m t).get rid' = if rid = rid' then (st.get rid').map (fun _ => (m, t)) else st.get rid' := by
  simp only [Store.get, Store.update]
  by_cases hp : rid'.page = rid.page
  · rw [if_pos hp]
    by_cases hs : rid.slot = rid'.slot
    · have : rid = rid' := by cases rid; cases rid'; simp_all
      subst this
      rw [if_pos rfl, List.getElem?_set_self']
      cases (st rid.page)[rid.slot]? <;> rfl
    · rw [if_neg (by rintro rfl; exact hs rfl), List.getElem?_set_ne hs]
  · rw [if_neg hp, if_neg (by rintro rfl; exact hp rfl)]

theorem seen_update (st : Store) (rid rid' : Rid) (x : Nat) (t : List Value) :
    (st.update rid (Meta.new x) t).seen rid' = if rid = rid' then (st.seen rid').map (fun _ => some t) else st.seen rid' := by
  simp only [Store.seen, get_update]
  split
  · cases st.get rid' <;> rfl
  · rfl

theorem seen_markDeleted (st : Store) (rid rid' : Rid) :
    (st.markDeleted rid).seen rid' = if rid = rid' then (st.seen rid').map (fun _ => none) else st.seen rid' := by
  unfold Store.markDeleted
  cases h : st.get rid with
  | none =>
    by_cases he : rid = rid'
    · subst he; simp [Store.seen, h]
    · simp [he]
  | some s =>
    obtain ⟨m, t⟩ := s
    simp only [Store.seen, get_update]
    split
    next he => subst he; simp [h]
    · rfl

theorem seen_insert (st : Store) (rid rid' : Rid) (x : Nat) (t : List Value) (hs : rid.slot = (st rid.page).length) :
    (st.insert rid (Meta.new x) t).seen rid' = if rid = rid' then some (some t) else st.seen rid' := by
  simp only [Store.seen, Store.get, Store.insert]
  by_cases hp : rid'.page = rid.page
  · rw [if_pos hp]
    by_cases he : rid = rid'
    · subst he; rw [if_pos rfl, hs]; simp [Meta.new]
    · rw [if_neg he]
      have hne : rid'.slot ≠ (st rid.page).length := by
        intro h; apply he; cases rid; cases rid'; simp_all
      congr 1
      rw [hp]
      by_cases hlt : rid'.slot < (st rid.page).length
      · rw [List.getElem?_append_left hlt]
      · rw [List.getElem?_append_right (by omega), List.getElem?_eq_none (by simp; omega), List.getElem?_eq_none (by omega)]
  · rw [if_neg hp, if_neg (by rintro rfl; exact hp rfl)]

theorem length_update (st : Store) (rid : Rid) (m : Meta) (t : List Value) (p : Nat) : (st.update rid m t p).length = (st p).length := by
  unfold Store.update; split <;> simp

theorem length_markDeleted (st : Store) (rid : Rid) (p : Nat) : (st.markDeleted rid p).length = (st p).length := by
  unfold Store.markDeleted
  cases st.get rid with
  | none => rfl
  | some s => exact length_update ..

theorem length_insert (st : Store) (rid : Rid) (m : Meta) (t : List Value) (p : Nat) :
    (st.insert rid m t p).length = (st p).length + if rid.page == p then 1 else 0 := by
  unfold Store.insert
  by_cases h : p = rid.page
  · subst h; simp
  · rw [if_neg h]; simp [Ne.symm h]

/-- What the last of some writes wrote. -/
def lastW (ws : List (Nat × Row × Row)) (v : Row) : Row := match ws.getLast? with
  | some w => w.2.2
  | none => v

theorem lastW_snoc (ws : List (Nat × Row × Row)) (w : Nat × Row × Row) (v : Row) :
    lastW (ws ++ [w]) v = w.2.2 := by simp [lastW]

theorem changesTo_snoc (as : List Act) (a : Act) (rid : Rid) : changesTo (as ++ [a]) rid = changesTo as rid ++ (a.changeTo rid).toList := by
  simp only [changesTo, List.filterMap_append]
  cases h : a.changeTo rid <;> simp [h]

theorem committed_snoc (as : List Act) (a : Act) (t : Nat) : committed (as ++ [a]) t = (committed as t || match a with
    | .commit t' => t' == t
    | _ => false) := by
  simp only [committed, List.any_append, List.any_cons, List.any_nil, Bool.or_false]
  cases a <;> rfl

/-! ### Legal histories -/

def after (init : Rid → Row) (len : Nat → Nat) (as : List Act) : Run := as.foldl Run.next (Run.start init len)

theorem Legal_append (s : Run) (as bs : List Act) : s.Legal (as ++ bs) ↔ s.Legal as ∧ (as.foldl Run.next s).Legal bs := by
  induction as generalizing s with
  | nil => simp [Run.Legal]
  | cons a as ih => simp [Run.Legal, ih, and_assoc]

theorem legal_snoc {init : Rid → Row} {len : Nat → Nat} {as : List Act} {a : Act} :
    Legal init len (as ++ [a]) ↔ Legal init len as ∧ (after init len as).legal a := by
  simp [Legal, Legal_append, Run.Legal, after]

theorem after_snoc (init : Rid → Row) (len : Nat → Nat) (as : List Act) (a : Act) : after init len (as ++ [a]) = (after init len as).next a := by
  simp [after, List.foldl_append]

structure HInv (init : Rid → Row) (as : List Act) (s : Run) : Prop where
  cur : ∀ rid, s.cur rid = lastW (changesTo as rid) (init rid)
  fin : ∀ t, committed as t = true ↔ t ∈ s.finished
  disj : ∀ t ∈ s.active, t ∉ s.finished
  acts : ∀ a ∈ as, a.txn ∈ s.active ∨ a.txn ∈ s.finished
  ownAct : ∀ rid t, s.owner rid = some t → t ∈ s.active ∧ ∃ w, (changesTo as rid).getLast? = some w ∧ w.1 = t
  writer : ∀ rid w, w ∈ changesTo as rid → w.1 ∈ s.active → s.owner rid = some w.1
  first : ∀ rid t, s.owner rid = some t → ∃ w, (changesTo as rid).find? (·.1 == t) = some w ∧ w.2.1 = committedValue init as rid
  clean : ∀ rid, s.owner rid = none → committedValue init as rid = s.cur rid

theorem len_after {init : Rid → Row} {len : Nat → Nat} (as : List Act) (p : Nat) :
    (after init len as).len p = len p + as.countP (·.insertsInto p) := by
  induction as using snocInd with
  | h0 => rfl
  | h1 as a ih =>
    rw [after_snoc, List.countP_append, List.countP_singleton, ← Nat.add_assoc, ← ih]
    cases a with
    | change t rid c =>
      show (if c.isInsert && rid.page == p then _ + 1 else _) = _ + if (c.isInsert && rid.page == p) = true then 1 else 0
      split <;> rfl
    | _ => rfl

theorem committedValue_snoc_other {init : Rid → Row} {as : List Act} {a : Act} (h : ∀ t, a ≠ .commit t) (rid : Rid)
    (hw : ∀ w, a.changeTo rid = some w → committed as w.1 = false) :
    committedValue init (as ++ [a]) rid = committedValue init as rid := by
  have hc : ∀ t, committed (as ++ [a]) t = committed as t := by
    intro t
    rw [committed_snoc]
    cases a with
    | commit t' => exact absurd rfl (h t')
    | _ => simp
  simp only [committedValue, changesTo_snoc, hc, List.filter_append]
  cases hwr : a.changeTo rid with
  | none => simp
  | some w => simp [hw w hwr]

theorem mem_changesTo {as : List Act} {rid : Rid} {w : Nat × Row × Row} (h : w ∈ changesTo as rid) :
    ∃ a ∈ as, a.txn = w.1 := by
  simp only [changesTo, List.mem_filterMap] at h
  obtain ⟨a, ha, hw⟩ := h
  refine ⟨a, ha, ?_⟩
  cases a with
  | change t r c =>
    simp only [Act.changeTo] at hw
    split at hw
    · injection hw with hw; subst hw; rfl
    · contradiction
  | _ => simp [Act.changeTo] at hw

theorem hinv {init : Rid → Row} {len : Nat → Nat} {as : List Act} (h : Legal init len as) : HInv init as (after init len as) := by
  induction as using snocInd with
  | h0 =>
    constructor <;> simp [after, Run.start, changesTo, lastW, committed, committedValue]
  | h1 as a ih =>
    obtain ⟨hl, hla⟩ := legal_snoc.mp h
    have hi := ih hl
    rw [after_snoc]
    generalize after init len as = s at hi hla
    cases a with
    | begin t =>
      obtain ⟨hla1, hla2⟩ := hla
      have hcv : ∀ rid, committedValue init (as ++ [.begin t]) rid = committedValue init as rid := fun rid =>
        committedValue_snoc_other (by simp) rid (by simp [Act.changeTo])
      have hwt : ∀ rid, changesTo (as ++ [.begin t]) rid = changesTo as rid := fun rid => by simp [changesTo_snoc, Act.changeTo]
      constructor
      · intro rid; rw [hwt]; exact hi.cur rid
      · intro t'; rw [committed_snoc]; simpa [Run.next] using hi.fin t'
      · intro t' ht'
        simp only [Run.next, List.mem_cons] at ht'
        rcases ht' with rfl | ht'
        · exact hla2
        · exact hi.disj t' ht'
      · intro a ha
        simp only [List.mem_append, List.mem_singleton] at ha
        simp only [Run.next, List.mem_cons]
        rcases ha with ha | rfl
        · rcases hi.acts a ha with h | h
          · exact .inl (.inr h)
          · exact .inr h
        · exact .inl (.inl rfl)
      · intro rid t' ho
        rw [hwt]
        obtain ⟨h1, h2⟩ := hi.ownAct rid t' ho
        exact ⟨List.mem_cons_of_mem _ h1, h2⟩
      · intro rid w hw ha
        rw [hwt] at hw
        simp only [Run.next, List.mem_cons] at ha
        rcases ha with ha | ha
        · obtain ⟨a, h1, h2⟩ := mem_changesTo hw
          have := hi.acts a h1
          rw [h2, ha] at this
          rcases this with h | h
          · exact absurd h hla1
          · exact absurd h hla2
        · exact hi.writer rid w hw ha
      · intro rid t' ho; rw [hwt, hcv]; exact hi.first rid t' ho
      · intro rid ho; rw [hcv]; exact hi.clean rid ho
    | change t rid0 c =>
      obtain ⟨hta, hown, hold, hins⟩ := hla
      have hnc : committed as t = false := by
        cases hc : committed as t
        · rfl
        · exact absurd ((hi.fin t).mp hc) (hi.disj t hta)
      have hcv : ∀ rid, committedValue init (as ++ [.change t rid0 c]) rid = committedValue init as rid := fun rid =>
        committedValue_snoc_other (by simp) rid (by
          intro w hw
          simp only [Act.changeTo] at hw
          split at hw
          · injection hw with hw; subst hw; exact hnc
          · contradiction)
      have hwt0 : changesTo (as ++ [.change t rid0 c]) rid0 = changesTo as rid0 ++ [(t, c.before, c.after)] := by
        simp [changesTo_snoc, Act.changeTo]
      have hwt : ∀ rid, rid ≠ rid0 → changesTo (as ++ [.change t rid0 c]) rid = changesTo as rid := fun rid hne => by
        simp [changesTo_snoc, Act.changeTo, Ne.symm hne]
      constructor
      · intro rid
        by_cases he : rid = rid0
        · subst he; rw [hwt0, lastW_snoc]; simp [Run.next]
        · rw [hwt rid he]; simp only [Run.next, if_neg he]; exact hi.cur rid
      · intro t'; rw [committed_snoc]; simpa [Run.next] using hi.fin t'
      · exact hi.disj
      · intro a ha
        simp only [List.mem_append, List.mem_singleton] at ha
        rcases ha with ha | rfl
        · exact hi.acts a ha
        · exact .inl hta
      · intro rid t' ho
        by_cases he : rid = rid0
        · subst he
          simp only [Run.next, if_pos] at ho
          injection ho with ho; subst ho
          exact ⟨hta, _, by rw [hwt0, List.getLast?_append]; rfl, rfl⟩
        · rw [hwt rid he]
          simp only [Run.next, if_neg he] at ho
          exact hi.ownAct rid t' ho
      · intro rid w hw ha
        by_cases he : rid = rid0
        · subst he
          rw [hwt0, List.mem_append, List.mem_singleton] at hw
          simp only [Run.next, if_pos]
          rcases hw with hw | rfl
          · have := hi.writer rid w hw ha
            rcases hown with h | h
            · rw [h] at this; contradiction
            · rw [h] at this; exact this
          · rfl
        · rw [hwt rid he] at hw
          simp only [Run.next, if_neg he]
          exact hi.writer rid w hw ha
      · intro rid t' ho
        rw [hcv]
        by_cases he : rid = rid0
        · subst he
          simp only [Run.next, if_pos] at ho
          injection ho with ho; subst ho
          rw [hwt0, List.find?_append]
          rcases hown with h | h
          · have hnone : (changesTo as rid).find? (·.1 == t) = none := by
              rw [List.find?_eq_none]
              intro w hw hwt'
              have := hi.writer rid w hw (by rw [show w.1 = t by simpa using hwt']; exact hta)
              rw [h] at this; contradiction
            refine ⟨(t, c.before, c.after), by simp [hnone], ?_⟩
            rw [hi.clean rid h, hold]
          · obtain ⟨w, hw1, hw2⟩ := hi.first rid t h
            exact ⟨w, by rw [hw1]; rfl, hw2⟩
        · rw [hwt rid he]
          simp only [Run.next, if_neg he] at ho
          exact hi.first rid t' ho
      · intro rid ho
        rw [hcv]
        by_cases he : rid = rid0
        · subst he; simp [Run.next] at ho
        · simp only [Run.next, if_neg he] at ho ⊢
          exact hi.clean rid ho
    | commit t =>
      have hta : t ∈ s.active := hla
      have hwt : ∀ rid, changesTo (as ++ [.commit t]) rid = changesTo as rid := fun rid => by simp [changesTo_snoc, Act.changeTo]
      have hcm : ∀ t', t' ≠ t → committed (as ++ [.commit t]) t' = committed as t' := fun t' hne => by
        rw [committed_snoc]; simp [Ne.symm hne]
      have hcmt : committed (as ++ [.commit t]) t = true := by rw [committed_snoc]; simp
      have hcv : ∀ rid, s.owner rid ≠ some t → committedValue init (as ++ [.commit t]) rid = committedValue init as rid := fun rid hne => by
        simp only [committedValue, hwt]
        congr 1
        congr 1
        apply List.filter_congr
        intro w hw
        apply hcm
        rintro rfl
        exact hne (hi.writer rid w hw hta)
      constructor
      · intro rid; rw [hwt]; exact hi.cur rid
      · intro t'
        simp only [Run.next, List.mem_cons]
        by_cases he : t' = t
        · subst he; simp [hcmt]
        · rw [hcm t' he, hi.fin t']; simp [he]
      · intro t' ht'
        simp only [Run.next, List.mem_filter, decide_eq_true_eq, List.mem_cons] at ht' ⊢
        rintro (h | h)
        · exact ht'.2 h
        · exact hi.disj t' ht'.1 h
      · intro a ha
        simp only [List.mem_append, List.mem_singleton] at ha
        simp only [Run.next, List.mem_filter, decide_eq_true_eq, List.mem_cons]
        rcases ha with ha | rfl
        · by_cases he : a.txn = t
          · exact .inr (.inl he)
          · rcases hi.acts a ha with h | h
            · exact .inl ⟨h, he⟩
            · exact .inr (.inr h)
        · exact .inr (.inl rfl)
      · intro rid t' ho
        rw [hwt]
        simp only [Run.next] at ho
        split at ho
        · contradiction
        next hne =>
          obtain ⟨h1, h2⟩ := hi.ownAct rid t' ho
          refine ⟨?_, h2⟩
          simp only [Run.next, List.mem_filter, decide_eq_true_eq]
          exact ⟨h1, by rintro rfl; exact hne ho⟩
      · intro rid w hw ha
        rw [hwt] at hw
        simp only [Run.next, List.mem_filter, decide_eq_true_eq] at ha ⊢
        have := hi.writer rid w hw ha.1
        rw [this, if_neg]
        intro h; injection h with h; exact ha.2 h
      · intro rid t' ho
        simp only [Run.next] at ho
        split at ho
        · contradiction
        next hne => rw [hwt, hcv rid hne]; exact hi.first rid t' ho
      · intro rid ho
        simp only [Run.next] at ho ⊢
        split at ho
        next hown =>
          obtain ⟨_, w, hw, hwt'⟩ := hi.ownAct rid t hown
          rw [hi.cur rid, lastW, hw, committedValue, hwt]
          obtain ⟨l, hl'⟩ : ∃ l, changesTo as rid = l ++ [w] := by
            obtain ⟨l, hl⟩ := List.getLast?_eq_some_iff.mp hw
            exact ⟨l, hl⟩
          rw [hl', List.filter_append]
          simp [hwt', hcmt]
        next hne => rw [hcv rid hne]; exact hi.clean rid ho

/-! ### Analysis -/

theorem analyze_snoc (L : List Rec) (r : Rec) : analyze (L ++ [r]) = analyze1 (analyze L) r := by simp [analyze, List.foldl_append]

structure AInv (as : List Act) (s : Run) (t : Tables) : Prop where
  wf : t.txns.WF
  txns : ∀ x, t.txns.get x = if x ∈ s.active then some (lastLsn (logOf as) x) else none
  start : as ≠ [] → t.start = some 0
  startNil : as = [] → t.start = none
  dirtyLt : ∀ p l, t.dirty.get p = some l → l < as.length
  dirty : ∀ r ∈ logOf as, ∀ p, pageOf r = some p → ∃ l, t.dirty.get p = some l ∧ l ≤ r.lsn

theorem get_addPage (d : AMap Nat Nat) (p l p' : Nat) :
    (addPage d p l).get p' = if p = p' then some ((d.get p).getD l) else d.get p' := by
  cases h : d.get p with
  | none =>
    rw [addPage, if_neg (by simp [AMap.has, h]), AMap.get_set]; simp
  | some v =>
    rw [addPage, if_pos (by simp [AMap.has, h])]
    by_cases he : p = p'
    · subst he; simp [h]
    · simp [he]

theorem ainv {init : Rid → Row} {len : Nat → Nat} {as : List Act} (h : Legal init len as) : AInv as (after init len as) (analyze (logOf as)) := by
  induction as using snocInd with
  | h0 => constructor <;> simp [after, Run.start, analyze, logOf]
  | h1 as a ih =>
    obtain ⟨hl, hla⟩ := legal_snoc.mp h
    have hi := ih hl
    rw [after_snoc, logOf_snoc, analyze_snoc]
    have hst : ∀ x, some ((analyze (logOf as)).start.getD as.length) = some x → x = 0 := by
      intro x hx
      by_cases he : as = []
      · rw [hi.startNil he] at hx; subst he; simpa using hx.symm
      · rw [hi.start he] at hx; simpa using hx.symm
    have hst0 : some ((analyze (logOf as)).start.getD as.length) = some 0 := by
      have := hst _ rfl; rw [this]
    generalize hs : after init len as = s at hi hla
    generalize ht : analyze (logOf as) = t at hi hst0
    cases a with
    | begin x =>
      constructor
      · exact AMap.wf_set hi.wf _ _
      · intro y
        rw [logOf_snoc, lastLsn_snoc]
        simp only [analyze1, Act.rec_, blank, AMap.get_set, Run.next, List.mem_cons]
        by_cases he : x = y
        · subst he; simp
        · rw [if_neg he, hi.txns y]
          simp [he, Ne.symm he]
      · intro _; exact hst0
      · simp
      · intro p l hp
        have := hi.dirtyLt p l hp
        simp; omega
      · intro r hr p hp
        rw [logOf_snoc, List.mem_append, List.mem_singleton] at hr
        rcases hr with hr | rfl
        · exact hi.dirty r hr p hp
        · simp [pageOf, Act.rec_, blank] at hp
    | commit x =>
      constructor
      · exact AMap.wf_erase hi.wf _
      · intro y
        rw [logOf_snoc, lastLsn_snoc]
        simp only [analyze1, Act.rec_, blank, AMap.get_erase, Run.next, List.mem_filter, decide_eq_true_eq]
        by_cases he : x = y
        · subst he; simp
        · rw [if_neg he, hi.txns y]
          simp [he, Ne.symm he]
      · intro _; exact hst0
      · simp
      · intro p l hp
        have := hi.dirtyLt p l hp
        simp; omega
      · intro r hr p hp
        rw [logOf_snoc, List.mem_append, List.mem_singleton] at hr
        rcases hr with hr | rfl
        · exact hi.dirty r hr p hp
        · simp [pageOf, Act.rec_, blank] at hp
    | change x rid c =>
      have hxa : x ∈ s.active := hla.1
      have hd : (analyze1 t ((Act.change x rid c).rec_ as.length (lastLsn (logOf as) (Act.change x rid c).txn))).dirty = addPage t.dirty rid.page as.length := by
        cases c <;> rfl
      have htx : (analyze1 t ((Act.change x rid c).rec_ as.length (lastLsn (logOf as) (Act.change x rid c).txn))).txns = t.txns.set x as.length := by
        cases c <;> rfl
      have hss : (analyze1 t ((Act.change x rid c).rec_ as.length (lastLsn (logOf as) (Act.change x rid c).txn))).start = some (t.start.getD as.length) := by
        cases c <;> rfl
      constructor
      · rw [htx]; exact AMap.wf_set hi.wf _ _
      · intro y
        rw [logOf_snoc, lastLsn_snoc]
        rw [htx, AMap.get_set]
        have hact : (s.next (.change x rid c)).active = s.active := rfl
        rw [hact, txn_rec, lsn_rec]
        by_cases he : x = y
        · subst he; rw [if_pos rfl, if_pos hxa, if_pos (show (Act.change x rid c).txn = x from rfl)]
        · rw [if_neg he, if_neg (show ¬ (Act.change x rid c).txn = y from he), hi.txns y]
      · intro _; rw [hss]; exact hst0
      · simp
      · intro p l hp
        rw [hd, get_addPage] at hp
        split at hp
        · injection hp with hp
          cases hg : t.dirty.get rid.page with
          | none => rw [hg] at hp; simp at hp; simp; omega
          | some v => rw [hg] at hp; simp at hp; have := hi.dirtyLt _ _ hg; simp; omega
        · have := hi.dirtyLt p l hp; simp; omega
      · intro r hr p hp
        rw [logOf_snoc, List.mem_append, List.mem_singleton] at hr
        rw [hd, get_addPage]
        rcases hr with hr | rfl
        · obtain ⟨l, h1, h2⟩ := hi.dirty r hr p hp
          split
          next he => subst he; rw [h1]; exact ⟨l, rfl, h2⟩
          · exact ⟨l, h1, h2⟩
        · have hpg : pageOf ((Act.change x rid c).rec_ as.length (lastLsn (logOf as) (Act.change x rid c).txn)) = some rid.page := by cases c <;> rfl
          simp only [hpg, Option.some.injEq] at hp
          subst hp
          rw [if_pos rfl]
          refine ⟨_, rfl, ?_⟩
          rw [lsn_rec]
          cases hg : t.dirty.get rid.page with
          | none => simp
          | some v => have := hi.dirtyLt _ _ hg; simp; omega

/-! ### Redo -/

theorem kind_change (x : Nat) (rid : Rid) (c : Change) (l p : Nat) :
    ((Act.change x rid c).rec_ l p).kind.isData = true ∧ ((Act.change x rid c).rec_ l p).kind ≠ .begin ∧
      pageOf ((Act.change x rid c).rec_ l p) = some rid.page := by
  cases c <;> simp [Act.rec_, blank, Kind.isData, pageOf]

theorem shouldRedo_all {init : Rid → Row} {len : Nat → Nat} {as : List Act} (h : Legal init len as) :
    ∀ r ∈ logOf as, r.kind.isData = true → shouldRedo (analyze (logOf as)) r = true := by
  intro r hr hk
  have hi := ainv h
  have hne : as ≠ [] := by rintro rfl; simp [logOf] at hr
  have hp : ∃ p, pageOf r = some p := by
    clear hi
    induction as using snocInd with
    | h0 => simp [logOf] at hr
    | h1 as a ih =>
      rw [logOf_snoc, List.mem_append, List.mem_singleton] at hr
      rcases hr with hr | rfl
      · exact ih (legal_snoc.mp h).1 hr (by rintro rfl; simp [logOf] at hr)
      · cases a with
        | change x rid c => exact ⟨_, (kind_change x rid c _ _).2.2⟩
        | _ => simp [Act.rec_, blank, Kind.isData] at hk
  obtain ⟨p, hp⟩ := hp
  obtain ⟨l, hl, hle⟩ := hi.dirty r hr p hp
  simp only [shouldRedo, hi.start hne, hp, hl, hk]
  simp [hle]

/-- The act inserts the row. -/
def Act.inserts (rid : Rid) : Act → Bool
  | .change _ rid' c => c.isInsert && rid' == rid
  | _ => false

theorem seen_redo {init : Rid → Row} {len : Nat → Nat} (t : Tables) (as : List Act) (hl : Legal init len as) (st : Store)
    (hst : ∀ p, as.any (·.insertsInto p) = true → (st p).length = len p)
    (hr : ∀ r ∈ logOf as, r.kind.isData = true → shouldRedo t r = true) :
    (∀ p, (redo (fun _ => true) t (logOf as) st p).length = (st p).length + as.countP (·.insertsInto p)) ∧
    ∀ rid, (redo (fun _ => true) t (logOf as) st).seen rid = if as.any (·.inserts rid) then some (lastW (changesTo as rid) none)
      else (st.seen rid).map (lastW (changesTo as rid)) := by
  induction as using snocInd with
  | h0 =>
    refine ⟨fun p => rfl, fun rid => ?_⟩
    have : lastW (changesTo [] rid) = id := by funext v; rfl
    rw [this]; simp [redo, logOf]
  | h1 as a ih =>
    obtain ⟨hl1, hla⟩ := legal_snoc.mp hl
    obtain ⟨ihl, ih⟩ := ih hl1 (fun p hp => hst p (by rw [List.any_append, hp]; rfl))
      (fun r hm hk => hr r (by rw [logOf_snoc]; exact List.mem_append_left _ hm) hk)
    have hra := hr (a.rec_ as.length (lastLsn (logOf as) a.txn)) (by rw [logOf_snoc]; simp)
    rw [logOf_snoc, redo, List.foldl_append]
    rw [redo] at ih ihl
    generalize List.foldl (fun st r => if shouldRedo t r then redoRec (fun _ => true) st r else st) st (logOf as) = st' at ih ihl
    simp only [List.foldl_cons, List.foldl_nil]
    cases a with
    | change x rid0 c =>
      rw [if_pos (hra (kind_change ..).1)]
      have hw0 : changesTo (as ++ [.change x rid0 c]) rid0 = changesTo as rid0 ++ [(x, c.before, c.after)] := by
        simp [changesTo_snoc, Act.changeTo]
      have hw : ∀ rid, rid0 ≠ rid → changesTo (as ++ [.change x rid0 c]) rid = changesTo as rid := fun rid hne => by
        simp [changesTo_snoc, Act.changeTo, hne]
      have hl0 : ∀ v, lastW (changesTo (as ++ [.change x rid0 c]) rid0) v = c.after := fun v => by rw [hw0, lastW_snoc]
      have hi : ∀ rid, rid0 ≠ rid → (as ++ [Act.change x rid0 c]).any (·.inserts rid) = as.any (·.inserts rid) := fun rid hne => by
        simp [List.any_append, Act.inserts, hne]
      have hgen : ∀ st2 : Store, redoRec (fun _ => true) st' ((Act.change x rid0 c).rec_ as.length (lastLsn (logOf as) x)) = st2 →
          c.isInsert = false → (∀ p, (st2 p).length = (st' p).length) →
          (∀ rid, st2.seen rid = if rid0 = rid then (st'.seen rid).map (fun _ => c.after) else st'.seen rid) →
          (∀ p, (st2 p).length = (st p).length + (as ++ [Act.change x rid0 c]).countP (·.insertsInto p)) ∧
          ∀ rid, st2.seen rid = if (as ++ [Act.change x rid0 c]).any (·.inserts rid)
            then some (lastW (changesTo (as ++ [.change x rid0 c]) rid) none)
            else (st.seen rid).map (lastW (changesTo (as ++ [.change x rid0 c]) rid)) := by
        intro st2 _ hc h1 h2
        refine ⟨fun p => ?_, fun rid => ?_⟩
        · rw [h1, ihl, List.countP_append, List.countP_singleton]
          simp [Act.insertsInto, hc]
        · rw [h2, ih]
          by_cases he : rid0 = rid
          · subst he
            rw [if_pos rfl]
            have : (as ++ [Act.change x rid0 c]).any (·.inserts rid0) = as.any (·.inserts rid0) := by
              simp [List.any_append, Act.inserts, hc]
            rw [this]
            split
            · simp [hl0]
            · rw [Option.map_map]
              congr 1
              funext v
              exact (hl0 v).symm
          · rw [if_neg he, hi rid he, hw rid he]
      cases c with
      | insert new =>
        have hslot : rid0.slot = (st' rid0.page).length := by
          rw [ihl, hst rid0.page (by simp [List.any_append, Act.insertsInto, Change.isInsert]), ← len_after (init := init) as rid0.page]
          exact hla.2.2.2 rfl
        show (∀ p, ((st'.insert rid0 (Meta.new x) new) p).length = _) ∧ ∀ rid, (st'.insert rid0 (Meta.new x) new).seen rid = _
        refine ⟨fun p => ?_, fun rid => ?_⟩
        · rw [length_insert, ihl, List.countP_append, List.countP_singleton]
          simp only [Act.insertsInto, Change.isInsert, Bool.true_and]
          omega
        · rw [seen_insert _ _ _ _ _ hslot]
          by_cases he : rid0 = rid
          · subst he
            rw [if_pos rfl, if_pos (by simp [List.any_append, Act.inserts, Change.isInsert]), hl0]
            rfl
          · rw [if_neg he, hi rid he, hw rid he, ih]
      | update old new =>
        exact hgen _ rfl rfl (fun p => length_update ..) (fun rid => seen_update ..)
      | delete old =>
        exact hgen _ rfl rfl (fun p => length_markDeleted ..) (fun rid => seen_markDeleted ..)
    | begin x =>
      have : redoRec (fun _ => true) st' ((Act.begin x).rec_ as.length (lastLsn (logOf as) (Act.begin x).txn)) = st' := rfl
      rw [this, ite_self]
      refine ⟨fun p => by rw [ihl, List.countP_append]; simp [Act.insertsInto], fun rid => ?_⟩
      rw [ih, changesTo_snoc]
      simp [Act.changeTo, Act.inserts]
    | commit x =>
      have : redoRec (fun _ => true) st' ((Act.commit x).rec_ as.length (lastLsn (logOf as) (Act.commit x).txn)) = st' := rfl
      rw [this, ite_self]
      refine ⟨fun p => by rw [ihl, List.countP_append]; simp [Act.insertsInto], fun rid => ?_⟩
      rw [ih, changesTo_snoc]
      simp [Act.changeTo, Act.inserts]

/-! ### Undo -/

theorem seen_undoRec (st : Store) (x : Nat) (rid rid' : Rid) (c : Change) (l p : Nat) :
    (undoRec (fun _ => true) st ((Act.change x rid c).rec_ l p)).seen rid' =
      if rid = rid' then (st.seen rid').map (fun _ => c.before) else st.seen rid' := by
  cases c with
  | insert new => exact seen_markDeleted ..
  | update old new => exact seen_update ..
  | delete old => exact seen_update ..

/-- What undoing a transaction makes of a row: what it was before the transaction's first change. -/
def undoVal (as : List Act) (t : Nat) (rid : Rid) (v : Row) : Row :=
  match (changesTo as rid).find? (·.1 == t) with
  | some w => w.2.1
  | none => v

theorem seen_undoTxn {init : Rid → Row} {len : Nat → Nat} {acts : List Act} (hlen : acts.length < 2 ^ 64 - 1) (t : Nat) (pre : List Act) :
    Legal init len pre → ∀ suf, acts = pre ++ suf → ∀ k st, pre.length < k →
      ∃ st', undoTxn (fun _ => true) (logOf acts) t k (lastLsn (logOf pre) t) st = some st' ∧
        ∀ rid, st'.seen rid = (st.seen rid).map (undoVal pre t rid) := by
  induction pre using snocInd with
  | h0 =>
    intro _ suf _ k st hk
    cases k with
    | zero => simp at hk
    | succ k =>
      refine ⟨st, by simp [undoTxn, logOf, lastLsn], fun rid => ?_⟩
      have : undoVal [] t rid = id := by funext v; rfl
      simp [this]
  | h1 pre a ih =>
    intro hl suf hacts k st hk
    obtain ⟨hl1, hla⟩ := legal_snoc.mp hl
    have ih := ih hl1 ([a] ++ suf) (by rw [hacts, List.append_assoc])
    rw [List.length_append, List.length_singleton] at hk
    rw [logOf_snoc, lastLsn_snoc, txn_rec, lsn_rec]
    by_cases hat : a.txn = t
    · rw [if_pos hat]
      have hplen : pre.length < 2 ^ 64 - 1 := by
        have := congrArg List.length hacts
        simp only [List.length_append, List.length_singleton] at this; omega
      cases k with
      | zero => simp at hk
      | succ k =>
        rw [undoTxn, if_neg (by omega)]
        rw [hacts, lookup_logOf, ← hacts]
        simp only [txn_rec, hat, if_true, prev_rec]
        cases a with
        | begin x =>
          refine ⟨st, by simp [Act.rec_, blank], fun rid => ?_⟩
          have : undoVal (pre ++ [.begin x]) t rid = id := by
            funext v
            have hn : (changesTo (pre ++ [.begin x]) rid).find? (·.1 == t) = none := by
              rw [changesTo_snoc, List.find?_eq_none]
              intro w hw hwt
              simp only [Act.changeTo, Option.toList_none, List.append_nil] at hw
              obtain ⟨b, hb1, hb2⟩ := mem_changesTo hw
              have := (hinv hl1).acts b hb1
              rw [hb2, show w.1 = t by simpa using hwt, ← hat] at this
              rcases this with h | h
              · exact hla.1 h
              · exact hla.2 h
            simp [undoVal, hn]
          simp [this]
        | change x rid0 c =>
          obtain ⟨st', h1, h2⟩ := ih k (undoRec (fun _ => true) st ((Act.change x rid0 c).rec_ pre.length (lastLsn (logOf pre) t))) (by omega)
          refine ⟨st', ?_, fun rid => ?_⟩
          · rw [if_neg (kind_change ..).2.1]
            exact h1
          · rw [h2, seen_undoRec]
            have hx : x = t := hat
            subst hx
            have huv : ∀ v, undoVal (pre ++ [.change x rid0 c]) x rid v =
                match (changesTo pre rid ++ ((Act.change x rid0 c).changeTo rid).toList).find? (·.1 == x) with
                | some w => w.2.1
                | none => v := fun v => by rw [← changesTo_snoc]; rfl
            rw [show undoVal (pre ++ [.change x rid0 c]) x rid = _ from funext huv]
            simp only [List.find?_append]
            by_cases he : rid0 = rid
            · subst he
              rw [if_pos rfl]
              cases hf : (changesTo pre rid0).find? (·.1 == x) with
              | some w => cases st.seen rid0 <;> simp [undoVal, hf]
              | none => cases st.seen rid0 <;> simp [undoVal, hf, Act.changeTo]
            · rw [if_neg he]
              cases st.seen rid <;> simp [undoVal, Act.changeTo, he]
        | commit x =>
          obtain ⟨st', h1, h2⟩ := ih k st (by omega)
          refine ⟨st', ?_, fun rid => ?_⟩
          · rw [if_neg (by simp [Act.rec_, blank])]
            exact h1
          · rw [h2]
            congr 1
            funext v
            simp only [undoVal, changesTo_snoc]
            simp [Act.changeTo]
    · rw [if_neg hat]
      obtain ⟨st', h1, h2⟩ := ih k st (by omega)
      refine ⟨st', h1, fun rid => ?_⟩
      rw [h2]
      congr 1
      funext v
      simp only [undoVal, changesTo_snoc, List.find?_append]
      have hn : (a.changeTo rid).toList.find? (·.1 == t) = none := by
        rw [List.find?_eq_none]
        intro w hw hwt
        cases a with
        | change x rid0 c =>
          simp only [Act.changeTo] at hw
          split at hw
          · simp at hw; subst hw; exact hat (by simpa [Act.txn] using hwt)
          · simp at hw
        | _ => simp [Act.changeTo] at hw
      rw [hn]; simp

theorem seen_undo {init : Rid → Row} {len : Nat → Nat} {acts : List Act} (hl : Legal init len acts) (hlen : acts.length < 2 ^ 64 - 1) (order : List Nat) :
    (∀ t ∈ order, t ∈ (after init len acts).active) → ∀ st, ∃ st', undo (fun _ => true) (analyze (logOf acts)) (logOf acts) order st = some st' ∧
      ∀ rid, st'.seen rid = (st.seen rid).map fun v => order.foldl (fun v t => undoVal acts t rid v) v := by
  induction order with
  | nil => intro _ st; exact ⟨st, rfl, fun rid => by simp⟩
  | cons t order ih =>
    intro hord st
    have hta := hord t (by simp)
    have ht := (ainv hl).txns t
    rw [if_pos hta] at ht
    obtain ⟨st1, h1, h2⟩ := seen_undoTxn (init := init) hlen t acts hl [] (by simp) (acts.length + 1) st (by omega)
    obtain ⟨st2, h3, h4⟩ := ih (fun t' ht' => hord t' (by simp [ht'])) st1
    refine ⟨st2, ?_, fun rid => ?_⟩
    · simp only [undo, ht, Option.getD_some, length_logOf, h1, Option.bind_some, h3]
    · rw [h4, h2]; simp [Function.comp_def]

theorem foldl_undoVal {init : Rid → Row} {len : Nat → Nat} {acts : List Act} (hl : Legal init len acts) {order : List Nat}
    (hord : ∀ t, t ∈ order ↔ t ∈ (after init len acts).active) (rid : Rid) :
    order.foldl (fun v t => undoVal acts t rid v) ((after init len acts).cur rid) = committedValue init acts rid := by
  have hi := hinv hl
  have hother : ∀ t ∈ order, (after init len acts).owner rid ≠ some t → ∀ v, undoVal acts t rid v = v := by
    intro t ht hne v
    have : (changesTo acts rid).find? (·.1 == t) = none := by
      rw [List.find?_eq_none]
      intro w hw hwt
      have hwt : w.1 = t := by simpa using hwt
      have := hi.writer rid w hw (by rw [hwt]; exact (hord t).mp ht)
      rw [hwt] at this
      exact hne this
    simp [undoVal, this]
  cases ho : (after init len acts).owner rid with
  | none =>
    rw [hi.clean rid ho]
    have : ∀ l : List Nat, (∀ t ∈ l, t ∈ order) → ∀ v, l.foldl (fun v t => undoVal acts t rid v) v = v := by
      intro l hl
      induction l with
      | nil => intro v; rfl
      | cons t l ih =>
        intro v
        rw [List.foldl_cons, hother t (hl t (by simp)) (by rw [ho]; simp), ih (fun t' ht' => hl t' (by simp [ht']))]
    exact this order (fun _ h => h) _
  | some x =>
    obtain ⟨w, hw1, hw2⟩ := hi.first rid x ho
    have hx : ∀ v, undoVal acts x rid v = committedValue init acts rid := fun v => by simp [undoVal, hw1, hw2]
    have : ∀ l : List Nat, (∀ t ∈ l, t ∈ order) → ∀ v, (x ∈ l ∨ v = committedValue init acts rid) →
        l.foldl (fun v t => undoVal acts t rid v) v = committedValue init acts rid := by
      intro l hl
      induction l with
      | nil => intro v hv; simpa using hv
      | cons t l ih =>
        intro v hv
        rw [List.foldl_cons]
        apply ih (fun t' ht' => hl t' (by simp [ht']))
        by_cases he : t = x
        · subst he; exact .inr (hx v)
        · rw [hother t (hl t (by simp)) (by rw [ho]; intro h; injection h with h; exact he h.symm)]
          rcases hv with hv | hv
          · simp only [List.mem_cons] at hv
            rcases hv with hv | hv
            · exact absurd hv.symm he
            · exact .inl hv
          · exact .inr hv
    exact this order (fun _ h => h) _ (.inl ((hord x).mpr (hi.ownAct rid x ho).1))

/-! ## C31 -/

/-- Recovery from the log of any legal history of begins, inserts, updates, deletes and commits, with the log cut after any record, makes
every row that the log mentions look as the last committed change left it, and leaves all other rows alone. The crash may have left any
version of the rows on the pages; a page into which the history inserts rows must not have been written since. The order in which the open
transactions are undone does not matter, and the undo pass ends. -/
theorem C31_row_logs_recovered_partial {init : Rid → Row} {len : Nat → Nat} {acts : List Act} (hl : Legal init len acts)
    (hlen : acts.length < 2 ^ 64 - 1) {order : List Nat} (hord : OrderOf (logOf acts) order) (st : Store)
    (hst : ∀ p, acts.any (·.insertsInto p) = true → (st p).length = len p) :
    ∃ st', recover (fun _ => true) (logOf acts) order st = some st' ∧
      (∀ rid, changesTo acts rid ≠ [] → st.seen rid ≠ none ∨ acts.any (·.inserts rid) = true →
        st'.seen rid = some (committedValue init acts rid)) ∧
      ∀ rid, changesTo acts rid = [] → st'.seen rid = st.seen rid := by
  have ha := ainv hl
  have hmem : ∀ t, t ∈ order ↔ t ∈ (after init len acts).active := by
    intro t
    rw [hord.mem_iff, AMap.mem_keys_iff]
    simp only [ha.txns t]
    by_cases h : t ∈ (after init len acts).active <;> simp [h]
  have hredo := (seen_redo (analyze (logOf acts)) acts hl st hst (shouldRedo_all hl)).2
  obtain ⟨st', h1, h2⟩ := seen_undo hl hlen order (fun t ht => (hmem t).mp ht)
    (redo (fun _ => true) (analyze (logOf acts)) (logOf acts) st)
  refine ⟨st', h1, fun rid hw hv => ?_, fun rid hw => ?_⟩
  · rw [h2, hredo]
    have hcur : ∀ v, lastW (changesTo acts rid) v = (after init len acts).cur rid := by
      intro v
      rw [(hinv hl).cur rid]
      obtain ⟨w, hw'⟩ := Option.ne_none_iff_exists'.mp (fun h => hw (List.getLast?_eq_none_iff.mp h))
      simp [lastW, hw']
    split
    · rw [Option.map_some, hcur, foldl_undoVal hl hmem rid]
    next hni =>
      rcases hv with hv | hv
      · obtain ⟨v, hv⟩ := Option.ne_none_iff_exists'.mp hv
        rw [hv, Option.map_some, Option.map_some, hcur, foldl_undoVal hl hmem rid]
      · exact absurd hv hni
  · rw [h2, hredo]
    have hni : acts.any (·.inserts rid) = false := by
      rw [List.any_eq_false]
      intro a ham hai
      cases a with
      | change t rid' c =>
        simp only [Act.inserts, Bool.and_eq_true, beq_iff_eq] at hai
        have : (t, c.before, c.after) ∈ changesTo acts rid :=
          List.mem_filterMap.mpr ⟨_, ham, by simp [Act.changeTo, hai.2]⟩
        rw [hw] at this; cases this
      | _ => simp [Act.inserts] at hai
    have : ∀ v, order.foldl (fun v t => undoVal acts t rid v) v = v := by
      have h0 : ∀ t v, undoVal acts t rid v = v := fun t v => by simp [undoVal, hw]
      intro v
      clear hord hmem h1 h2
      induction order generalizing v with
      | nil => rfl
      | cons t order ih => rw [List.foldl_cons, h0, ih]
    rw [hni]
    simp only [hw, this]
    cases st.seen rid <;> rfl

/-- A row of one integer. -/
def row (i : Int) : List Value := [.mk (.integer i) (.length 4) false 4 none]

/-- Two transactions change rows: one updates, inserts, deletes and commits, the other is caught by the crash after an update of a row of
the first, an insert and a delete. Page 7 is new. -/
def mixed : List Act :=
  [.begin 1, .change 1 ⟨0, 0⟩ (.update (row 10) (row 11)), .begin 2, .change 2 ⟨0, 1⟩ (.update (row 20) (row 21)),
   .change 1 ⟨7, 0⟩ (.insert (row 70)), .change 1 ⟨5, 0⟩ (.delete (row 50)), .commit 1, .change 2 ⟨7, 1⟩ (.insert (row 71)),
   .change 2 ⟨0, 1⟩ (.delete (row 21)), .change 2 ⟨0, 0⟩ (.update (row 11) (row 12))]

/-- What the rows are at first. -/
def mixedInit (r : Rid) : Row :=
  if r = ⟨0, 0⟩ then some (row 10) else if r = ⟨0, 1⟩ then some (row 20) else if r = ⟨5, 0⟩ then some (row 50) else none

/-- The history is legal, has an open transaction, and the committed rows are as expected. -/
example : Legal mixedInit (fun p => if p = 0 then 2 else if p = 5 then 1 else 0) mixed ∧ OrderOf (logOf mixed) [2] ∧
    committedValue mixedInit mixed ⟨0, 0⟩ = some (row 11) ∧ committedValue mixedInit mixed ⟨0, 1⟩ = some (row 20) ∧
    committedValue mixedInit mixed ⟨5, 0⟩ = none ∧ committedValue mixedInit mixed ⟨7, 0⟩ = some (row 70) ∧
    committedValue mixedInit mixed ⟨7, 1⟩ = none ∧ mixed.any (·.insertsInto 7) = true ∧ mixed.any (·.insertsInto 0) = false := by
  refine ⟨?_, ?_, rfl, rfl, rfl, rfl, rfl, rfl, rfl⟩
  · simp [Legal, mixed, Run.Legal, Run.legal, Run.next, Run.start, mixedInit, Change.before, Change.after, Change.isInsert]
  · have : (analyze (logOf mixed)).txns.keys = [2] := by decide +kernel
    rw [OrderOf, this]

/-! ### Where recovery fails -/

theorem undoTxn_id {avail : Nat → Bool} {log : List Rec} (h : ∀ r ∈ log, ∀ st, undoRec avail st r = st) (t : Nat) {k l : Nat} {st st' : Store}
    (hr : undoTxn avail log t k l st = some st') : st' = st := by
  induction k generalizing l with
  | zero => simp [undoTxn] at hr
  | succ k ih =>
    rw [undoTxn] at hr
    split at hr
    · injection hr with hr; exact hr.symm
    · split at hr
      · injection hr with hr; exact hr.symm
      next r hf =>
        split at hr
        · split at hr
          · injection hr with hr; exact hr.symm
          · have hm : r ∈ log := by
              have := List.mem_of_find?_eq_some hf
              simpa using this
            rw [h r hm] at hr
            exact ih hr
        · injection hr with hr; exact hr.symm

theorem recover_id {avail : Nat → Bool} {log : List Rec} (h1 : ∀ r ∈ log, ∀ st, redoRec avail st r = st)
    (h2 : ∀ r ∈ log, ∀ st, undoRec avail st r = st) {order : List Nat} {st st' : Store} (hr : recover avail log order st = some st') :
    st' = st := by
  have hredo : ∀ (t : Tables) (l : List Rec), (∀ r ∈ l, r ∈ log) → redo avail t l st = st := by
    intro t l hl
    simp only [redo]
    induction l with
    | nil => rfl
    | cons r l ih =>
      rw [List.foldl_cons, h1 r (hl r (by simp)), ite_self]
      exact ih (fun x hx => hl x (by simp [hx]))
  have hundo : ∀ (t : Tables) (order : List Nat) (st : Store), undo avail t log order st = some st' → st' = st := by
    intro t order
    induction order with
    | nil => intro st h; injection h with h; exact h.symm
    | cons x order ih =>
      intro st h
      simp only [undo, Option.bind_eq_some_iff] at h
      obtain ⟨st1, h3, h4⟩ := h
      rw [ih st1 h4, undoTxn_id h2 x h3]
  simp only [recover, hredo _ log (fun _ h => h)] at hr
  exact hundo _ _ _ hr

/-- The engine writes only `Begin`, `Commit` and `Abort` records (`write_update_record` has no callers, the other row records are never
made). From such a log recovery restores nothing: a committed change that had not reached its page is lost. -/
theorem C31_engine_logs_restore_nothing_fails {avail : Nat → Bool} {log : List Rec}
    (h : ∀ r ∈ log, r.kind = .begin ∨ r.kind = .commit ∨ r.kind = .abort) {order : List Nat} {st st' : Store}
    (hr : recover avail log order st = some st') : st' = st := by
  refine recover_id (fun r hm st => ?_) (fun r hm st => ?_) hr
  · rcases h r hm with h | h | h <;> simp [redoRec, h]
  · rcases h r hm with h | h | h <;> simp [undoRec, h]

/-- After a restart the buffer pool takes every page for not allocated, and gives recovery none. Then recovery restores nothing, whatever
the log holds. -/
theorem C31_no_pages_restore_nothing_fails {log : List Rec} {order : List Nat} {st st' : Store}
    (hr : recover (fun _ => false) log order st = some st') : st' = st := by
  refine recover_id (fun r _ st => ?_) (fun r _ st => ?_) hr
  · simp only [redoRec]; (repeat' split) <;> first | rfl | contradiction
  · simp only [undoRec]; (repeat' split) <;> first | rfl | contradiction

/-- One page with one row. -/
def onePage (rows : List (List Value)) : Store := fun p => if p = 0 then rows.map fun r => (⟨0, some 1, false, none⟩, r) else []

/-- A transaction updates a row and is rolled back, which restores the row. Recovery repeats the update and does not undo it. -/
theorem C31_aborted_update_comes_back_fails :
    ∃ st', recover (fun _ => true)
        [newTxnRec 1 (2 ^ 64 - 1) .begin |>.withLsn 0, newUpdateRec 1 0 ⟨0, 0⟩ (row 10) (row 11) |>.withLsn 1, newTxnRec 1 1 .abort |>.withLsn 2]
        [] (onePage [row 10]) = some st' ∧ st'.seen ⟨0, 0⟩ = some (some (row 11)) := ⟨_, rfl, rfl⟩

/-- Transaction 1 is caught by a first crash. After the restart LSNs start again at zero, transaction 2 commits, and after a second crash
the undo of transaction 1 finds a record of transaction 2 under its LSN and stops: the uncommitted value stays. -/
theorem C31_repeated_lsns_fails :
    ∃ st', recover (fun _ => true)
        [newTxnRec 1 (2 ^ 64 - 1) .begin |>.withLsn 0, newUpdateRec 1 0 ⟨0, 0⟩ (row 10) (row 11) |>.withLsn 1,
         newTxnRec 2 (2 ^ 64 - 1) .begin |>.withLsn 0, newUpdateRec 2 0 ⟨0, 1⟩ (row 20) (row 21) |>.withLsn 1, newTxnRec 2 1 .commit |>.withLsn 2]
        [1] (onePage [row 10, row 21]) = some st' ∧ st'.seen ⟨0, 0⟩ = some (some (row 11)) := ⟨_, rfl, rfl⟩

/-- A committed insert whose page had been written before the crash is inserted once more. -/
theorem C31_insert_repeated_fails :
    ∃ st', recover (fun _ => true)
        [newTxnRec 1 (2 ^ 64 - 1) .begin |>.withLsn 0, newInsertDeleteRec 1 0 .insert ⟨0, 0⟩ (row 10) |>.withLsn 1,
         newTxnRec 1 1 .commit |>.withLsn 2] [] (onePage [row 10]) = some st' ∧
      st'.seen ⟨0, 0⟩ = some (some (row 10)) ∧ st'.seen ⟨0, 1⟩ = some (some (row 10)) := ⟨_, rfl, rfl, rfl⟩

/-- A committed update that recovery repeats leaves the row's header saying that it is not committed. -/
theorem C31_recovered_row_not_committed_fails :
    ∃ st', recover (fun _ => true)
        [newTxnRec 1 (2 ^ 64 - 1) .begin |>.withLsn 0, newUpdateRec 1 0 ⟨0, 0⟩ (row 10) (row 11) |>.withLsn 1, newTxnRec 1 1 .commit |>.withLsn 2]
        [] (onePage [row 10]) = some st' ∧ st'.get ⟨0, 0⟩ = some (⟨1, none, false, none⟩, row 11) := ⟨_, rfl, rfl⟩

/-! ### Recovery ends -/

theorem undoTxn_ends {avail : Nat → Bool} {log : List Rec}
    (h : ∀ r ∈ log, r.kind = .begin ∨ r.prevLsn = 2 ^ 64 - 1 ∨ r.prevLsn < r.lsn) (t : Nat) (k l : Nat) (st : Store)
    (hk : log.countP (fun r => decide (r.lsn ≤ l)) < k) (hk0 : 0 < k) (hl : l ≠ 2 ^ 64 - 1) : ∃ st', undoTxn avail log t k l st = some st' := by
  induction k generalizing l st with
  | zero => omega
  | succ k ih =>
    rw [undoTxn, if_neg hl]
    split
    · exact ⟨st, rfl⟩
    next r hf =>
      have hm : r ∈ log := by simpa using List.mem_of_find?_eq_some hf
      have hrl : r.lsn = l := by simpa using List.find?_some hf
      split
      · split
        · exact ⟨st, rfl⟩
        next hb =>
          have hpos : 0 < log.countP (fun r => decide (r.lsn ≤ l)) := List.countP_pos_iff.mpr ⟨r, hm, by simp [hrl]⟩
          rcases h r hm with h' | h' | h'
          · exact absurd h' hb
          · cases k with
            | zero => omega
            | succ k => exact ⟨undoRec avail st r, by rw [undoTxn, if_pos h']⟩
          · have hlt : log.countP (fun x => decide (x.lsn ≤ r.prevLsn)) < log.countP (fun r => decide (r.lsn ≤ l)) := by
              rw [hrl] at h'
              obtain ⟨l1, l2, he⟩ := List.append_of_mem hm
              have hmono : ∀ L : List Rec, L.countP (fun x => decide (x.lsn ≤ r.prevLsn)) ≤ L.countP (fun r => decide (r.lsn ≤ l)) :=
                fun L => List.countP_mono_left fun x _ hx => by simp only [decide_eq_true_eq] at hx ⊢; omega
              have h1 := hmono l1
              have h2 := hmono l2
              rw [he, List.countP_append, List.countP_append, List.countP_cons, List.countP_cons]
              rw [if_neg (by simp; omega), if_pos (by simp [hrl])]
              omega
            by_cases hi : r.prevLsn = 2 ^ 64 - 1
            · cases k with
              | zero => omega
              | succ k => exact ⟨undoRec avail st r, by rw [undoTxn, if_pos hi]⟩
            · exact ih _ _ (by omega) (by omega) hi
      · exact ⟨st, rfl⟩

/-- Recovery ends if every record points back to an earlier LSN, even if LSNs repeat because the database has been restarted. -/
theorem C31_recovery_ends {avail : Nat → Bool} {log : List Rec}
    (h : ∀ r ∈ log, r.kind = .begin ∨ r.prevLsn = 2 ^ 64 - 1 ∨ r.prevLsn < r.lsn) (order : List Nat) (st : Store) :
    ∃ st', recover avail log order st = some st' := by
  simp only [recover]
  generalize analyze log = t
  generalize redo avail t log st = st0
  induction order generalizing st0 with
  | nil => exact ⟨st0, rfl⟩
  | cons x order ih =>
    simp only [undo]
    have : ∃ st1, undoTxn avail log x (log.length + 1) ((t.txns.get x).getD (2 ^ 64 - 1)) st0 = some st1 := by
      by_cases hl : (t.txns.get x).getD (2 ^ 64 - 1) = 2 ^ 64 - 1
      · exact ⟨st0, by rw [undoTxn, if_pos hl]⟩
      · exact undoTxn_ends h x _ _ _ (Nat.lt_succ_of_le List.countP_le_length) (Nat.succ_pos _) hl
    obtain ⟨st1, h1⟩ := this
    rw [h1]
    exact ih st1

/-- The log of two runs of the database, with repeated LSNs, meets the hypothesis. -/
example : ∀ r ∈ logOf mixed ++ logOf mixed, r.kind = .begin ∨ r.prevLsn = 2 ^ 64 - 1 ∨ r.prevLsn < r.lsn := by decide +kernel

end Verif.Wal
