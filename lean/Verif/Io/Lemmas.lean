import Verif.Io.Spec

/-! Lemmas: files, histories, and the invariant of the engine. -/

namespace Verif.Io

open Spec

/-! ## Files -/

theorem readAt_has {f : Data} {off n : Nat} {d : Data} (h : readAt f off n = some d) : Has f off n d := by
  unfold readAt at h
  split at h
  · rename_i hl
    cases h
    refine ⟨hl, by simp; omega, ?_⟩
    intro i hi
    rw [List.getElem?_take_of_lt hi, List.getElem?_drop]
  · cases h

theorem writeAt_written (f : Data) (off : Nat) (d : Data) : Written f off d (writeAt f off d) := by
  unfold writeAt
  cases d with
  | nil =>
    refine ⟨by simp, ?_⟩
    intro i hi
    simp at hi
    have : ¬ (off ≤ i ∧ i < off + 0) := by omega
    simp [this, hi]
  | cons b d =>
    have hlen : (f.take off ++ List.replicate (off - f.length) 0 ++ (b :: d) ++ f.drop (off + (b :: d).length)).length = max f.length (off + (b :: d).length) := by
      simp only [List.length_append, List.length_take, List.length_replicate, List.length_drop]
      omega
    refine ⟨by simpa using hlen, ?_⟩
    simp only [List.isEmpty_cons, Bool.false_eq_true, ↓reduceIte]
    intro i hi
    rw [hlen] at hi
    generalize hD : (b :: d) = D at *
    have hpre : (f.take off ++ List.replicate (off - f.length) (0 : Bytes.Byte)).length = off := by
      simp only [List.length_append, List.length_take, List.length_replicate]; omega
    by_cases h1 : i < off
    · have hn : ¬ (off ≤ i ∧ i < off + D.length) := by omega
      rw [if_neg hn, List.append_assoc (_ ++ _), List.getElem?_append_left (by rw [hpre]; exact h1)]
      by_cases h2 : i < f.length
      · rw [if_pos h2, List.getElem?_append_left (by simp; omega), List.getElem?_take_of_lt h1]
      · rw [if_neg h2, List.getElem?_append_right (by simp; omega)]
        rw [List.getElem?_replicate, if_pos (by simp; omega)]
    · by_cases h2 : i < off + D.length
      · rw [if_pos ⟨by omega, h2⟩, List.append_assoc (_ ++ _), List.getElem?_append_right (by rw [hpre]; omega), hpre,
          List.getElem?_append_left (by omega)]
      · have hn : ¬ (off ≤ i ∧ i < off + D.length) := by omega
        have h3 : i < f.length := by omega
        rw [if_neg hn, if_pos h3, List.getElem?_append_right (by rw [List.length_append, hpre]; omega), List.length_append, hpre, List.getElem?_drop]
        congr 1
        omega

theorem writeAt_end (f d : Data) : writeAt f f.length d = f ++ d := by
  unfold writeAt
  cases d with
  | nil => simp
  | cons b d => simp

theorem pageOff_small {p : Nat} (h : p < 2 ^ 52) : pageOff p = p * 4096 := by
  unfold pageOff
  apply Nat.mod_eq_of_lt
  omega

theorem exec_act (f : Files) (k : Kind) (cut : Option Nat) (hs : Small k) :
    Act k f.db f.log (f.exec k cut).2 (f.exec k cut).1.db (f.exec k cut).1.log := by
  cases k with
  | readPage p =>
    have hp := pageOff_small (p := p) hs
    simp only [Files.exec, hp]
    cases cut with
    | some n => exact ⟨rfl, rfl⟩
    | none =>
      cases hr : readAt f.db (p * 4096) 4096 with
      | none => exact ⟨rfl, rfl⟩
      | some d => exact ⟨readAt_has hr, rfl, rfl⟩
  | writePage p d =>
    have hp := pageOff_small (p := p) hs
    simp only [Files.exec, hp]
    by_cases hd : d.length = 4096
    · rw [if_pos hd]
      cases cut with
      | none => exact ⟨hd, writeAt_written _ _ _, rfl⟩
      | some n => exact ⟨rfl, n, writeAt_written _ _ _⟩
    · rw [if_neg hd]
      refine ⟨rfl, 0, ?_⟩
      have := writeAt_written f.db (p * 4096) []
      simpa [writeAt] using this
  | readLog off n =>
    simp only [Files.exec]
    by_cases hn : n = 0
    · subst hn; rw [if_pos rfl]; exact ⟨fun h => absurd rfl h, rfl, rfl, rfl⟩
    · rw [if_neg hn]
      cases cut with
      | some n => exact ⟨rfl, rfl⟩
      | none =>
        cases hr : readAt f.log off n with
        | none => exact ⟨rfl, rfl⟩
        | some d => exact ⟨fun _ => readAt_has hr, (readAt_has hr).2.1, rfl, rfl⟩
  | writeLog d off =>
    simp only [Files.exec]
    cases d with
    | nil =>
      refine ⟨?_, rfl⟩
      have := writeAt_written f.log off []
      simpa [writeAt] using this
    | cons b d =>
      simp only [List.isEmpty_cons, Bool.false_eq_true, ↓reduceIte]
      cases cut with
      | none => exact ⟨writeAt_written _ _ _, rfl⟩
      | some n => exact ⟨rfl, n, writeAt_written _ _ _⟩
  | appendLog d =>
    simp only [Files.exec]
    have ho : f.log.length < 2 ^ 64 → (Bytes.toLE 8 f.log.length).length = 8 ∧ Bytes.ofLE (Bytes.toLE 8 f.log.length) = f.log.length :=
      fun h => ⟨Bytes.length_toLE _ _, Bytes.ofLE_toLE (by simpa using h)⟩
    cases d with
    | nil =>
      simp only [List.isEmpty_nil, ↓reduceIte]
      cases cut with
      | none => exact ⟨rfl, (List.append_nil _).symm, ho⟩
      | some n => exact ⟨rfl, 0, by simp⟩
    | cons b d =>
      simp only [List.isEmpty_cons, Bool.false_eq_true, ↓reduceIte]
      cases cut with
      | none => exact ⟨rfl, writeAt_end f.log (b :: d), ho⟩
      | some n => exact ⟨rfl, n, writeAt_end f.log ((b :: d).take n)⟩
  | sync => cases cut <;> exact ⟨rfl, rfl⟩
  | syncLog => cases cut <;> exact ⟨rfl, rfl⟩

/-! ## Histories -/

theorem Spec.Acts.append {db log l db1 log1 l' db' log'} (h : Acts db log l db1 log1) (h' : Acts db1 log1 l' db' log') :
    Acts db log (l ++ l') db' log' := by
  induction h with
  | nil => exact h'
  | call i k _ ih => exact .call i k (ih h')
  | ret i r _ ih => exact .ret i r (ih h')
  | act i k r ha _ ih => exact .act i k r ha (ih h')

theorem placed_nil : Placed [] := by
  intro pre x post h
  have := congrArg List.length h
  simp at this

theorem Spec.Placed.snoc {h : List Lab} {x : Lab} (hp : Placed h) (ha : After h x) : Placed (h ++ [x]) := by
  intro pre y post e
  rcases List.eq_nil_or_concat post with rfl | ⟨post', z, rfl⟩
  · have := List.append_inj' e rfl
    obtain ⟨rfl, e2⟩ := this
    cases e2
    exact ha
  · have e' : h ++ [x] = (pre ++ y :: post') ++ [z] := by simpa using e
    have := List.append_inj' e' rfl
    exact hp _ _ _ this.1

theorem Spec.Placed.left {h h' : List Lab} (hp : Placed (h ++ h')) : Placed h := by
  intro pre x post e
  exact hp pre x (post ++ h') (by simp [e])

/-! ## Counting who holds an operation -/

theorem countP_set {α : Type} (p : α → Bool) {l : List α} {n : Nat} {x : α} (y : α) (h : l[n]? = some x) :
    (l.set n y).countP p + (if p x then 1 else 0) = l.countP p + (if p y then 1 else 0) := by
  induction l generalizing n with
  | nil => simp at h
  | cons a l ih =>
    cases n with
    | zero =>
      simp at h; subst h
      simp only [List.set_cons_zero, List.countP_cons]
      omega
    | succ n =>
      simp only [List.set_cons_succ, List.countP_cons]
      have := ih (n := n) (by simpa using h)
      omega

theorem countP_eraseIdx {α : Type} (p : α → Bool) {l : List α} {n : Nat} {x : α} (h : l[n]? = some x) :
    (l.eraseIdx n).countP p + (if p x then 1 else 0) = l.countP p := by
  induction l generalizing n with
  | nil => simp at h
  | cons a l ih =>
    cases n with
    | zero =>
      simp at h; subst h
      simp only [List.eraseIdx_cons_zero, List.countP_cons]
    | succ n =>
      simp only [List.eraseIdx_cons_succ, List.countP_cons]
      have := ih (n := n) (by simpa using h)
      omega

theorem mem_set_cases {α : Type} {l : List α} {n : Nat} {y z : α} (h : z ∈ l.set n y) : z = y ∨ z ∈ l := by
  induction l generalizing n with
  | nil => simp at h
  | cons a l ih =>
    cases n with
    | zero =>
      simp only [List.set_cons_zero, List.mem_cons] at h
      rcases h with h | h
      · exact .inl h
      · exact .inr (List.mem_cons_of_mem _ h)
    | succ n =>
      simp only [List.set_cons_succ, List.mem_cons] at h
      rcases h with h | h
      · exact .inr (by simp [h])
      · rcases ih h with h | h
        · exact .inl h
        · exact .inr (List.mem_cons_of_mem _ h)

/-- The operation a worker has in hand. -/
def Worker.op : Worker → Option Op
  | .took o | .waiting o | .running o | .ran o _ => some o
  | _ => none

/-- The worker has in hand operation `i`. -/
def Worker.hasId (i : Nat) (w : Worker) : Bool :=
  match w.op with
  | some o => o.id == i
  | none => false

/-- How many places hold operation `i`. -/
def St.cnt (s : St) (i : Nat) : Nat :=
  s.calls.countP (·.id == i) + s.queue.countP (·.id == i) + s.workers.countP (Worker.hasId i)

/-- An operation that is on its way and has not been executed. -/
inductive St.Waits (s : St) (o : Op) : Prop where
  | calls : o ∈ s.calls → s.Waits o
  | queue : o ∈ s.queue → s.Waits o
  | took : .took o ∈ s.workers → s.Waits o
  | waiting : .waiting o ∈ s.workers → s.Waits o
  | running : .running o ∈ s.workers → s.Waits o

/-- The call a label belongs to. -/
def Lab.id : Lab → Id
  | .call i _ | .act i _ _ | .ret i _ => i

structure Inv (s : St) (h : List Lab) : Prop where
  one : ∀ i, s.cnt i ≤ 1
  waits : ∀ o, s.Waits o → o.id < s.next ∧ .call (.op o.id) o.kind ∈ h ∧ ∀ k r, Lab.act (.op o.id) k r ∉ h
  ran : ∀ o r, .ran o r ∈ s.workers → o.id < s.next ∧ .act (.op o.id) o.kind r ∈ h
  new : ∀ x ∈ h, match x.id with | .op n => n < s.next | .direct n => n < s.nextDirect
  pend : ∀ i t, s.ops.get i = some (.pending t) → i < s.next ∧ (∃ k, .call (.op i) k ∈ h) ∧ ∀ r, Lab.ret (.op i) r ∉ h
  directs : ∀ c ∈ s.directs, c.1 < s.nextDirect ∧ .call (.direct c.1) c.2 ∈ h ∧ (∀ k r, Lab.act (.direct c.1) k r ∉ h) ∧ ∀ r, Lab.ret (.direct c.1) r ∉ h
  wf : AMap.WF s.ops
  oneDirect : ∀ i, s.directs.countP (·.1 == i) ≤ 1
  placed : Placed h

theorem Inv.of_sub {s s' : St} {h : List Lab} (hi : Inv s h)
    (hcnt : ∀ i, s'.cnt i ≤ s.cnt i)
    (hw : ∀ o, s'.Waits o → ∃ o', s.Waits o' ∧ o'.id = o.id ∧ o'.kind = o.kind)
    (hr : ∀ o r, .ran o r ∈ s'.workers → .ran o r ∈ s.workers)
    (hn : s'.next = s.next) (hd : s'.nextDirect = s.nextDirect) (hdd : s'.directs = s.directs)
    (hp : ∀ i t, s'.ops.get i = some (.pending t) → s.ops.get i = some (.pending t)) (hwf : AMap.WF s'.ops) : Inv s' h where
  one i := Nat.le_trans (hcnt i) (hi.one i)
  waits o ho := by
    obtain ⟨o', h1, h2, h3⟩ := hw o ho
    have := hi.waits o' h1
    rw [h2, h3] at this
    rw [hn]; exact this
  ran o r ho := by rw [hn]; exact hi.ran o r (hr o r ho)
  new x hx := by rw [hn, hd]; exact hi.new x hx
  pend i t ht := by rw [hn]; exact hi.pend i t (hp i t ht)
  directs c hc := by rw [hd]; rw [hdd] at hc; exact hi.directs c hc
  wf := hwf
  oneDirect i := by rw [hdd]; exact hi.oneDirect i
  placed := hi.placed

theorem get_filter_sub {m : AMap Nat Status} (hw : AMap.WF m) (p : Nat × Status → Bool) {i : Nat} {v : Status}
    (h : AMap.get (m.filter p) i = some v) : m.get i = some v := by
  induction m with
  | nil => simp at h
  | cons a m ih =>
    obtain ⟨k, u⟩ := a
    rw [AMap.wf_cons] at hw
    simp only [List.filter_cons] at h
    simp only [AMap.get]
    by_cases hk : k = i
    · subst hk
      rw [if_pos rfl]
      split at h
      · simpa [AMap.get] using h
      · have := ih hw.2 h
        exfalso
        exact hw.1 ((AMap.mem_keys_iff _ _).2 ⟨_, this⟩)
    · rw [if_neg hk]
      split at h
      · simp only [AMap.get, if_neg hk] at h; exact ih hw.2 h
      · exact ih hw.2 h

theorem wf_filter {m : AMap Nat Status} (hw : AMap.WF m) (p : Nat × Status → Bool) : AMap.WF (K := Nat) (V := Status) (m.filter p) := by
  unfold AMap.WF AMap.keys at *
  exact List.Nodup.sublist (List.Sublist.map _ List.filter_sublist) hw

end Verif.Io
