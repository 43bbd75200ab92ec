import Verif.Metrics.Spec

/-!
# Lemmas about the metrics
-/

namespace Verif.Metrics

open Spec

/-- What a list of actions adds to a counter. -/
def added (c : Ctr) : List Act → Nat
  | [] => 0
  | .add d n :: as => (if c = d then n else 0) + added c as
  | _ :: as => added c as

theorem added_append (c : Ctr) : ∀ as bs, added c (as ++ bs) = added c as + added c bs
  | [], bs => by simp [added]
  | a :: as, bs => by
    have := added_append c as bs
    cases a <;> simp only [List.cons_append, added, this]
    omega

theorem bucketOf_in (l : Nat) : InBucket (bucketOf l) l := by
  unfold bucketOf
  repeat' split
  all_goals first | (show _ ∧ _; omega) | (show _ ≤ _; omega) | (show _ < _; omega)

theorem inBucket_eq {i l : Nat} (h : InBucket i l) : bucketOf l = i := by
  unfold InBucket at h
  unfold bucketOf
  split at h
  all_goals first
    | exact h.elim
    | (repeat first | rw [if_neg (by omega)] | rw [if_pos (by omega)])

theorem bucketOf_iff (i l : Nat) : i = bucketOf l ↔ InBucket i l :=
  ⟨fun h => h ▸ bucketOf_in l, fun h => (inBucket_eq h).symm⟩

theorem added_latency (c : Ctr) (l : Nat) : added c (latency l) = if c = .bucket (bucketOf l) then 1 else 0 := by
  simp [latency, added]

theorem added_acts (c : Ctr) (x : Call) : added c (acts x) = amount c x := by
  cases c with
  | bucket i =>
    cases x with
    | read l b ok =>
      simp only [acts, added_append, added_latency, amount, Ctr.bucket.injEq, bucketOf_iff]
      cases ok <;> simp [added]
    | write l b =>
      simp only [acts, added_append, added_latency, amount, Ctr.bucket.injEq, bucketOf_iff]
      simp [added]
    | cache lv hit =>
      cases hit <;> simp only [acts, levelHit, amount] <;> (repeat' split) <;> simp_all [added]
    | migrate p => cases p <;> simp [acts, added, amount]
    | _ => simp [acts, added, amount]
  | _ =>
    cases x with
    | read l b ok => cases ok <;> simp [acts, added_append, added_latency, added, amount]
    | write l b => simp [acts, added_append, added_latency, added, amount]
    | cache lv hit =>
      cases hit <;> simp only [acts, levelHit, amount] <;> (repeat' split) <;> simp_all [added]
    | migrate p => cases p <;> simp [acts, added, amount]
    | _ => simp [acts, added, amount]

theorem added_calls (c : Ctr) : ∀ cs : List Call, added c (cs.flatMap acts) = (cs.map (amount c)).sum
  | [] => by simp [added]
  | x :: cs => by simp [added_append, added_acts, added_calls c cs]

/-- What the threads have still to add. -/
def pending (c : Ctr) (ts : List Thread) : Nat := (ts.map fun t => added c t.todo).sum

theorem pending_set (c : Ctr) : ∀ (ts : List Thread) (i : Nat) (t u : Thread), ts[i]? = some t →
    pending c (ts.set i u) + added c t.todo = pending c ts + added c u.todo
  | [], i, t, u, h => by simp at h
  | a :: ts, 0, t, u, h => by
    simp only [List.getElem?_cons_zero, Option.some.injEq] at h
    subst h
    simp only [pending, List.set_cons_zero, List.map_cons, List.sum_cons]
    omega
  | a :: ts, i + 1, t, u, h => by
    simp only [List.getElem?_cons_succ] at h
    have := pending_set c ts i t u h
    simp only [pending, List.set_cons_succ, List.map_cons, List.sum_cons] at this ⊢
    omega

theorem exec_ctr (c : Ctr) (s : Live) (r : Nat) (a : Act) (as : List Act) (h : s.ctr c < M) :
    ((exec s r a).1.ctr c + added c as) % M = (s.ctr c + added c (a :: as)) % M ∧ (exec s r a).1.ctr c < M := by
  have hM : 0 < M := by decide
  cases a with
  | add d n =>
    by_cases hd : c = d
    · subst hd
      simp only [exec, Live.add, added, if_pos]
      refine ⟨?_, Nat.mod_lt _ hM⟩
      rw [Nat.mod_add_mod]; congr 1; omega
    · simp only [exec, Live.add, added, if_neg hd]
      exact ⟨by congr 1; omega, h⟩
  | storeMax l => simp only [exec, added]; split <;> exact ⟨rfl, h⟩
  | storeMin l => simp only [exec, added]; split <;> exact ⟨rfl, h⟩
  | loadMax => exact ⟨rfl, h⟩
  | loadMin => exact ⟨rfl, h⟩

theorem step_ctr (c : Ctr) (w : World) (i : Nat) (h : w.live.ctr c < M) :
    ((w.step i).live.ctr c + pending c (w.step i).threads) % M = (w.live.ctr c + pending c w.threads) % M
    ∧ (w.step i).live.ctr c < M := by
  unfold World.step
  split
  · rename_i r a as ht
    obtain ⟨h1, h2⟩ := exec_ctr c w.live r a as h
    have h3 := pending_set c w.threads i _ ⟨(exec w.live r a).2, as⟩ ht
    dsimp only at h3 ⊢
    refine ⟨?_, h2⟩
    have e1 : ((exec w.live r a).1.ctr c + pending c (w.threads.set i ⟨(exec w.live r a).2, as⟩)) + added c (a :: as)
        = ((exec w.live r a).1.ctr c + added c as) + pending c w.threads := by omega
    have e2 : (w.live.ctr c + pending c w.threads) + added c (a :: as) = (w.live.ctr c + added c (a :: as)) + pending c w.threads := by omega
    have e3 : (((exec w.live r a).1.ctr c + pending c (w.threads.set i ⟨(exec w.live r a).2, as⟩)) + added c (a :: as)) % M
        = ((w.live.ctr c + pending c w.threads) + added c (a :: as)) % M := by
      rw [e1, e2, Nat.add_mod, h1, ← Nat.add_mod]
    simp only [M] at e3 ⊢
    omega
  · exact ⟨rfl, h⟩

theorem run_ctr (c : Ctr) : ∀ (sched : List Nat) (w : World), w.live.ctr c < M →
    ((w.run sched).live.ctr c + pending c (w.run sched).threads) % M = (w.live.ctr c + pending c w.threads) % M
    ∧ (w.run sched).live.ctr c < M
  | [], w, h => ⟨rfl, h⟩
  | i :: sched, w, h => by
    obtain ⟨h1, h2⟩ := step_ctr c w i h
    obtain ⟨h3, h4⟩ := run_ctr c sched (w.step i) h2
    exact ⟨h3.trans h1, h4⟩

theorem pending_done (c : Ctr) : ∀ ts : List Thread, (∀ t ∈ ts, t.todo = []) → pending c ts = 0
  | [], _ => rfl
  | t :: ts, h => by
    have := pending_done c ts fun x hx => h x (List.mem_cons_of_mem _ hx)
    simp only [pending, List.map_cons, List.sum_cons] at this ⊢
    rw [h t List.mem_cons_self, this]; rfl

theorem pending_start (c : Ctr) (s : Live) : ∀ progs : List (List Call), pending c (World.start s progs).threads = total c progs
  | [] => rfl
  | p :: ps => by
    have := pending_start c s ps
    simp only [pending, World.start, total, List.map_cons, List.sum_cons, List.flatten_cons, List.map_append, List.sum_append, added_calls]
      at this ⊢
    rw [this]

/-! ### The largest and the least latency -/

/-- The latencies of the actions that may store one. -/
def stores : List Act → List Nat
  | [] => []
  | .storeMax l :: as => l :: stores as
  | _ :: as => stores as

theorem stores_append : ∀ as bs, stores (as ++ bs) = stores as ++ stores bs
  | [], bs => rfl
  | a :: as, bs => by
    have := stores_append as bs
    cases a <;> simp [stores, this]

theorem stores_acts (x : Call) : stores (acts x) = (latOf x).toList := by
  cases x with
  | read l b ok => cases ok <;> rfl
  | write l b => rfl
  | cache lv hit =>
    cases hit <;> simp only [acts, levelHit, latOf] <;> (repeat' split) <;> simp_all [stores]
  | migrate p => cases p <;> rfl
  | _ => rfl

theorem stores_calls : ∀ cs : List Call, stores (cs.flatMap acts) = cs.filterMap latOf
  | [] => rfl
  | x :: cs => by
    simp only [List.flatMap_cons, stores_append, stores_acts, stores_calls cs, List.filterMap_cons]
    cases latOf x <;> rfl

/-- The largest latency is 0 or one that was recorded, under every schedule. -/
theorem step_max (S : Nat → Prop) (w : World) (i : Nat) (hm : S w.live.max) (ht : ∀ t ∈ w.threads, ∀ l ∈ stores t.todo, S l) :
    S (w.step i).live.max ∧ ∀ t ∈ (w.step i).threads, ∀ l ∈ stores t.todo, S l := by
  unfold World.step
  split
  · rename_i r a as he
    have hmem := ht _ (List.mem_of_getElem? he)
    refine ⟨?_, ?_⟩
    · dsimp only
      cases a with
      | add c n => exact hm
      | storeMax l =>
        simp only [exec]
        split
        · exact hmem l (by simp [stores])
        · exact hm
      | storeMin l => simp only [exec]; split <;> exact hm
      | loadMax => exact hm
      | loadMin => exact hm
    · intro t hti l hl
      rcases List.mem_or_eq_of_mem_set hti with h | h
      · exact ht t h l hl
      · subst h
        refine hmem l ?_
        dsimp only at hl
        cases a <;> simp only [stores, List.mem_cons] <;> first | exact Or.inr hl | exact hl
  · exact ⟨hm, ht⟩

theorem run_max (S : Nat → Prop) : ∀ (sched : List Nat) (w : World), S w.live.max → (∀ t ∈ w.threads, ∀ l ∈ stores t.todo, S l) →
    S (w.run sched).live.max
  | [], w, hm, _ => hm
  | i :: sched, w, hm, ht => by
    obtain ⟨h1, h2⟩ := step_max S w i hm ht
    exact run_max S sched (w.step i) h1 h2

/-- All actions of one thread. -/
def execAll (s : Live) (r : Nat) : List Act → Live × Nat
  | [] => (s, r)
  | a :: as => execAll (exec s r a).1 (exec s r a).2 as

theorem execAll_append (as bs : List Act) : ∀ (s : Live) (r : Nat),
    execAll s r (as ++ bs) = execAll (execAll s r as).1 (execAll s r as).2 bs := by
  induction as with
  | nil => intro s r; rfl
  | cons a as ih => intro s r; exact ih _ _

theorem run_one : ∀ (sched : List Nat) (s : Live) (r : Nat) (as : List Act), ((⟨s, [⟨r, as⟩]⟩ : World).run sched).Done →
    ((⟨s, [⟨r, as⟩]⟩ : World).run sched).live = (execAll s r as).1
  | [], s, r, as, h => by
    have : as = [] := h ⟨r, as⟩ (by simp [World.run])
    subst this; rfl
  | i :: sched, s, r, as, h => by
    have e : ∀ w : World, w.run (i :: sched) = (w.step i).run sched := fun _ => rfl
    rw [e] at h ⊢
    cases i with
    | zero =>
      cases as with
      | nil => exact run_one sched s r [] h
      | cons a as => exact run_one sched _ _ as h
    | succ j =>
      have e2 : (⟨s, [⟨r, as⟩]⟩ : World).step (j + 1) = ⟨s, [⟨r, as⟩]⟩ := by simp [World.step]
      rw [e2] at h ⊢
      exact run_one sched s r as h

theorem add_max (s : Live) (c : Ctr) (n : Nat) : (s.add c n).max = s.max ∧ (s.add c n).min = s.min := ⟨rfl, rfl⟩

theorem execAll_adds : ∀ (as : List Act) (s : Live) (r : Nat), (∀ a ∈ as, ∃ c n, a = .add c n) →
    (execAll s r as).1.max = s.max ∧ (execAll s r as).1.min = s.min
  | [], s, r, _ => ⟨rfl, rfl⟩
  | a :: as, s, r, h => by
    obtain ⟨c, n, rfl⟩ := h a List.mem_cons_self
    exact execAll_adds as (s.add c n) r fun x hx => h x (List.mem_cons_of_mem _ hx)

theorem execAll_latency (s : Live) (r l : Nat) : (execAll s r (latency l)).1.max = Nat.max s.max l
    ∧ (execAll s r (latency l)).1.min = Nat.min s.min l := by
  have e : ∀ s : Live, (execAll s r [.loadMax, .storeMax l]).1.max = Nat.max s.max l ∧ (execAll s r [.loadMax, .storeMax l]).1.min = s.min := by
    intro s
    show (if l > s.max then { s with max := l } else s).max = _ ∧ (if l > s.max then { s with max := l } else s).min = _
    split
    · rename_i hc; exact ⟨(Nat.max_eq_right (Nat.le_of_lt hc)).symm, rfl⟩
    · exact ⟨(Nat.max_eq_left (by omega)).symm, rfl⟩
  have f : ∀ (s : Live) (r : Nat), (execAll s r [.loadMin, .storeMin l, .add (.bucket (bucketOf l)) 1]).1.min = Nat.min s.min l
      ∧ (execAll s r [.loadMin, .storeMin l, .add (.bucket (bucketOf l)) 1]).1.max = s.max := by
    intro s r
    show (if l < s.min then { s with min := l } else s).min = _ ∧ (if l < s.min then { s with min := l } else s).max = _
    split
    · rename_i hc; exact ⟨(Nat.min_eq_right (Nat.le_of_lt hc)).symm, rfl⟩
    · exact ⟨(Nat.min_eq_left (by omega)).symm, rfl⟩
  have h : latency l = [.loadMax, .storeMax l] ++ [.loadMin, .storeMin l, .add (.bucket (bucketOf l)) 1] := rfl
  rw [h, execAll_append]
  rw [(f _ _).1, (f _ _).2, (e s).1, (e s).2]
  exact ⟨rfl, rfl⟩

/-- One call alone: the largest and the least latency are exact. -/
theorem execAll_call (s : Live) (r : Nat) (x : Call) :
    (execAll s r (acts x)).1.max = (latOf x).elim s.max (Nat.max s.max) ∧ (execAll s r (acts x)).1.min = (latOf x).elim s.min (Nat.min s.min) := by
  cases x with
  | read l b ok =>
    simp only [acts, execAll_append, latOf, Option.elim_some]
    have h1 := execAll_adds [.add .readOps 1, .add .readLat l, .add .ioLat l, .add .ioCount 1, .add .bytes b] s r (by simp)
    have h3 := fun s r => execAll_adds (if ok = true then [] else [.add .errors 1]) s r (by cases ok <;> simp)
    rw [(h3 _ _).1, (h3 _ _).2]
    have h4 := execAll_latency (execAll s r [.add .readOps 1, .add .readLat l, .add .ioLat l, .add .ioCount 1, .add .bytes b]).1
      (execAll s r [.add .readOps 1, .add .readLat l, .add .ioLat l, .add .ioCount 1, .add .bytes b]).2 l
    rw [h4.1, h4.2, h1.1, h1.2]
    exact ⟨rfl, rfl⟩
  | write l b =>
    simp only [acts, execAll_append, latOf, Option.elim_some]
    have h1 := execAll_adds [.add .writeOps 1, .add .writeLat l, .add .ioLat l, .add .ioCount 1, .add .bytes b, .add .written b] s r (by simp)
    have h4 := execAll_latency (execAll s r [.add .writeOps 1, .add .writeLat l, .add .ioLat l, .add .ioCount 1, .add .bytes b, .add .written b]).1
      (execAll s r [.add .writeOps 1, .add .writeLat l, .add .ioLat l, .add .ioCount 1, .add .bytes b, .add .written b]).2 l
    rw [h4.1, h4.2, h1.1, h1.2]
    exact ⟨rfl, rfl⟩
  | batch n l b => exact execAll_adds _ s r (by simp [acts])
  | batchRead n l b => exact execAll_adds _ s r (by simp [acts])
  | batchWrite n l b => exact execAll_adds _ s r (by simp [acts])
  | flush l p => exact execAll_adds _ s r (by simp [acts])
  | cache lv hit =>
    refine execAll_adds _ s r ?_
    cases hit <;> simp only [acts, levelHit] <;> (repeat' split) <;> simp_all
  | migrate p => exact execAll_adds _ s r (by cases p <;> simp [acts])

theorem execAll_calls : ∀ (cs : List Call) (s : Live) (r : Nat),
    (execAll s r (cs.flatMap acts)).1.max = (cs.filterMap latOf).foldl Nat.max s.max
    ∧ (execAll s r (cs.flatMap acts)).1.min = (cs.filterMap latOf).foldl Nat.min s.min
  | [], s, r => ⟨rfl, rfl⟩
  | x :: cs, s, r => by
    have h1 := execAll_call s r x
    have h2 := execAll_calls cs (execAll s r (acts x)).1 (execAll s r (acts x)).2
    simp only [List.flatMap_cons, execAll_append, List.filterMap_cons]
    rw [h2.1, h2.2, h1.1, h1.2]
    cases latOf x <;> exact ⟨rfl, rfl⟩

theorem foldl_max : ∀ (l : List Nat) (m : Nat), m ≤ l.foldl Nat.max m ∧ (∀ x ∈ l, x ≤ l.foldl Nat.max m)
    ∧ (l.foldl Nat.max m = m ∨ l.foldl Nat.max m ∈ l)
  | [], m => by simp
  | a :: l, m => by
    obtain ⟨h1, h2, h3⟩ := foldl_max l (Nat.max m a)
    simp only [List.foldl_cons, List.mem_cons, forall_eq_or_imp]
    have e1 : m ≤ Nat.max m a := Nat.le_max_left _ _
    have e2 : a ≤ Nat.max m a := Nat.le_max_right _ _
    refine ⟨by omega, ⟨by omega, h2⟩, ?_⟩
    rcases h3 with h3 | h3
    · rcases Nat.le_total m a with h | h
      · right; left; rw [h3]; exact Nat.max_eq_right h
      · left; rw [h3]; exact Nat.max_eq_left h
    · exact Or.inr (Or.inr h3)

theorem foldl_min : ∀ (l : List Nat) (m : Nat), l.foldl Nat.min m ≤ m ∧ (∀ x ∈ l, l.foldl Nat.min m ≤ x)
    ∧ (l.foldl Nat.min m = m ∨ l.foldl Nat.min m ∈ l)
  | [], m => by simp
  | a :: l, m => by
    obtain ⟨h1, h2, h3⟩ := foldl_min l (Nat.min m a)
    simp only [List.foldl_cons, List.mem_cons, forall_eq_or_imp]
    have e1 : Nat.min m a ≤ m := Nat.min_le_left _ _
    have e2 : Nat.min m a ≤ a := Nat.min_le_right _ _
    refine ⟨by omega, ⟨by omega, h2⟩, ?_⟩
    rcases h3 with h3 | h3
    · rcases Nat.le_total m a with h | h
      · left; rw [h3]; exact Nat.min_eq_left h
      · right; left; rw [h3]; exact Nat.min_eq_right h
    · exact Or.inr (Or.inr h3)

/-! ### Percentiles -/

/-- The buckets hold the number of latencies between the bounds, from `lo` on. -/
def Filled (ls : List Nat) : Nat → List (Nat × Nat) → Prop
  | _, [] => True
  | lo, (k, b) :: rest => lo ≤ b + 1 ∧ k = ls.countP (fun l => decide (lo ≤ l ∧ l ≤ b)) ∧ Filled ls (b + 1) rest

theorem countP_split (lo b : Nat) (h : lo ≤ b + 1) : ∀ ls : List Nat,
    ls.countP (fun l => decide (l < lo)) + ls.countP (fun l => decide (lo ≤ l ∧ l ≤ b)) = ls.countP (fun l => decide (l < b + 1))
  | [] => rfl
  | a :: ls => by
    have := countP_split lo b h ls
    simp only [List.countP_cons]
    by_cases h1 : a < lo
    · have e1 : a < b + 1 := by omega
      have e2 : ¬ (lo ≤ a ∧ a ≤ b) := by omega
      simp only [h1, e1, e2, and_self, decide_true, decide_false, Bool.false_eq_true, if_true, if_false]
      omega
    · by_cases h2 : a ≤ b
      · have e1 : a < b + 1 := by omega
        have e2 : lo ≤ a ∧ a ≤ b := by omega
        simp only [h1, e1, e2, and_self, decide_true, decide_false, Bool.false_eq_true, if_true, if_false]
        omega
      · have e1 : ¬ a < b + 1 := by omega
        have e2 : ¬ (lo ≤ a ∧ a ≤ b) := by omega
        simp only [h1, e1, e2, decide_false, Bool.false_eq_true, if_false]
        omega

/-- The loop finds the first bound below which there are enough latencies. -/
theorem scan_spec (ls : List Nat) (t : Nat) : ∀ (kbs : List (Nat × Nat)) (lo acc : Nat), Filled ls lo kbs →
    acc = ls.countP (fun l => decide (l < lo)) → acc < t ∨ lo = 0 →
    (∃ b ∈ kbs.map (·.2), t ≤ ls.countP (fun l => decide (l ≤ b))) →
    ∃ r, scan t acc kbs = some r ∧ r ∈ kbs.map (·.2) ∧ t ≤ ls.countP (fun l => decide (l ≤ r))
      ∧ ∀ b ∈ kbs.map (·.2), b < r → ls.countP (fun l => decide (l ≤ b)) < t
  | [], lo, acc, _, _, _, he => by obtain ⟨b, hb, _⟩ := he; simp at hb
  | (k, b) :: rest, lo, acc, hf, ha, hlo, he => by
    obtain ⟨h1, h2, h3⟩ := hf
    have hs := countP_split lo b h1 ls
    rw [← ha, ← h2] at hs
    have hle : ls.countP (fun l => decide (l ≤ b)) = acc + k := by
      rw [hs]; congr 1; funext l; exact decide_eq_decide.2 (by omega)
    have hmono : ∀ (kbs : List (Nat × Nat)) (lo : Nat), Filled ls lo kbs → ∀ c ∈ kbs.map (·.2), lo ≤ c + 1 := by
      intro kbs
      induction kbs with
      | nil => intro lo _ c hc; simp at hc
      | cons x xs ih =>
        intro lo hf c hc
        obtain ⟨k', b'⟩ := x
        obtain ⟨g1, _, g3⟩ := hf
        simp only [List.map_cons, List.mem_cons] at hc
        rcases hc with rfl | hc
        · exact g1
        · have := ih (b' + 1) g3 c hc; omega
    rw [scan]
    by_cases ht : t ≤ acc + k
    · rw [if_pos ht]
      refine ⟨b, rfl, by simp, by rw [hle]; exact ht, ?_⟩
      intro c hc hcb
      simp only [List.map_cons, List.mem_cons] at hc
      rcases hc with rfl | hc
      · omega
      · have := hmono rest (b + 1) h3 c hc; omega
    · rw [if_neg ht]
      obtain ⟨c, hc, hct⟩ := he
      simp only [List.map_cons, List.mem_cons] at hc
      have hc' : c ∈ rest.map (·.2) := by
        rcases hc with rfl | hc
        · rw [hle] at hct; omega
        · exact hc
      obtain ⟨r, g1, g2, g3, g4⟩ := scan_spec ls t rest (b + 1) (acc + k) h3 hs (Or.inl (by omega)) ⟨c, hc', hct⟩
      refine ⟨r, g1, by simp only [List.map_cons, List.mem_cons]; exact Or.inr g2, g3, ?_⟩
      intro d hd hdr
      simp only [List.map_cons, List.mem_cons] at hd
      rcases hd with rfl | hd
      · rw [hle]; omega
      · exact g4 d hd hdr

theorem bucket_total (i : Nat) : ∀ cs : List Call, (cs.map (amount (.bucket i))).sum = (cs.filterMap latOf).countP (fun l => decide (InBucket i l))
  | [] => rfl
  | x :: cs => by
    have := bucket_total i cs
    cases x <;> simp only [List.map_cons, List.sum_cons, amount, latOf, List.filterMap_cons, List.countP_cons, this] <;>
      simp <;> (try split) <;> omega

theorem count_total (ss : List Call) (h : ∀ x ∈ ss, Single x) : (ss.map (amount .ioCount)).sum = (ss.filterMap latOf).length := by
  induction ss with
  | nil => rfl
  | cons x cs ih =>
    have h1 := ih fun y hy => h y (List.mem_cons_of_mem _ hy)
    have h2 := h x List.mem_cons_self
    cases x <;> simp [amount, latOf, h1, Single, List.filterMap_cons] at h2 ⊢ <;> omega

end Verif.Metrics
