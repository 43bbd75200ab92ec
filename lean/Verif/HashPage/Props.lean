import Verif.HashPage.Writer
/-!
# C147: the pages of a hash table

A page of a hash table is a set of pairs of fixed capacity. A pair is taken unless it is there already or the page is full; the keys need not be
different; the place of a removed pair can be used again; and threads can use a page at the same time, each call taking effect as a whole.
-/

namespace Verif.HashPage

variable {K V : Type}

/-- Calls one after another do what `MapCall.act` says: pairs are found in the order in which they were inserted. Missing from the property: keys cannot
be repeated and a page takes only so many pairs in its life. -/
theorem C147_sequential_partial {dk : K} {dv : V} {n : Nat} {g : Page K V} (hg : Page.new dk dv n = some g) (cmp : K → K → Bool) (veq : V → V → Bool)
    (cs : List (MapCall K V)) :
    (runCalls cmp veq n g (cs.map MapCall.call)).2 = (MapCall.acts cmp veq n cs ⟨[], 0⟩).map some := by
  obtain ⟨h1, h2⟩ := new_wf hg
  refine calls_seq cmp veq cs (d := (dk, dv)) (us := []) ⟨h1, Nat.zero_le _, fun _ h => (by cases h), ?_, rfl, rfl⟩
  intro j s hj
  rw [List.nil_append, List.getElem?_replicate] at hj
  split at hj
  · cases hj
    rw [h2]
    exact ⟨rfl, rfl, rfl⟩
  · cases hj

/-- Threads that name the slots they use: if only thread `t` changes slot `i`, what it hears about the slot is what it would hear if it were alone and
the page had no other slot, and between its calls the slot is as its calls have left it. The other slots, even those whose bits are in the same
bytes, may change at any time. Missing: slots that several threads change. -/
theorem C147_slots_partial {dk : K} {dv : V} {n : Nat} {g : Page K V} (hg : Page.new dk dv n = some g) (cmp : K → K → Bool) (veq : V → V → Bool)
    (calls : Nat → List (Nat × SlotCall K V)) (hr : ∀ u, ∀ c ∈ calls u, c.1 < n) {t i : Nat} (hi : i < n)
    (own : ∀ u, u ≠ t → ∀ c ∈ calls u, c.1 = i → c.2.changes = false) (sched : List Nat)
    {s : Sys K V} (hs : s = (Sys.start g fun u => (calls u).map fun c => c.2.on c.1).runs cmp veq n sched)
    {made : List (Nat × SlotCall K V)} (hm : made = (calls t).take (s.threads t).past.length)
    {onMine : List (SlotCall K V)} (ho : onMine = (made.filter fun c => decide (c.1 = i)).map (·.2)) :
    (s.threads t).past.map (·.1) = made.map (fun c => c.2.on c.1) ∧
    ((s.threads t).past.filter fun x => decide (x.1.slot? = some i)).map (·.2) = (SlotCall.acts (dk, dv) onMine .free).2 ∧
    ((s.threads t).now = none → InState (dk, dv) s.page i (SlotCall.acts (dk, dv) onMine .free).1) := by
  obtain ⟨h1, h2⟩ := new_wf hg
  have hstart : SInv (dk, dv) n i t calls (Sys.start g fun u => (calls u).map onSlot) := by
    refine ⟨h1, fun u => ⟨[], calls u, rfl, rfl, .inl ⟨rfl, rfl⟩⟩, ⟨[], calls t, rfl, rfl, rfl, .inl ⟨rfl, rfl, ?_⟩⟩⟩
    show Match _ (view (dk, dv) g) i _
    rw [h2]
    exact ⟨rfl, rfl, rfl⟩
  have h := sinv_runs cmp veq hr own sched hstart
  rw [show (Sys.start g fun u => (calls u).map onSlot).runs cmp veq n sched = s from hs.symm] at h
  obtain ⟨done, rest, e1, _, e2, e3⟩ := h.owner
  have hlen : (s.threads t).past.length = done.length := by
    have := congrArg List.length e1
    simpa using this
  have hmade : made = done := by
    rw [hm, hlen]
    rcases e3 with ⟨_, hc, _⟩ | ⟨c, p, _, hc, _⟩ <;> rw [hc] <;> simp
  subst hmade
  have hon : onMine = mine i made := ho
  refine ⟨e1, by rw [hon]; exact e2, fun hn => ?_⟩
  rcases e3 with ⟨_, _, hM⟩ | ⟨c, p, hnow, _⟩
  · rw [hon]
    refine ⟨?_, ?_, ?_⟩
    · rw [bitAt_eq (h.wf.occ i hi)]; exact congrArg some hM.1
    · rw [bitAt_eq (h.wf.rd i hi)]; exact congrArg some hM.2.1
    · have := hM.2.2
      have hlt : i < s.page.array.length := h.wf.arr ▸ hi
      simp only [view, List.getElem?_eq_getElem hlt, Option.getD_some] at this
      rw [List.getElem?_eq_getElem hlt, this]
  · rw [hn] at hnow; cases hnow

/-- Whatever the threads do and in whatever order, every value that `get_value` returns belongs to a pair whose insertion some thread has begun: nobody
sees a default value or half a pair. Missing: that the pair has the key asked for (`C147_torn_fails`), and that no pair is lost (`C147_race_fails`). -/
theorem C147_values_partial {dk : K} {dv : V} {n : Nat} {g : Page K V} (hg : Page.new dk dv n = some g) (cmp : K → K → Bool) (veq : V → V → Bool)
    (calls : Nat → List (Call K V)) (hr : ∀ t, ∀ c ∈ calls t, c.InRange n) (sched : List Nat)
    {s : Sys K V} (hs : s = (Sys.start g calls).runs cmp veq n sched) {t : Nat} {key : K} {vs : List V}
    (hx : (.getValue key, .values vs) ∈ (s.threads t).past) : ∀ v ∈ vs, ∃ k, s.Begun (k, v) := by
  subst hs
  exact (vinv_runs cmp veq sched (vinv_start hg calls hr)).past t _ hx

/-- No call on a slot that exists panics, whatever other threads do. -/
theorem C147_calm {dk : K} {dv : V} {n : Nat} {g : Page K V} (hg : Page.new dk dv n = some g) (cmp : K → K → Bool) (veq : V → V → Bool)
    (calls : Nat → List (Call K V)) (hr : ∀ t, ∀ c ∈ calls t, c.InRange n) (sched : List Nat)
    {s : Sys K V} (hs : s = (Sys.start g calls).runs cmp veq n sched) {t : Nat} {c : Call K V} {p : Prog K V (Res K V)}
    (hn : (s.threads t).now = some (c, p)) : p ≠ .panic := by
  subst hs
  rintro rfl
  exact ((vinv_runs cmp veq sched (vinv_start hg calls hr)).now t _ _ hn).1

/-- If only one thread inserts, what `get_value` returns are values of pairs that have the key asked for, even while pairs are inserted and removed. -/
theorem C147_writer_partial {dk : K} {dv : V} {n : Nat} {g : Page K V} (hg : Page.new dk dv n = some g) (cmp : K → K → Bool) (veq : V → V → Bool)
    (calls : Nat → List (Call K V)) (hr : ∀ t, ∀ c ∈ calls t, c.InRange n) {w : Nat} (hw : ∀ t, ∀ c ∈ calls t, c.inserts ≠ none → t = w)
    (sched : List Nat) {s : Sys K V} (hs : s = (Sys.start g calls).runs cmp veq n sched) {t : Nat} {key : K} {vs : List V}
    (hx : (.getValue key, .values vs) ∈ (s.threads t).past) : ∀ v ∈ vs, ∃ k, s.Begun (k, v) ∧ cmp k key = true := by
  subst hs
  exact (winv_runs cmp veq sched (winv_start (nr := false) cmp hg calls fun t c hc => ⟨hr t c hc, hw t c hc, fun _ => rfl⟩)).past t _ hx

/-- If only one thread inserts and nobody removes anything, a pair that was taken is found: once `insert` or `insert_at` has returned `true`, every
`get_value` for its key that a thread begins later returns its value. -/
theorem C147_found_partial {dk : K} {dv : V} {n : Nat} {g : Page K V} (hg : Page.new dk dv n = some g) (cmp : K → K → Bool) (veq : V → V → Bool)
    (calls : Nat → List (Call K V)) (hr : ∀ t, ∀ c ∈ calls t, c.InRange n) {w : Nat} (hw : ∀ t, ∀ c ∈ calls t, c.inserts ≠ none → t = w)
    (hno : ∀ t, ∀ c ∈ calls t, c.removes = false) (sched later : List Nat)
    {s s' : Sys K V} (hs : s = (Sys.start g calls).runs cmp veq n sched) (hs' : s' = s.runs cmp veq n later)
    {c : Call K V} {k : K} {v : V} (hc : c.inserts = some (k, v)) (hx : (c, .bool true) ∈ (s.threads w).past)
    {t : Nat} (hidle : (s.threads t).now = none) :
    ∃ after, (s'.threads t).past = (s.threads t).past ++ after ∧
      ∀ key vs, (.getValue key, .values vs) ∈ after → cmp k key = true → v ∈ vs := by
  subst hs
  subst hs'
  have h := winv_runs (d := (dk, dv)) (nr := true) (w := w) cmp veq sched
    (winv_start cmp hg calls fun t c hc => ⟨hr t c hc, hw t c hc, fun h => by rw [hno t c hc] at h; cases h⟩)
  have hp := h.past w _ hx
  have : ∃ i, i < n ∧ (view (dk, dv) ((Sys.start g calls).runs cmp veq n sched).page).occ i = true ∧
      (view (dk, dv) ((Sys.start g calls).runs cmp veq n sched).page).rd i = true ∧
      (view (dk, dv) ((Sys.start g calls).runs cmp veq n sched).page).pair i = (k, v) := by
    cases c with
    | insert a b => cases hc; exact hp rfl
    | insertAt j a b => cases hc; exact hp rfl
    | _ => cases hc
  obtain ⟨i, hi, h1, h2, h3⟩ := this
  have hF := finv_runs (t := t) (before := (((Sys.start g calls).runs cmp veq n sched).threads t).past) hi cmp veq later h
    ⟨h1, h2, h3, fun c q hq => (by rw [hidle] at hq; cases hq), ⟨[], by simp, fun x hx => (by cases hx)⟩⟩
  obtain ⟨after, ha, hb⟩ := hF.past
  exact ⟨after, ha, fun key vs hm hk => hb _ hm key vs rfl hk rfl⟩

/-! ## Where the pages do not keep their promises -/

theorem acts_rounds (cmp : K → K → Bool) (veq : V → V → Bool) {n : Nat} {k : K} {v : V} (hk : cmp k k = true) (hv : veq v v = true)
    (post : List (MapCall K V)) (m : Nat) : ∀ u, u + m ≤ n →
    MapCall.acts cmp veq n ((List.replicate m [MapCall.insert k v, MapCall.remove k v]).flatten ++ post) ⟨[], u⟩ =
      List.replicate (2 * m) (.bool true) ++ MapCall.acts cmp veq n post ⟨[], u + m⟩ := by
  induction m with
  | zero => intro u _; rfl
  | succ m ih =>
    intro u hu
    have hlt : u < n := by omega
    rw [List.replicate_succ, List.flatten_cons, show 2 * (m + 1) = 2 * m + 1 + 1 by omega, List.replicate_succ, List.replicate_succ]
    simp only [List.cons_append, List.nil_append, MapCall.acts, MapCall.act, List.any_nil, hlt, and_self, if_true, without, hk, hv, Bool.and_self,
      List.cons.injEq, true_and]
    rw [ih (u + 1) (by omega), show u + 1 + m = u + (m + 1) by omega]

/-- Insert a pair and remove it again, as often as the page has slots: the page says that it is empty and not full, and yet it takes nothing any more. -/
theorem C147_reuse_fails {dk : K} {dv : V} {n : Nat} {g : Page K V} (hg : Page.new dk dv n = some g) (cmp : K → K → Bool) (veq : V → V → Bool)
    {k : K} {v : V} (hk : cmp k k = true) (hv : veq v v = true) (k' : K) (v' : V) :
    (runCalls cmp veq n g ((List.replicate n [.insert k v, .remove k v]).flatten ++ [.isEmpty, .isFull, .insert k' v'])).2 =
      List.replicate (2 * n) (some (.bool true)) ++ [some (.bool true), some (.bool false), some (.bool false)] ∧
    promised cmp veq n [] k' v' = true := by
  have hn : n ≠ 0 := by
    rintro rfl
    simp [Page.new] at hg
  refine ⟨?_, by simp [promised]; omega⟩
  have h := C147_sequential_partial hg cmp veq ((List.replicate n [.insert k v, .remove k v]).flatten ++ [.isEmpty, .isFull, .insert k' v'])
  rw [acts_rounds cmp veq hk hv _ n 0 (by omega)] at h
  have e : ((List.replicate n [MapCall.insert k v, .remove k v]).flatten ++ [MapCall.isEmpty, MapCall.isFull, MapCall.insert k' v']).map MapCall.call =
      (List.replicate n [Call.insert k v, .remove k v]).flatten ++ [Call.isEmpty, Call.isFull, Call.insert k' v'] := by
    simp [List.map_flatten, MapCall.call]
  rw [e] at h
  rw [h]
  have h0 : (0 == n) = false := by simpa using Ne.symm hn
  simp [MapCall.acts, MapCall.act, h0]

/-- A second value for a key is refused, although keys need not be different. -/
theorem C147_keys_fails {dk : K} {dv : V} {n : Nat} {g : Page K V} (hg : Page.new dk dv n = some g) (hn : 1 < n) (cmp : K → K → Bool) (veq : V → V → Bool)
    {k : K} (hk : cmp k k = true) {v v' : V} (hv : veq v v' = false) :
    promised cmp veq n [(k, v)] k v' = true ∧ (runCalls cmp veq n g [.insert k v, .insert k v']).2 = [some (.bool true), some (.bool false)] := by
  refine ⟨?_, ?_⟩
  · simp [promised, hv, hn]
  · have h := C147_sequential_partial hg cmp veq [.insert k v, .insert k v']
    have : 0 < n := by omega
    simp only [List.map_cons, List.map_nil, MapCall.call] at h
    rw [h]
    simp [MapCall.acts, MapCall.act, this, hk]

/-- A slot number that does not exist poisons the lock: the thread panics, and so does every later call that reads a pair. -/
theorem C147_poison_fails {dk : K} {dv : V} {n : Nat} {g : Page K V} (hg : Page.new dk dv n = some g) (cmp : K → K → Bool) (veq : V → V → Bool)
    (i j : Nat) (hi : n ≤ i) (hj : j < n) :
    (runCalls cmp veq n g [.keyAt i, .keyAt j]).2 = [none, none] ∧ (runCalls cmp veq n g [.keyAt j]).2 = [some (.key dk)] := by
  unfold Page.new at hg
  split at hg
  · cases hg
  · cases hg
    have h1 : ¬ i < n := by omega
    simp [runCalls, Call.prog, run, List.getElem?_replicate, h1, hj]

/-- Pairs that are larger than a page: no page can be made. -/
theorem C147_size_fails (dk : K) (dv : V) (size : Nat) : Page.new dk dv (arraySize size) = none ↔ 4096 ≤ size := by
  have key : arraySize size = 0 ↔ 4096 ≤ size := by
    unfold arraySize
    rw [Nat.div_eq_zero_iff]
    omega
  unfold Page.new
  rw [← key]
  split
  · rename_i h; simp [h]
  · rename_i h; simp [h]

/-- The pairs and the two bitmaps of a page need at most one byte more than a page has. -/
theorem C147_fits_partial (size : Nat) (h : size < 4096) :
    arraySize size * size + 2 * ((arraySize size - 1) / 8 + 1) ≤ 4097 := by
  have h1 : arraySize size * (4 * size + 1) ≤ 4 * 4096 := Nat.div_mul_le_self _ _
  have h2 : arraySize size * (4 * size + 1) = 4 * (arraySize size * size) + arraySize size := by
    rw [Nat.mul_add, Nat.mul_one, Nat.mul_left_comm]
  rw [h2] at h1
  have h3 : arraySize size ≠ 0 := by
    intro h0
    unfold arraySize at h0
    rw [Nat.div_eq_zero_iff] at h0
    omega
  omega

/-- ... and some need it. -/
theorem C147_fits_fails : arraySize 1365 * 1365 + 2 * ((arraySize 1365 - 1) / 8 + 1) = 4097 := by decide

end Verif.HashPage
