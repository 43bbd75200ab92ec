import Verif.Coalesce.Lemmas

/-!
# C122: the write coalescer

The specification is the history of calls: `lastWrite` gives the time and data of the last write of a page that was accepted.
-/

namespace Verif.Coalesce

open Verif.Io (Data)

/-- The time and data of the last write of a page that had data, in a list of calls with the last one first. -/
def lastWriteRev : List Op → Nat → Option (Nat × Data)
  | [], _ => none
  | .write now p d _ :: ops, q => if q = p ∧ d ≠ [] then some (now, d) else lastWriteRev ops q
  | _ :: ops, q => lastWriteRev ops q

/-- The time and data of the last write of a page that had data. -/
def lastWrite (ops : List Op) (q : Nat) : Option (Nat × Data) := lastWriteRev ops.reverse q

/-- The invariant, for the calls made so far. -/
structure Inv (max window : Nat) (ops : List Op) (s : Engine) : Prop where
  same : Same s
  hmax : s.max = max
  hwin : s.window = window
  bound : s.pending.length ≤ max
  data : ∀ p d, get s.pending p = some d → ∃ t, get s.stamps p = some t ∧ lastWrite ops p = some (t, d)

theorem lastWrite_snoc (ops : List Op) (op : Op) (q : Nat) :
    lastWrite (ops ++ [op]) q = match op with
      | .write now p d _ => if q = p ∧ d ≠ [] then some (now, d) else lastWrite ops q
      | _ => lastWrite ops q := by
  unfold lastWrite
  rw [List.reverse_append]
  cases op <;> rfl

/-- A page is put in. -/
def putIn (s : Engine) (now p : Nat) (d : Data) (n : Nat) : Engine :=
  { s with pending := insert s.pending p d, stamps := insert s.stamps p now, freqs := insert s.freqs p n }

theorem same_putIn {s : Engine} (h : Same s) (now p : Nat) (d : Data) (n : Nat) : Same (putIn s now p d n) where
  np := nodup_insert h.np p d
  ns := nodup_insert h.ns p now
  nf := nodup_insert h.nf p n
  ps q := by show q ∈ keys (insert _ _ _) ↔ q ∈ keys (insert _ _ _); rw [mem_keys_insert, mem_keys_insert, h.ps]
  pf q := by show q ∈ keys (insert _ _ _) ↔ q ∈ keys (insert _ _ _); rw [mem_keys_insert, mem_keys_insert, h.pf]

theorem same_length {s : Engine} (h : Same s) : s.pending.length = s.stamps.length := by
  have := ((List.perm_ext_iff_of_nodup h.np h.ns).2 h.ps).length_eq
  unfold keys at this
  rwa [List.length_map, List.length_map] at this

/-- The pages `simple_cleanup` drops. -/
def victims (s : Engine) (ord : List (Nat × Nat)) : List Nat := ((sortBy ord).take (s.pending.length - s.max / 2)).map (·.1)

theorem victims_facts {s : Engine} (h : Same s) {ord : List (Nat × Nat)} (ho : ord.Perm s.stamps) :
    (victims s ord).Nodup ∧ (∀ v ∈ victims s ord, v ∈ keys s.pending) ∧ (victims s ord).length = s.pending.length - s.max / 2 ∧
    (∀ v ∈ victims s ord, ∀ q, q ∈ keys s.pending → q ∉ victims s ord → ∀ tv tq, get s.stamps v = some tv → get s.stamps q = some tq → tv ≤ tq) := by
  have hp : (sortBy ord).Perm s.stamps := (perm_sortBy ord).trans ho
  have hkn : ((sortBy ord).map (·.1)).Nodup := (hp.map _).nodup_iff.2 h.ns
  have hsub : (victims s ord).Sublist ((sortBy ord).map (·.1)) := List.Sublist.map _ (List.take_sublist _ _)
  refine ⟨hkn.sublist hsub, fun v hv => ?_, ?_, fun v hv q hq hqv tv tq htv htq => ?_⟩
  · exact (h.ps v).2 ((hp.map _).mem_iff.1 (hsub.subset hv))
  · unfold victims
    rw [List.length_map, List.length_take, hp.length_eq, ← same_length h]
    omega
  · obtain ⟨⟨v', t⟩, hm, rfl⟩ := List.mem_map.1 hv
    have e1 : get s.stamps v' = some t := get_of_mem h.ns (hp.mem_iff.1 (List.mem_of_mem_take hm))
    rw [htv] at e1
    cases e1
    have hqm : (q, tq) ∈ sortBy ord := hp.mem_iff.2 (mem_of_get htq)
    have hsorted := sorted_sortBy ord
    rw [← List.take_append_drop (s.pending.length - s.max / 2) (sortBy ord)] at hqm hsorted
    rcases List.mem_append.1 hqm with hq' | hq'
    · exact absurd (List.mem_map.2 ⟨_, hq', rfl⟩) hqv
    · exact (List.pairwise_append.1 hsorted).2.2 _ hm _ hq'

theorem simpleCleanup_eq {s : Engine} (now : Nat) (ord : List (Nat × Nat)) (h : s.max < s.pending.length) :
    simpleCleanup s now ord = { (victims s ord).foldl drop s with last := now } := by
  unfold simpleCleanup; rw [if_neg (by omega)]; rfl

theorem write_cases (s : Engine) (now p : Nat) (d : Data) (ord : List (Nat × Nat)) :
    (d = [] ∧ write s now p d ord = (s, none)) ∨
    (d ≠ [] ∧ p ∈ keys s.pending ∧ ∃ n, write s now p d ord = (putIn s now p d n, some d)) ∨
    (d ≠ [] ∧ p ∉ keys s.pending ∧ (insert s.pending p d).length ≤ s.max ∧ write s now p d ord = (putIn s now p d 1, some d)) ∨
    (d ≠ [] ∧ p ∉ keys s.pending ∧ s.max < (insert s.pending p d).length ∧
      write s now p d ord = ({ (victims (putIn s now p d 1) ord).foldl drop (putIn s now p d 1) with last := now }, some d)) := by
  unfold write
  by_cases hd : d = []
  · left; exact ⟨hd, if_pos hd⟩
  · right
    rw [if_neg hd]
    cases hg : get s.pending p with
    | some x => left; exact ⟨hd, get_isSome.1 (by rw [hg]; rfl), _, rfl⟩
    | none =>
      right
      have hk : p ∉ keys s.pending := fun hm => by have := get_isSome.2 hm; rw [hg] at this; cases this
      simp only
      by_cases hl : (insert s.pending p d).length > s.max
      · right
        refine ⟨hd, hk, hl, ?_⟩
        rw [if_pos hl]
        show (simpleCleanup (putIn s now p d 1) now ord, some d) = _
        rw [simpleCleanup_eq (s := putIn s now p d 1) now ord hl]
      · left
        refine ⟨hd, hk, by omega, ?_⟩
        rw [if_neg hl]; rfl

theorem data_putIn {ops : List Op} {s : Engine} (hi : ∀ q d, get s.pending q = some d → ∃ t, get s.stamps q = some t ∧ lastWrite ops q = some (t, d))
    (now p : Nat) {d : Data} (hd : d ≠ []) (n : Nat) (ord : List (Nat × Nat)) :
    ∀ q e, get (putIn s now p d n).pending q = some e → ∃ t, get (putIn s now p d n).stamps q = some t ∧
      lastWrite (ops ++ [.write now p d ord]) q = some (t, e) := by
  intro q e he
  rw [lastWrite_snoc]
  unfold putIn at he ⊢
  simp only at he ⊢
  rw [get_insert] at he ⊢
  by_cases hq : q = p
  · rw [if_pos hq] at he ⊢
    cases he
    exact ⟨now, rfl, if_pos ⟨hq, hd⟩⟩
  · rw [if_neg hq] at he ⊢
    obtain ⟨t, h1, h2⟩ := hi q e he
    exact ⟨t, h1, by rw [if_neg (fun h => hq h.1)]; exact h2⟩

theorem inv_step {max window : Nat} {ops : List Op} {s : Engine} (h : Inv max window ops s) {op : Op} (ho : OrdOk s op) :
    Inv max window (ops ++ [op]) (step s op) := by
  cases op with
  | write now p d ord =>
    show Inv _ _ _ (write s now p d ord).1
    rcases write_cases s now p d ord with ⟨hd, e⟩ | ⟨hd, hk, n, e⟩ | ⟨hd, hk, hl, e⟩ | ⟨hd, hk, hl, e⟩ <;> rw [e]
    · refine ⟨h.same, h.hmax, h.hwin, h.bound, fun q d' hq => ?_⟩
      rw [lastWrite_snoc]
      obtain ⟨t, h1, h2⟩ := h.data q d' hq
      exact ⟨t, h1, by simp only; rw [if_neg (fun hc => hc.2 hd)]; exact h2⟩
    · refine ⟨same_putIn h.same now p d n, h.hmax, h.hwin, ?_, data_putIn h.data now p hd n ord⟩
      show (insert s.pending p d).length ≤ max
      rw [length_insert h.same.np hk]; exact h.bound
    · exact ⟨same_putIn h.same now p d 1, h.hmax, h.hwin, by rw [← h.hmax]; exact hl, data_putIn h.data now p hd 1 ord⟩
    · have hs := same_putIn h.same now p d 1
      obtain ⟨v1, v2, v3, _⟩ := victims_facts hs (ord := ord) ho
      have hf := foldl_drop_fields (victims (putIn s now p d 1) ord) (putIn s now p d 1)
      refine ⟨?_, hf.1.trans h.hmax, hf.2.trans h.hwin, ?_, fun q e' hq => ?_⟩
      · have := same_foldl_drop (victims (putIn s now p d 1) ord) hs
        exact ⟨this.np, this.ns, this.nf, this.ps, this.pf⟩
      · have := foldl_drop_length _ hs v1 v2
        show (List.foldl drop _ _).pending.length ≤ max
        have hm : (putIn s now p d 1).max = max := h.hmax
        rw [v3, hm] at this
        have hl' : max < (putIn s now p d 1).pending.length := by rw [← h.hmax]; exact hl
        omega
      · have hg := foldl_drop_get (victims (putIn s now p d 1) ord) (putIn s now p d 1) q
        have hq' : get (List.foldl drop (putIn s now p d 1) (victims (putIn s now p d 1) ord)).pending q = some e' := hq
        rw [hg.1] at hq'
        by_cases hv : q ∈ victims (putIn s now p d 1) ord
        · rw [if_pos hv] at hq'; cases hq'
        · rw [if_neg hv] at hq' hg
          obtain ⟨t, h1, h2⟩ := data_putIn h.data now p hd 1 ord q e' hq'
          refine ⟨t, ?_, h2⟩
          show get (List.foldl drop _ _).stamps q = some t
          rw [hg.2, if_neg hv]; exact h1
  | cleanup now c =>
    show Inv _ _ _ (cleanup s now c).1
    unfold cleanup
    split
    · exact ⟨h.same, h.hmax, h.hwin, h.bound, fun q d hq => by rw [lastWrite_snoc]; exact h.data q d hq⟩
    · simp only
      generalize byTime s now ++ byMemory s c (byTime s now) ++ byAccess s c (byTime s now ++ byMemory s c (byTime s now)) = vs
      have hs := same_foldl_dropPending vs h.same
      have hf := foldl_dropPending_fields vs s
      refine ⟨⟨hs.np, hs.ns, hs.nf, hs.ps, hs.pf⟩, hf.1.trans h.hmax, hf.2.1.trans h.hwin, Nat.le_trans hf.2.2 h.bound, fun q d hq => ?_⟩
      rw [lastWrite_snoc]
      have hg := foldl_dropPending_get vs h.same q
      have hq' : get (List.foldl dropPending s vs).pending q = some d := hq
      rw [hg.1] at hq'
      by_cases hv : q ∈ vs
      · rw [if_pos hv] at hq'; cases hq'
      · rw [if_neg hv] at hq'
        obtain ⟨t, h1, h2⟩ := h.data q d hq'
        refine ⟨t, ?_, h2⟩
        show get (List.foldl dropPending _ _).stamps q = some t
        rw [hg.2, if_neg hv]; exact h1
  | clear now =>
    refine ⟨⟨.nil, .nil, .nil, fun _ => Iff.rfl, fun _ => Iff.rfl⟩, h.hmax, h.hwin, Nat.zero_le _, fun q d hq => ?_⟩
    have : get (step s (.clear now)).pending q = none := rfl
    rw [this] at hq; cases hq

theorem inv_run {max window : Nat} : ∀ (todo : List Op) {ops : List Op} {s : Engine}, Inv max window ops s → RunOk s todo →
    Inv max window (ops ++ todo) (run s todo)
  | [], ops, s, h, _ => by rw [List.append_nil]; exact h
  | op :: todo, ops, s, h, hr => by
    have := inv_run todo (inv_step h hr.1) hr.2
    rw [List.append_assoc] at this
    exact this

theorem inv_new (now window max : Nat) : Inv max window [] (new now window max) :=
  ⟨⟨.nil, .nil, .nil, fun _ => Iff.rfl, fun _ => Iff.rfl⟩, rfl, rfl, Nat.zero_le _, fun p d h => by
    have : get (new now window max).pending p = none := rfl
    rw [this] at h; cases h⟩

theorem inv_reach {start window max : Nat} {ops : List Op} (hr : RunOk (new start window max) ops) :
    Inv max window ops (run (new start window max) ops) := by
  have := inv_run ops (inv_new start window max) hr
  rwa [List.nil_append] at this

/-! ## C122 -/

/-- After any history of calls the coalescer holds at most `max` pages, for each the data of its last write, and every cleanup finds its
tables consistent. A write is refused exactly if it has no data, and otherwise its data is handed on unchanged. -/
theorem C122_bounded_latest (start window max : Nat) (ops : List Op) (hr : RunOk (new start window max) ops) :
    let s := run (new start window max) ops
    s.pending.length ≤ max ∧
    (∀ p d, get s.pending p = some d → ∃ t, lastWrite ops p = some (t, d)) ∧
    (∀ now c, (cleanup s now c).2 = true) ∧
    (∀ now p d ord, (write s now p d ord).2 = if d = [] then none else some d) := by
  have h := inv_reach hr
  refine ⟨h.bound, fun p d hp => ?_, fun now c => ?_, fun now p d ord => ?_⟩
  · obtain ⟨t, _, h2⟩ := h.data p d hp
    exact ⟨t, h2⟩
  · unfold cleanup
    split
    · rfl
    · simp only
      have hs := same_foldl_dropPending (byTime (run (new start window max) ops) now ++ byMemory (run (new start window max) ops) c (byTime (run (new start window max) ops) now)
        ++ byAccess (run (new start window max) ops) c (byTime (run (new start window max) ops) now ++ byMemory (run (new start window max) ops) c (byTime (run (new start window max) ops) now))) h.same
      exact same_validate ⟨hs.np, hs.ns, hs.nf, hs.ps, hs.pf⟩
  · rcases write_cases (run (new start window max) ops) now p d ord with ⟨hd, e⟩ | ⟨hd, _, n, e⟩ | ⟨hd, _, _, e⟩ | ⟨hd, _, _, e⟩ <;> rw [e] <;> simp [hd]

/-- A write that finds room leaves every page where it was. One that does not, because the page is new and `max` pages are held, keeps
`max / 2` pages, and drops none that was written later than one it keeps. -/
theorem C122_oldest_dropped (start window max : Nat) (ops : List Op) (hr : RunOk (new start window max) ops)
    (now p : Nat) (d : Data) (ord : List (Nat × Nat)) (ho : OrdOk (run (new start window max) ops) (.write now p d ord)) (hd : d ≠ []) :
    let s := run (new start window max) ops
    let s' := (write s now p d ord).1
    ((get s.pending p).isSome = true ∨ s.pending.length < max →
      ∀ q, get s'.pending q = if q = p then some d else get s.pending q) ∧
    ((get s.pending p) = none → s.pending.length = max →
      s'.pending.length = max / 2 ∧
      ∀ a b, (a = p ∨ (get s.pending a).isSome = true) → get s'.pending a = none → (get s'.pending b).isSome = true →
        ∀ ta da tb db, lastWrite (ops ++ [.write now p d ord]) a = some (ta, da) → lastWrite (ops ++ [.write now p d ord]) b = some (tb, db) → ta ≤ tb) := by
  have h := inv_reach hr
  intro s s'
  have hs : s = run (new start window max) ops := rfl
  rw [← hs] at h ho
  refine ⟨fun hroom q => ?_, fun hnew hfull => ?_⟩
  · show get (write s now p d ord).1.pending q = _
    rcases write_cases s now p d ord with ⟨hd', e⟩ | ⟨_, hk, n, e⟩ | ⟨_, hk, hl, e⟩ | ⟨_, hk, hl, e⟩
    · exact absurd hd' hd
    · rw [e]; exact get_insert
    · rw [e]; exact get_insert
    · rw [length_insert_new hk, h.hmax] at hl
      rcases hroom with hroom | hroom
      · exact absurd (get_isSome.1 hroom) hk
      · omega
  · have hk : p ∉ keys s.pending := fun hm => by have := get_isSome.2 hm; rw [hnew] at this; cases this
    rcases write_cases s now p d ord with ⟨hd', e⟩ | ⟨_, hk', n, e⟩ | ⟨_, _, hl, e⟩ | ⟨_, _, hl, e⟩
    · exact absurd hd' hd
    · exact absurd hk' hk
    · rw [length_insert_new hk, h.hmax] at hl; omega
    · have hsame := same_putIn h.same now p d 1
      obtain ⟨v1, v2, v3, v4⟩ := victims_facts hsame (ord := ord) ho
      have e' : s' = { (victims (putIn s now p d 1) ord).foldl drop (putIn s now p d 1) with last := now } := by
        show (write s now p d ord).1 = _
        rw [e]
      have hget : ∀ q, get s'.pending q = if q ∈ victims (putIn s now p d 1) ord then none else get (putIn s now p d 1).pending q := by
        intro q; rw [e']; exact (foldl_drop_get _ _ q).1
      refine ⟨?_, fun a b ha hda hkb ta da tb db hta htb => ?_⟩
      · have hlen := foldl_drop_length _ hsame v1 v2
        have hlen' : (putIn s now p d 1).pending.length = max + 1 := by
          show (insert s.pending p d).length = _
          rw [length_insert_new hk, hfull]
        have hm : (putIn s now p d 1).max = max := h.hmax
        rw [v3, hlen', hm] at hlen
        rw [e']
        show (List.foldl drop _ _).pending.length = _
        omega
      · have hpa : (get (putIn s now p d 1).pending a).isSome = true := by
          rw [get_isSome]
          show a ∈ keys (insert _ _ _)
          rw [mem_keys_insert]
          exact ha.imp id get_isSome.1
        rw [hget] at hda hkb
        have hva : a ∈ victims (putIn s now p d 1) ord := by
          by_cases hva : a ∈ victims (putIn s now p d 1) ord
          · exact hva
          · rw [if_neg hva] at hda; rw [hda] at hpa; cases hpa
        have hvb : b ∉ victims (putIn s now p d 1) ord := by
          intro hvb; rw [if_pos hvb] at hkb; cases hkb
        rw [if_neg hvb] at hkb
        obtain ⟨xa, hxa⟩ := Option.isSome_iff_exists.1 hpa
        obtain ⟨xb, hxb⟩ := Option.isSome_iff_exists.1 hkb
        obtain ⟨t1, g1, l1⟩ := data_putIn h.data now p hd 1 ord a xa hxa
        obtain ⟨t2, g2, l2⟩ := data_putIn h.data now p hd 1 ord b xb hxb
        rw [l1] at hta; rw [l2] at htb
        cases hta; cases htb
        exact v4 a hva b (get_isSome.1 hkb) hvb _ _ g1 g2

/-- A cleanup at least 100 ms after the last one leaves no page whose last write is longer ago than the window, and otherwise changes no data. -/
theorem C122_expired_partial (start window max : Nat) (ops : List Op) (hr : RunOk (new start window max) ops) (now : Nat) (c : Choice)
    (hlast : 100 ≤ now - (run (new start window max) ops).last) (p : Nat) (d : Data)
    (hp : get (cleanup (run (new start window max) ops) now c).1.pending p = some d) :
    get (run (new start window max) ops).pending p = some d ∧ ∃ t, lastWrite ops p = some (t, d) ∧ now ≤ t + window := by
  have h := inv_reach hr
  generalize hs : run (new start window max) ops = s at *
  unfold cleanup at hp
  rw [if_neg (by omega)] at hp
  simp only at hp
  rw [(foldl_dropPending_get _ h.same p).1] at hp
  split at hp
  · cases hp
  · rename_i hv
    obtain ⟨t, h1, h2⟩ := h.data p d hp
    refine ⟨hp, t, h2, ?_⟩
    by_cases hw : s.window < now - t
    · exfalso; apply hv
      rw [List.mem_append, List.mem_append]
      left; left
      exact List.mem_map.2 ⟨(p, t), List.mem_filter.2 ⟨mem_of_get h1, by simpa using hw⟩, rfl⟩
    · have := h.hwin; omega

/-- `find_adjacent_pages` lists, in order and once each, the pages held at a distance of one to four from the page. -/
theorem C122_adjacent (s : Engine) (p : Nat) (hk : ∀ q ∈ keys s.pending, q < 2 ^ 64) :
    (adjacent s p).Pairwise (· < ·) ∧ ∀ q, q ∈ adjacent s p ↔ (get s.pending q).isSome = true ∧ q ≠ p ∧ q ≤ p + 4 ∧ p ≤ q + 4 := by
  have hperm := perm_sortNat ([1, 2, 3, 4].flatMap fun o =>
    (if o ≤ p ∧ (get s.pending (p - o)).isSome then [p - o] else []) ++
    (if p + o < 2 ^ 64 ∧ (get s.pending (p + o)).isSome then [p + o] else []))
  have hmem : ∀ q, q ∈ adjacent s p ↔ (get s.pending q).isSome = true ∧ q ≠ p ∧ q ≤ p + 4 ∧ p ≤ q + 4 := by
    intro q
    unfold adjacent
    rw [hperm.mem_iff, List.mem_flatMap]
    constructor
    · rintro ⟨o, ho, hq⟩
      have ho' : 1 ≤ o ∧ o ≤ 4 := by
        simp only [List.mem_cons, List.not_mem_nil, or_false] at ho; omega
      rcases List.mem_append.1 hq with hq | hq
      · split at hq
        · rename_i hc; rw [List.mem_singleton] at hq; subst hq; exact ⟨hc.2, by omega, by omega, by omega⟩
        · cases hq
      · split at hq
        · rename_i hc; rw [List.mem_singleton] at hq; subst hq; exact ⟨hc.2, by omega, by omega, by omega⟩
        · cases hq
    · rintro ⟨hs, h1, h2, h3⟩
      have hlt := hk q (get_isSome.1 hs)
      by_cases hle : q < p
      · refine ⟨p - q, ?_, List.mem_append_left _ ?_⟩
        · simp only [List.mem_cons, List.not_mem_nil, or_false]; omega
        · have e : p - (p - q) = q := by omega
          rw [e, if_pos ⟨by omega, hs⟩]; exact List.mem_singleton.2 rfl
      · refine ⟨q - p, ?_, List.mem_append_right _ ?_⟩
        · simp only [List.mem_cons, List.not_mem_nil, or_false]; omega
        · have e : p + (q - p) = q := by omega
          rw [e, if_pos ⟨hlt, hs⟩]; exact List.mem_singleton.2 rfl
  refine ⟨?_, hmem⟩
  have hn : (adjacent s p).Nodup := by
    unfold adjacent
    rw [hperm.nodup_iff]
    have hone : ∀ o, 1 ≤ o → (((if o ≤ p ∧ (get s.pending (p - o)).isSome then [p - o] else []) ++
      (if p + o < 2 ^ 64 ∧ (get s.pending (p + o)).isSome then [p + o] else [])) : List Nat).Nodup ∧
      ∀ x ∈ (((if o ≤ p ∧ (get s.pending (p - o)).isSome then [p - o] else []) ++
      (if p + o < 2 ^ 64 ∧ (get s.pending (p + o)).isSome then [p + o] else [])) : List Nat), x + o = p ∨ x = p + o := by
      intro o ho
      constructor
      · split <;> split <;> simp
        omega
      · intro x hx
        rcases List.mem_append.1 hx with hx | hx
        · split at hx
          · rw [List.mem_singleton] at hx; omega
          · cases hx
        · split at hx
          · rw [List.mem_singleton] at hx; omega
          · cases hx
    generalize hf : (fun o : Nat => (if o ≤ p ∧ (get s.pending (p - o)).isSome then [p - o] else []) ++
      (if p + o < 2 ^ 64 ∧ (get s.pending (p + o)).isSome then [p + o] else [])) = f
    have hone' : ∀ o, 1 ≤ o → (f o).Nodup ∧ ∀ x ∈ f o, x + o = p ∨ x = p + o := by
      intro o ho; rw [← hf]; exact hone o ho
    have h1 := hone' 1 (by omega)
    have h2 := hone' 2 (by omega)
    have h3 := hone' 3 (by omega)
    have h4 := hone' 4 (by omega)
    simp only [List.flatMap_cons, List.flatMap_nil, List.append_nil]
    rw [List.nodup_append, List.nodup_append, List.nodup_append]
    refine ⟨h1.1, ⟨h2.1, ⟨h3.1, h4.1, ?_⟩, ?_⟩, ?_⟩
    · intro a ha b hb; have := h3.2 a ha; have := h4.2 b hb; omega
    · intro a ha b hb
      have := h2.2 a ha
      rcases List.mem_append.1 hb with hb | hb
      · have := h3.2 b hb; omega
      · have := h4.2 b hb; omega
    · intro a ha b hb
      have := h1.2 a ha
      rcases List.mem_append.1 hb with hb | hb
      · have := h2.2 b hb; omega
      · rcases List.mem_append.1 hb with hb | hb
        · have := h3.2 b hb; omega
        · have := h4.2 b hb; omega
  have hle : (adjacent s p).Pairwise (· ≤ ·) := sorted_sortNat _
  rw [List.Nodup] at hn
  exact (List.pairwise_and_iff.2 ⟨hle, hn⟩).imp (fun ⟨a, b⟩ => by omega)

/-- Three writes with room for two: the oldest two of the three pages are dropped. -/
def three : List Op := [.write 1 7 [1] [(7, 1)], .write 2 8 [2] [(8, 2), (7, 1)], .write 3 7 [3] [(7, 3), (8, 2)], .write 4 9 [4] [(9, 4), (8, 2), (7, 3)]]

example : RunOk (new 0 10 2) three ∧ (run (new 0 10 2) three).pending = [(9, [4])] ∧ (run (new 0 10 2) (three.take 3)).pending.length = 2 := by
  refine ⟨⟨?_, ?_, ?_, ?_, trivial⟩, by decide +kernel, by decide +kernel⟩
  · exact .refl _
  · exact .refl _
  · exact .refl _
  · show List.Perm _ [(9, 4), (7, 3), (8, 2)]
    exact .cons _ (.swap _ _ _)

theorem foldl_dropPending_length (vs : List Nat) : ∀ {s : Engine}, Same s → vs.Nodup → (∀ v ∈ vs, v ∈ keys s.pending) →
    (vs.foldl dropPending s).pending.length + vs.length = s.pending.length := by
  induction vs with
  | nil => intro s _ _ _; rfl
  | cons v vs ih =>
    intro s h hn hv
    rw [List.nodup_cons] at hn
    have e : dropPending s v = drop s v := if_pos (get_isSome.2 (hv v List.mem_cons_self))
    have := ih (same_drop h v) hn.2 (fun w hw => mem_keys_remove.2 ⟨fun e => hn.1 (e ▸ hw), hv w (List.mem_cons_of_mem _ hw)⟩)
    rw [List.foldl_cons, e, List.length_cons, ← Nat.add_assoc, this]
    exact length_remove h.np (hv v List.mem_cons_self)

/-- The number of pages held whose last write is longer ago than the window. -/
def expiredCount (ops : List Op) (window now : Nat) (held : Map Data) : Nat :=
  held.countP fun e => match lastWrite ops e.1 with
    | some (t, _) => t + window < now
    | none => false

theorem mem_byTime {max window : Nat} {ops : List Op} {s : Engine} (h : Inv max window ops s) (now : Nat) (e : Nat × Data) (he : e ∈ s.pending) :
    e.1 ∈ byTime s now ↔ (match lastWrite ops e.1 with
      | some (t, _) => decide (t + window < now)
      | none => false) = true := by
  obtain ⟨t, h1, h2⟩ := h.data e.1 e.2 (get_of_mem h.same.np he)
  have hw := h.hwin
  rw [h2]
  simp only [decide_eq_true_eq]
  unfold byTime
  rw [List.mem_map]
  constructor
  · rintro ⟨⟨p, t'⟩, hm, hp⟩
    rw [List.mem_filter] at hm
    simp only at hp
    subst hp
    rw [get_of_mem h.same.ns hm.1] at h1
    cases h1
    have := hm.2
    simp only [decide_eq_true_eq] at this
    omega
  · intro hlt
    exact ⟨(e.1, t), List.mem_filter.2 ⟨mem_of_get h1, by simp only [decide_eq_true_eq]; omega⟩, rfl⟩

theorem byTime_nodup {s : Engine} (h : Same s) (now : Nat) : (byTime s now).Nodup :=
  h.ns.sublist (List.filter_sublist.map _)

theorem byTime_held {s : Engine} (h : Same s) (now : Nat) : ∀ v ∈ byTime s now, v ∈ keys s.pending := fun v hv =>
  (h.ps v).2 ((List.filter_sublist.map _).subset hv)

theorem length_in {vs ks : List Nat} (hv : vs.Nodup) (hk : ks.Nodup) (hs : ∀ v ∈ vs, v ∈ ks) : ks.countP (fun k => vs.contains k) = vs.length := by
  rw [List.countP_eq_length_filter]
  apply List.Perm.length_eq
  refine (List.perm_ext_iff_of_nodup (hk.sublist List.filter_sublist) hv).2 fun a => ?_
  rw [List.mem_filter, List.contains_iff_mem]
  exact ⟨fun h => h.2, fun h => ⟨hs a h, h⟩⟩

theorem expiredCount_eq {max window : Nat} {ops : List Op} {s : Engine} (h : Inv max window ops s) (now : Nat) :
    expiredCount ops window now s.pending = (byTime s now).length := by
  rw [← length_in (byTime_nodup h.same now) h.same.np (byTime_held h.same now)]
  unfold keys
  rw [List.countP_map]
  unfold expiredCount
  refine List.countP_congr fun e he => ?_
  rw [← mem_byTime h now e he]
  simp only [Function.comp_apply, List.contains_iff_mem]

theorem byAccess_facts {s : Engine} (h : Same s) (c : Choice) (ho : c.ord.Perm s.freqs) {sel : List Nat} (hn : sel.Nodup) (hs : ∀ v ∈ sel, v ∈ keys s.pending) :
    (byAccess s c sel).Nodup ∧ (∀ v ∈ byAccess s c sel, v ∈ keys s.pending ∧ v ∉ sel) ∧
    (byAccess s c sel).length = (if sel.length < maxPending s / 4 then Nat.min (maxPending s / 8) (s.pending.length - sel.length) else 0) := by
  unfold byAccess
  split
  · generalize hf : (c.ord.filter fun e => !sel.contains e.1 && (get s.pending e.1).isSome) = f
    have hkn : (keys c.ord).Nodup := (ho.map _).nodup_iff.2 h.nf
    have hfn : (keys f).Nodup := by subst hf; exact hkn.sublist (List.filter_sublist.map _)
    have hmem : ∀ v, v ∈ keys f ↔ v ∈ keys s.pending ∧ v ∉ sel := by
      intro v
      subst hf
      unfold keys
      constructor
      · intro hv
        obtain ⟨e, he, rfl⟩ := List.mem_map.1 hv
        rw [List.mem_filter, Bool.and_eq_true, get_isSome] at he
        refine ⟨he.2.2, fun hc => ?_⟩
        have := he.2.1
        rw [List.contains_iff_mem.2 hc] at this
        cases this
      · rintro ⟨h1, h2⟩
        obtain ⟨e, he, rfl⟩ := List.mem_map.1 ((ho.map _).mem_iff.2 ((h.pf v).1 h1))
        refine List.mem_map.2 ⟨e, List.mem_filter.2 ⟨he, ?_⟩, rfl⟩
        rw [Bool.and_eq_true, get_isSome]
        refine ⟨?_, h1⟩
        cases hc : sel.contains e.1
        · rfl
        · exact absurd (List.contains_iff_mem.1 hc) h2
    have hlen : f.length = s.pending.length - sel.length := by
      have h1 := length_in hn h.np hs
      have h2 : (keys f).length = ((keys s.pending).filter fun k => !sel.contains k).length := by
        apply List.Perm.length_eq
        refine (List.perm_ext_iff_of_nodup hfn (h.np.sublist List.filter_sublist)).2 fun a => ?_
        rw [hmem, List.mem_filter]
        cases hc : sel.contains a
        · have : a ∉ sel := fun hm => by rw [List.contains_iff_mem.2 hm] at hc; cases hc
          simp [this]
        · have := List.contains_iff_mem.1 hc
          simp [this]
      have h3 := List.length_eq_countP_add_countP (fun k => sel.contains k) (l := keys s.pending)
      rw [← List.countP_eq_length_filter] at h2
      have h4 : (keys s.pending).countP (fun k => !sel.contains k) = (keys s.pending).countP (fun a => decide ¬(sel.contains a = true)) := by
        refine List.countP_congr fun a _ => ?_
        cases sel.contains a <;> simp
      have h5 : (keys f).length = f.length := List.length_map _
      have h6 : (keys s.pending).length = s.pending.length := List.length_map _
      omega
    have hsub : (((sortBy f).take (maxPending s / 8)).map (·.1)).Sublist ((sortBy f).map (·.1)) := (List.take_sublist _ _).map _
    have hp := (perm_sortBy f).map (·.1)
    refine ⟨(hp.nodup_iff.2 hfn).sublist hsub, fun v hv => (hmem v).1 (hp.mem_iff.1 (hsub.subset hv)), ?_⟩
    rw [List.length_map, List.length_take, (perm_sortBy f).length_eq, hlen]
  · exact ⟨.nil, (fun _ h => nomatch h), rfl⟩

/-- How many pages a cleanup leaves when memory is not short: the expired ones go, and when they are fewer than a quarter of the limit (counted as at least 128) up to an eighth
of the limit of the others go too. -/
theorem C122_cleanup_count (start window max : Nat) (ops : List Op) (hr : RunOk (new start window max) ops) (now : Nat) (c : Choice)
    (ho : OrdOk (run (new start window max) ops) (.cleanup now c)) (hc : c.pressure = 0)
    (hlast : 100 ≤ now - (run (new start window max) ops).last) (held : Map Data) (hh : held = (run (new start window max) ops).pending)
    (old : Nat) (hold : old = expiredCount ops window now held) (limit : Nat) (hl : limit = if max < 128 then 128 else max) :
    (cleanup (run (new start window max) ops) now c).1.pending.length + old +
      (if old < limit / 4 then (if limit / 8 < held.length - old then limit / 8 else held.length - old) else 0) = held.length := by
  have h := inv_reach hr
  generalize run (new start window max) ops = s at *
  subst hh hold
  rw [expiredCount_eq h now]
  have hm : maxPending s = limit := by
    unfold maxPending; rw [h.hmax, hl]; show (if max ≤ 128 then 128 else max) = _; split <;> split <;> omega
  have hle : s.pending.length ≤ maxPending s := by
    rw [hm, hl]; have := h.bound; split <;> omega
  have hmem : byMemory s c (byTime s now) = [] := if_neg (by omega)
  have hbt := byTime_nodup h.same now
  obtain ⟨a1, a2, a3⟩ := byAccess_facts h.same c ho.2 hbt (byTime_held h.same now)
  have hnd : (byTime s now ++ byAccess s c (byTime s now)).Nodup :=
    List.nodup_append.2 ⟨hbt, a1, fun a ha b hb e => (a2 b hb).2 (e ▸ ha)⟩
  have hsub : ∀ v ∈ byTime s now ++ byAccess s c (byTime s now), v ∈ keys s.pending := fun v hv => by
    rcases List.mem_append.1 hv with hv | hv
    · exact byTime_held h.same now v hv
    · exact (a2 v hv).1
  have := foldl_dropPending_length _ h.same hnd hsub
  have e : (cleanup s now c).1.pending = ((byTime s now ++ byAccess s c (byTime s now)).foldl dropPending s).pending := by
    unfold cleanup
    rw [if_neg (by omega)]
    simp only [hmem, List.append_nil]
  have hmin : ∀ a b : Nat, Nat.min a b = if a < b then a else b := fun a b => by show (if a ≤ b then a else b) = _; split <;> split <;> omega
  rw [hmin, hm] at a3
  rw [List.length_append] at this
  rw [e, ← a3]
  omega

/-- `C122_cleanup_count` at work: three pages, two of them expired; the third is dropped for its few writes. -/
example : expiredCount [.write 10 7 [1] [(7, 10)], .write 20 8 [2] [(8, 20), (7, 10)], .write 500 9 [3] [(9, 500), (8, 20), (7, 10)]] 100 600
    [(9, [3]), (8, [2]), (7, [1])] = 2 := by decide +kernel

/-- A cleanup drops pages that are not expired, although nothing is short: those with the fewest writes, up to an eighth of the limit. -/
theorem C122_live_dropped_fails : ∃ ops c, RunOk (new 0 1000 64) ops ∧ OrdOk (run (new 0 1000 64) ops) (.cleanup 100 c) ∧ c.pressure = 0 ∧
    (run (new 0 1000 64) ops).pending = [(7, [1])] ∧ (cleanup (run (new 0 1000 64) ops) 100 c).1.pending = [] :=
  ⟨[.write 100 7 [1] [(7, 100)]], ⟨0, [7], [(7, 1)]⟩, ⟨.refl _, trivial⟩, ⟨.refl _, .refl _⟩, rfl, by decide +kernel, by decide +kernel⟩

end Verif.Coalesce
