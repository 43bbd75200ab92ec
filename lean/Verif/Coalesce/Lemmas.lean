import Verif.Coalesce.Model

/-! # Maps and sorting -/

namespace Verif.Coalesce

open Verif.Io (Data)

variable {α : Type}

/-- The keys of a map. -/
def keys (m : Map α) : List Nat := m.map (·.1)

theorem mem_of_get {m : Map α} {p : Nat} {a : α} (h : get m p = some a) : (p, a) ∈ m := by
  unfold get at h
  cases hf : m.find? (fun e => e.1 == p) with
  | none => rw [hf] at h; cases h
  | some e =>
    rw [hf] at h
    have h1 := List.mem_of_find?_eq_some hf
    have h2 := List.find?_some hf
    simp only [beq_iff_eq] at h2
    cases h
    obtain ⟨k, v⟩ := e
    simp only at h2; subst h2; exact h1

theorem get_isSome {m : Map α} {p : Nat} : (get m p).isSome = true ↔ p ∈ keys m := by
  constructor
  · intro h
    obtain ⟨a, ha⟩ := Option.isSome_iff_exists.1 h
    exact List.mem_map.2 ⟨_, mem_of_get ha, rfl⟩
  · intro h
    obtain ⟨e, he, hp⟩ := List.mem_map.1 h
    unfold get
    rw [Option.isSome_map, List.find?_isSome]
    exact ⟨e, he, by simp [hp]⟩

theorem get_none {m : Map α} {p : Nat} (h : p ∉ keys m) : get m p = none := by
  cases hg : get m p with
  | none => rfl
  | some a => exact absurd (get_isSome.1 (by rw [hg]; rfl)) h

theorem get_of_mem {m : Map α} (hn : (keys m).Nodup) {p : Nat} {a : α} (h : (p, a) ∈ m) : get m p = some a := by
  induction m with
  | nil => cases h
  | cons e m ih =>
    unfold keys at hn
    rw [List.map_cons, List.nodup_cons] at hn
    unfold get
    rw [List.find?_cons]
    rcases List.mem_cons.1 h with h | h
    · rw [← h]; simp
    · have : (e.1 == p) = false := by
        rw [beq_eq_false_iff_ne]
        intro e'
        exact hn.1 (e' ▸ List.mem_map.2 ⟨_, h, rfl⟩)
      rw [this]
      exact ih hn.2 h

theorem mem_keys_remove {m : Map α} {p q : Nat} : q ∈ keys (remove m p) ↔ q ≠ p ∧ q ∈ keys m := by
  unfold keys remove
  simp only [List.mem_map, List.mem_filter, bne_iff_ne]
  constructor
  · rintro ⟨e, ⟨he, hp⟩, hq⟩; subst hq; exact ⟨hp, e, he, rfl⟩
  · rintro ⟨hqp, e, he, hq⟩; subst hq; exact ⟨e, ⟨he, hqp⟩, rfl⟩

theorem get_remove {m : Map α} {p q : Nat} : get (remove m p) q = if q = p then none else get m q := by
  split
  · rename_i h; exact get_none (fun hm => (mem_keys_remove.1 hm).1 h)
  · rename_i h
    unfold get remove
    congr 1
    rw [List.find?_filter]
    congr 1
    funext e
    by_cases he : e.1 = q
    · subst he; simp [h]
    · simp [he]

theorem get_insert {m : Map α} {p q : Nat} {a : α} : get (insert m p a) q = if q = p then some a else get m q := by
  unfold insert get
  rw [List.find?_cons]
  by_cases h : q = p
  · subst h; simp
  · have : ((p, a).1 == q) = false := by simp; omega
    rw [this, if_neg h]
    have := get_remove (m := m) (p := p) (q := q)
    rw [if_neg h] at this
    exact this

theorem nodup_remove {m : Map α} (h : (keys m).Nodup) (p : Nat) : (keys (remove m p)).Nodup :=
  h.sublist (List.Sublist.map _ List.filter_sublist)

theorem nodup_insert {m : Map α} (h : (keys m).Nodup) (p : Nat) (a : α) : (keys (insert m p a)).Nodup := by
  show (p :: keys (remove m p)).Nodup
  rw [List.nodup_cons]
  exact ⟨fun hm => (mem_keys_remove.1 hm).1 rfl, nodup_remove h p⟩

theorem mem_keys_insert {m : Map α} {p q : Nat} {a : α} : q ∈ keys (insert m p a) ↔ q = p ∨ q ∈ keys m := by
  show q ∈ p :: keys (remove m p) ↔ _
  rw [List.mem_cons, mem_keys_remove]
  by_cases h : q = p <;> simp [h]

theorem remove_eq {m : Map α} {p : Nat} (h : p ∉ keys m) : remove m p = m := by
  unfold remove
  rw [List.filter_eq_self]
  intro e he
  simp only [bne_iff_ne]
  intro hp
  exact h (List.mem_map.2 ⟨e, he, hp⟩)

theorem length_remove {m : Map α} (hn : (keys m).Nodup) {p : Nat} (h : p ∈ keys m) : (remove m p).length + 1 = m.length := by
  induction m with
  | nil => cases h
  | cons e m ih =>
    unfold keys at hn h
    rw [List.map_cons, List.nodup_cons] at hn
    by_cases he : e.1 = p
    · have : remove (e :: m) p = m := by
        have : remove (e :: m) p = remove m p := by unfold remove; rw [List.filter_cons, if_neg (by simp [he])]
        rw [this, remove_eq (he ▸ hn.1)]
      rw [this]; rfl
    · have : remove (e :: m) p = e :: remove m p := by unfold remove; rw [List.filter_cons, if_pos (by simp [he])]
      rw [this, List.length_cons, List.length_cons]
      rcases List.mem_cons.1 h with h | h
      · exact absurd h.symm he
      · rw [ih hn.2 h]

theorem length_insert {m : Map α} (hn : (keys m).Nodup) {p : Nat} (h : p ∈ keys m) (a : α) : (insert m p a).length = m.length :=
  length_remove hn h

theorem length_insert_new {m : Map α} {p : Nat} (h : p ∉ keys m) (a : α) : (insert m p a).length = m.length + 1 := by
  unfold insert; rw [remove_eq h]; rfl

/-! ## Sorting -/

theorem perm_insertFirst (e : Nat × Nat) : ∀ l, (sortBy.insertFirst e l).Perm (e :: l)
  | [] => .refl _
  | y :: ys => by
    unfold sortBy.insertFirst
    split
    · exact .refl _
    · exact ((perm_insertFirst e ys).cons y).trans (.swap e y ys)

theorem perm_sortBy : ∀ l, (sortBy l).Perm l
  | [] => .refl _
  | x :: xs => (perm_insertFirst x (sortBy xs)).trans ((perm_sortBy xs).cons x)

theorem sorted_insertFirst (e : Nat × Nat) : ∀ l : List (Nat × Nat), l.Pairwise (·.2 ≤ ·.2) → (sortBy.insertFirst e l).Pairwise (·.2 ≤ ·.2)
  | [], _ => by simp [sortBy.insertFirst]
  | y :: ys, h => by
    unfold sortBy.insertFirst
    have hy := List.pairwise_cons.1 h
    split
    · rename_i hle
      refine List.pairwise_cons.2 ⟨fun z hz => ?_, h⟩
      rcases List.mem_cons.1 hz with rfl | hz
      · exact hle
      · exact Nat.le_trans hle (hy.1 z hz)
    · rename_i hle
      refine List.pairwise_cons.2 ⟨fun z hz => ?_, sorted_insertFirst e ys hy.2⟩
      rcases List.mem_cons.1 ((perm_insertFirst e ys).mem_iff.1 hz) with rfl | hz
      · omega
      · exact hy.1 z hz

theorem sorted_sortBy : ∀ l : List (Nat × Nat), (sortBy l).Pairwise (·.2 ≤ ·.2)
  | [] => List.Pairwise.nil
  | x :: xs => sorted_insertFirst x _ (sorted_sortBy xs)

theorem perm_put (x : Nat) : ∀ l, (sortNat.put x l).Perm (x :: l)
  | [] => .refl _
  | y :: ys => by
    unfold sortNat.put
    split
    · exact .refl _
    · exact ((perm_put x ys).cons y).trans (.swap x y ys)

theorem perm_sortNat : ∀ l, (sortNat l).Perm l
  | [] => .refl _
  | x :: xs => (perm_put x (sortNat xs)).trans ((perm_sortNat xs).cons x)

theorem sorted_put (x : Nat) : ∀ l : List Nat, l.Pairwise (· ≤ ·) → (sortNat.put x l).Pairwise (· ≤ ·)
  | [], _ => by simp [sortNat.put]
  | y :: ys, h => by
    unfold sortNat.put
    have hy := List.pairwise_cons.1 h
    split
    · rename_i hle
      refine List.pairwise_cons.2 ⟨fun z hz => ?_, h⟩
      rcases List.mem_cons.1 hz with rfl | hz
      · exact hle
      · exact Nat.le_trans hle (hy.1 z hz)
    · rename_i hle
      refine List.pairwise_cons.2 ⟨fun z hz => ?_, sorted_put x ys hy.2⟩
      rcases List.mem_cons.1 ((perm_put x ys).mem_iff.1 hz) with rfl | hz
      · omega
      · exact hy.1 z hz

theorem sorted_sortNat : ∀ l : List Nat, (sortNat l).Pairwise (· ≤ ·)
  | [] => List.Pairwise.nil
  | x :: xs => sorted_put x _ (sorted_sortNat xs)

/-! ## The three maps -/

/-- The three maps have the same keys, each once. -/
structure Same (s : Engine) : Prop where
  np : (keys s.pending).Nodup
  ns : (keys s.stamps).Nodup
  nf : (keys s.freqs).Nodup
  ps : ∀ p, p ∈ keys s.pending ↔ p ∈ keys s.stamps
  pf : ∀ p, p ∈ keys s.pending ↔ p ∈ keys s.freqs

theorem same_drop {s : Engine} (h : Same s) (p : Nat) : Same (drop s p) where
  np := nodup_remove h.np p
  ns := nodup_remove h.ns p
  nf := nodup_remove h.nf p
  ps q := by show q ∈ keys (remove _ _) ↔ q ∈ keys (remove _ _); rw [mem_keys_remove, mem_keys_remove, h.ps]
  pf q := by show q ∈ keys (remove _ _) ↔ q ∈ keys (remove _ _); rw [mem_keys_remove, mem_keys_remove, h.pf]

theorem same_dropPending {s : Engine} (h : Same s) (p : Nat) : Same (dropPending s p) := by
  unfold dropPending; split
  · exact same_drop h p
  · exact h

theorem same_foldl_drop (vs : List Nat) : ∀ {s : Engine}, Same s → Same (vs.foldl drop s) := by
  induction vs with
  | nil => intro s h; exact h
  | cons v vs ih => intro s h; exact ih (same_drop h v)

theorem same_foldl_dropPending (vs : List Nat) : ∀ {s : Engine}, Same s → Same (vs.foldl dropPending s) := by
  induction vs with
  | nil => intro s h; exact h
  | cons v vs ih => intro s h; exact ih (same_dropPending h v)

theorem same_validate {s : Engine} (h : Same s) : validate s = true := by
  have hk : ∀ {β : Type} {m : Map β} {e : Nat × β}, e ∈ m → e.1 ∈ keys m := fun he => List.mem_map.2 ⟨_, he, rfl⟩
  unfold validate
  simp only [Bool.and_eq_true, List.all_eq_true, get_isSome]
  refine ⟨⟨fun e he => ⟨(h.ps _).1 (hk he), (h.pf _).1 (hk he)⟩, fun e he => (h.ps _).2 (hk he)⟩, fun e he => (h.pf _).2 (hk he)⟩

/-- What is left after some pages were dropped. -/
theorem foldl_drop_get (vs : List Nat) : ∀ (s : Engine) (q : Nat),
    get (vs.foldl drop s).pending q = (if q ∈ vs then none else get s.pending q) ∧
    get (vs.foldl drop s).stamps q = (if q ∈ vs then none else get s.stamps q) := by
  induction vs with
  | nil => intro s q; simp
  | cons v vs ih =>
    intro s q
    rw [List.foldl_cons, (ih (drop s v) q).1, (ih (drop s v) q).2]
    unfold drop
    simp only [get_remove, List.mem_cons]
    by_cases h1 : q ∈ vs <;> by_cases h2 : q = v <;> simp [h1, h2]

theorem foldl_drop_length (vs : List Nat) : ∀ {s : Engine}, Same s → vs.Nodup → (∀ v ∈ vs, v ∈ keys s.pending) →
    (vs.foldl drop s).pending.length + vs.length = s.pending.length := by
  induction vs with
  | nil => intro s _ _ _; rfl
  | cons v vs ih =>
    intro s h hn hv
    rw [List.nodup_cons] at hn
    have := ih (same_drop h v) hn.2 (fun w hw => mem_keys_remove.2 ⟨fun e => hn.1 (e ▸ hw), hv w (List.mem_cons_of_mem _ hw)⟩)
    rw [List.foldl_cons, List.length_cons, ← Nat.add_assoc, this]
    exact length_remove h.np (hv v List.mem_cons_self)

theorem foldl_drop_fields (vs : List Nat) : ∀ (s : Engine), (vs.foldl drop s).max = s.max ∧ (vs.foldl drop s).window = s.window := by
  induction vs with
  | nil => intro s; exact ⟨rfl, rfl⟩
  | cons v vs ih => intro s; exact ih (drop s v)

theorem foldl_dropPending_get (vs : List Nat) : ∀ {s : Engine}, Same s → ∀ (q : Nat),
    get (vs.foldl dropPending s).pending q = (if q ∈ vs then none else get s.pending q) ∧
    get (vs.foldl dropPending s).stamps q = (if q ∈ vs then none else get s.stamps q) := by
  induction vs with
  | nil => intro s _ q; simp
  | cons v vs ih =>
    intro s hs q
    rw [List.foldl_cons, (ih (same_dropPending hs v) q).1, (ih (same_dropPending hs v) q).2]
    by_cases hv : (get s.pending v).isSome = true
    · have : dropPending s v = drop s v := if_pos hv
      rw [this]
      unfold drop
      simp only [get_remove, List.mem_cons]
      by_cases h1 : q ∈ vs <;> by_cases h2 : q = v <;> simp [h1, h2]
    · have : dropPending s v = s := if_neg hv
      rw [this]
      rw [get_isSome] at hv
      have e1 : get s.pending v = none := get_none hv
      have e2 : get s.stamps v = none := get_none (fun h => hv ((hs.ps v).2 h))
      simp only [List.mem_cons]
      by_cases h1 : q ∈ vs <;> by_cases h2 : q = v <;> simp [h1, h2, e1, e2]

theorem foldl_dropPending_fields (vs : List Nat) : ∀ (s : Engine),
    (vs.foldl dropPending s).max = s.max ∧ (vs.foldl dropPending s).window = s.window ∧ (vs.foldl dropPending s).pending.length ≤ s.pending.length := by
  induction vs with
  | nil => intro s; exact ⟨rfl, rfl, Nat.le_refl _⟩
  | cons v vs ih =>
    intro s
    obtain ⟨h1, h2, h3⟩ := ih (dropPending s v)
    rw [List.foldl_cons, h1, h2]
    unfold dropPending at *
    split
    · rename_i hc; rw [if_pos hc] at h3; exact ⟨rfl, rfl, Nat.le_trans h3 (List.length_filter_le _ _)⟩
    · rename_i hc; rw [if_neg hc] at h3; exact ⟨rfl, rfl, h3⟩

end Verif.Coalesce
