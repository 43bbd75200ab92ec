/-!
# Finite maps as association lists

Used to model Rust's `HashMap` when its size or its set of keys is observable.
The order of the list stands for the (unspecified) iteration order; no property theorem
depends on it unless it says so.
-/

namespace Verif

/-- A finite map, as a list of key/value pairs. Invariant (kept as a separate predicate): `keys` has no duplicates. -/
abbrev AMap (K V : Type) := List (K × V)

namespace AMap

set_option linter.unusedSectionVars false

variable {K V : Type} [DecidableEq K]

/-- `HashMap::get`. -/
def get : AMap K V → K → Option V
  | [], _ => none
  | (k', v) :: m, k => if k' = k then some v else get m k

/-- `HashMap::remove`. -/
def erase : AMap K V → K → AMap K V
  | [], _ => []
  | (k', v) :: m, k => if k' = k then erase m k else (k', v) :: erase m k

/-- `HashMap::insert`: replaces the value in place when the key is present, else adds it. -/
def set : AMap K V → K → V → AMap K V
  | [], k, v => [(k, v)]
  | (k', v') :: m, k, v => if k' = k then (k, v) :: m else (k', v') :: set m k v

/-- `HashMap::contains_key`. -/
def has (m : AMap K V) (k : K) : Bool := (m.get k).isSome

/-- The keys, in list order. -/
def keys (m : AMap K V) : List K := m.map (·.1)

/-- Well-formedness: one entry per key. -/
def WF (m : AMap K V) : Prop := m.keys.Nodup

@[simp] theorem get_nil (k : K) : get ([] : AMap K V) k = none := rfl
@[simp] theorem keys_nil : keys ([] : AMap K V) = [] := rfl
@[simp] theorem keys_cons (p : K × V) (m : AMap K V) : keys (p :: m) = p.1 :: keys m := rfl
@[simp] theorem wf_nil : WF ([] : AMap K V) := by simp [WF]

theorem wf_cons {p : K × V} {m : AMap K V} : WF (p :: m) ↔ p.1 ∉ keys m ∧ WF m := by
  simp [WF]

theorem get_set (m : AMap K V) (k k' : K) (v : V) :
    get (set m k v) k' = if k = k' then some v else get m k' := by
  induction m with
  | nil => simp [set, get]
  | cons p m ih =>
    obtain ⟨a, b⟩ := p
    simp only [set]
    by_cases h : a = k
    · subst h; simp only [if_pos, get]; split <;> rfl
    · simp only [if_neg h, get, ih]
      by_cases h2 : a = k'
      · subst h2; simp [Ne.symm h]
      · simp [h2]

@[simp] theorem get_set_self (m : AMap K V) (k : K) (v : V) : get (set m k v) k = some v := by
  simp [get_set]

theorem get_set_ne (m : AMap K V) {k k' : K} (v : V) (h : k ≠ k') :
    get (set m k v) k' = get m k' := by
  simp [get_set, h]

theorem get_erase (m : AMap K V) (k k' : K) :
    get (erase m k) k' = if k = k' then none else get m k' := by
  induction m with
  | nil => simp [erase, get]
  | cons p m ih =>
    obtain ⟨a, b⟩ := p
    simp only [erase]
    by_cases h : a = k
    · subst h; simp only [if_pos, ih, get]; split <;> simp_all
    · simp only [if_neg h, get, ih]
      by_cases h2 : a = k'
      · subst h2; simp [Ne.symm h]
      · simp [h2]

@[simp] theorem get_erase_self (m : AMap K V) (k : K) : get (erase m k) k = none := by
  simp [get_erase]

theorem get_erase_ne (m : AMap K V) {k k' : K} (h : k ≠ k') :
    get (erase m k) k' = get m k' := by
  simp [get_erase, h]

theorem get_eq_none_iff (m : AMap K V) (k : K) : get m k = none ↔ k ∉ keys m := by
  induction m with
  | nil => simp
  | cons p m ih =>
    obtain ⟨a, b⟩ := p
    simp only [get, keys_cons, List.mem_cons, not_or]
    by_cases h : a = k
    · simp [h]
    · simp only [if_neg h, ih]; constructor
      · intro h2; exact ⟨fun e => h e.symm, h2⟩
      · intro h2; exact h2.2

theorem mem_keys_iff (m : AMap K V) (k : K) : k ∈ keys m ↔ ∃ v, get m k = some v := by
  have := get_eq_none_iff m k
  cases h : get m k with
  | none => simp [h] at this; simp [this]
  | some v => simp [h] at this; simp [this]

theorem mem_of_get {m : AMap K V} {k : K} {v : V} (h : get m k = some v) : (k, v) ∈ m := by
  induction m with
  | nil => simp at h
  | cons p m ih =>
    obtain ⟨a, b⟩ := p
    simp only [get] at h
    by_cases h2 : a = k
    · simp [h2] at h; subst h; subst h2; simp
    · simp only [if_neg h2] at h; exact List.mem_cons_of_mem _ (ih h)

theorem get_of_mem {m : AMap K V} (wf : WF m) {k : K} {v : V} (h : (k, v) ∈ m) :
    get m k = some v := by
  induction m with
  | nil => simp at h
  | cons p m ih =>
    obtain ⟨a, b⟩ := p
    rw [wf_cons] at wf
    simp only [get]
    rcases List.mem_cons.1 h with h2 | h2
    · cases h2; simp
    · have hk : k ∈ keys m := List.mem_map.2 ⟨_, h2, rfl⟩
      have : a ≠ k := fun e => wf.1 (e ▸ hk)
      simp [this, ih wf.2 h2]

theorem mem_iff_get {m : AMap K V} (wf : WF m) {k : K} {v : V} :
    (k, v) ∈ m ↔ get m k = some v := ⟨get_of_mem wf, mem_of_get⟩

theorem mem_keys_set (m : AMap K V) (k k' : K) (v : V) :
    k' ∈ keys (set m k v) ↔ k' = k ∨ k' ∈ keys m := by
  rw [mem_keys_iff, mem_keys_iff, get_set]
  by_cases h : k = k'
  · simp [h]
  · simp [h, Ne.symm h]

theorem mem_keys_erase (m : AMap K V) (k k' : K) :
    k' ∈ keys (erase m k) ↔ k' ≠ k ∧ k' ∈ keys m := by
  rw [mem_keys_iff, mem_keys_iff, get_erase]
  by_cases h : k = k'
  · simp [h]
  · simp [h, Ne.symm h]

theorem keys_set_of_mem {m : AMap K V} {k : K} (h : k ∈ keys m) (v : V) :
    keys (set m k v) = keys m := by
  induction m with
  | nil => simp at h
  | cons p m ih =>
    obtain ⟨a, b⟩ := p
    simp only [set]
    by_cases h2 : a = k
    · simp [h2]
    · simp only [if_neg h2, keys_cons]
      have : k ∈ keys m := by
        rcases List.mem_cons.1 h with h3 | h3
        · exact absurd h3.symm h2
        · exact h3
      rw [ih this]

theorem set_of_not_mem {m : AMap K V} {k : K} (h : k ∉ keys m) (v : V) :
    set m k v = m ++ [(k, v)] := by
  induction m with
  | nil => rfl
  | cons p m ih =>
    obtain ⟨a, b⟩ := p
    simp only [keys_cons, List.mem_cons, not_or] at h
    simp only [set, if_neg (Ne.symm h.1), ih h.2, List.cons_append]

theorem keys_set_of_not_mem {m : AMap K V} {k : K} (h : k ∉ keys m) (v : V) :
    keys (set m k v) = keys m ++ [k] := by
  rw [set_of_not_mem h]; simp [keys]

theorem wf_set {m : AMap K V} (wf : WF m) (k : K) (v : V) : WF (set m k v) := by
  by_cases h : k ∈ keys m
  · unfold WF; rw [keys_set_of_mem h]; exact wf
  · unfold WF; rw [keys_set_of_not_mem h]
    rw [List.nodup_append]
    refine ⟨wf, by simp, ?_⟩
    intro a ha b hb
    simp at hb; subst hb
    exact fun e => h (e ▸ ha)

theorem keys_erase (m : AMap K V) (k : K) : keys (erase m k) = (keys m).filter (· ≠ k) := by
  induction m with
  | nil => rfl
  | cons p m ih =>
    obtain ⟨a, b⟩ := p
    simp only [erase]
    by_cases h : a = k
    · simp [h, ih]
    · simp [h, ih]

theorem wf_erase {m : AMap K V} (wf : WF m) (k : K) : WF (erase m k) := by
  unfold WF; rw [keys_erase]; exact wf.filter _

theorem length_set (m : AMap K V) (k : K) (v : V) :
    (set m k v).length = if k ∈ keys m then m.length else m.length + 1 := by
  have hl : ∀ m : AMap K V, m.length = (keys m).length := fun m => by simp [keys]
  split
  · next h => rw [hl, keys_set_of_mem h, ← hl]
  · next h => rw [hl, keys_set_of_not_mem h]; simp [hl m]

theorem erase_of_not_mem {m : AMap K V} {k : K} (h : k ∉ keys m) : erase m k = m := by
  induction m with
  | nil => rfl
  | cons p m ih =>
    obtain ⟨a, b⟩ := p
    simp only [keys_cons, List.mem_cons, not_or] at h
    simp only [erase, if_neg (Ne.symm h.1), ih h.2]

theorem length_erase_of_mem {m : AMap K V} (wf : WF m) {k : K} (h : k ∈ keys m) :
    (erase m k).length + 1 = m.length := by
  induction m with
  | nil => simp at h
  | cons p m ih =>
    obtain ⟨a, b⟩ := p
    rw [wf_cons] at wf
    simp only [erase]
    by_cases h2 : a = k
    · subst h2; simp only [if_pos, List.length_cons]
      rw [erase_of_not_mem wf.1]
    · simp only [if_neg h2, List.length_cons]
      have : k ∈ keys m := by
        rcases List.mem_cons.1 h with h3 | h3
        · exact absurd h3.symm h2
        · exact h3
      rw [ih wf.2 this]

theorem length_erase_le (m : AMap K V) (k : K) : (erase m k).length ≤ m.length := by
  induction m with
  | nil => simp [erase]
  | cons p m ih =>
    obtain ⟨a, b⟩ := p
    simp only [erase]; split
    · simp; omega
    · simp; omega

theorem mem_erase {m : AMap K V} {k : K} {p : K × V} : p ∈ erase m k ↔ p ∈ m ∧ p.1 ≠ k := by
  induction m with
  | nil => simp [erase]
  | cons q m ih =>
    obtain ⟨a, b⟩ := q
    simp only [erase]
    by_cases h : a = k
    · simp only [if_pos h, ih, List.mem_cons]
      constructor
      · rintro ⟨h1, h2⟩; exact ⟨Or.inr h1, h2⟩
      · rintro ⟨h1 | h1, h2⟩
        · subst h1; exact absurd h h2
        · exact ⟨h1, h2⟩
    · simp only [if_neg h, List.mem_cons, ih]
      constructor
      · rintro (h1 | ⟨h1, h2⟩)
        · subst h1; exact ⟨Or.inl rfl, h⟩
        · exact ⟨Or.inr h1, h2⟩
      · rintro ⟨h1 | h1, h2⟩
        · exact Or.inl h1
        · exact Or.inr ⟨h1, h2⟩

end AMap
end Verif

namespace Verif.AMap

set_option linter.unusedSectionVars false

variable {K V : Type} [DecidableEq K]

theorem keys_perm {m m' : AMap K V} (h : m.Perm m') : (keys m).Perm (keys m') := h.map _

theorem wf_perm {m m' : AMap K V} (h : m.Perm m') (wf : WF m) : WF m' :=
  (keys_perm h).nodup_iff.1 wf

/-- Lookups do not depend on the order of the list. -/
theorem get_perm {m m' : AMap K V} (h : m.Perm m') (wf : WF m) (k : K) : get m k = get m' k := by
  cases hg : get m k with
  | none =>
    rw [get_eq_none_iff] at hg
    symm; rw [get_eq_none_iff]
    exact fun hm => hg ((keys_perm h).mem_iff.2 hm)
  | some v =>
    exact (get_of_mem (wf_perm h wf) (h.mem_iff.1 (mem_of_get hg))).symm

/-- Removing the first entry that satisfies `p` removes that entry's key. -/
theorem eraseP_eq_erase {m : AMap K V} (wf : WF m) (p : K × V → Bool) {k : K} {v : V}
    (h : m.find? p = some (k, v)) : m.eraseP p = erase m k := by
  induction m with
  | nil => simp at h
  | cons q m ih =>
    obtain ⟨a, b⟩ := q
    rw [wf_cons] at wf
    simp only [List.find?_cons] at h
    by_cases hp : p (a, b) = true
    · rw [hp] at h; simp at h
      obtain ⟨rfl, rfl⟩ := h
      simp only [List.eraseP_cons_of_pos hp, erase, if_true]
      exact (erase_of_not_mem wf.1).symm
    · rw [Bool.not_eq_true] at hp
      rw [hp] at h; simp at h
      have hm : (k, v) ∈ m := List.mem_of_find?_eq_some h
      have hak : a ≠ k := by
        rintro rfl; exact wf.1 (List.mem_map_of_mem (f := (·.1)) hm)
      rw [List.eraseP_cons_of_neg (by rw [hp]; simp), ih wf.2 h]
      simp [erase, hak]

theorem length_set_of_mem {m : AMap K V} {k : K} (h : k ∈ keys m) (v : V) :
    (set m k v).length = m.length := by
  have := congrArg List.length (keys_set_of_mem h v)
  simpa [keys] using this

theorem length_set_of_not_mem {m : AMap K V} {k : K} (h : k ∉ keys m) (v : V) :
    (set m k v).length = m.length + 1 := by
  rw [set_of_not_mem h]; simp

end Verif.AMap

namespace Verif

/-- `n` is the number of elements satisfying `p`. -/
def IsCount {K : Type} (p : K → Prop) (n : Nat) : Prop :=
  ∃ l : List K, l.Nodup ∧ (∀ k, k ∈ l ↔ p k) ∧ l.length = n

/-- The number is unique, so `IsCount` is a definition of cardinality. -/
theorem isCount_unique {K : Type} {p : K → Prop} {n m : Nat} (h1 : IsCount p n) (h2 : IsCount p m) :
    n = m := by
  obtain ⟨l, nd, hl, rfl⟩ := h1
  obtain ⟨l', nd', hl', rfl⟩ := h2
  have h : l.Perm l' := (List.perm_ext_iff_of_nodup nd nd').2 fun k => by rw [hl, hl']
  exact h.length_eq

theorem isCount_get {K V : Type} [DecidableEq K] {m : AMap K V} (wf : m.WF) :
    IsCount (fun k => (m.get k).isSome) m.length := by
  refine ⟨m.keys, wf, ?_, by simp [AMap.keys]⟩
  intro k
  rw [AMap.mem_keys_iff]
  cases h : m.get k <;> simp [h]

end Verif
