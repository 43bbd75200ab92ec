import Verif.PTree.Model

/-!
# Paged B+ tree: what the searches in one page find
-/

namespace Verif.PTree

variable {V : Type}

/-- Strictly ascending keys. -/
def Asc (ks : List Int) : Prop := ks.Pairwise (· < ·)

theorem Asc.get {ks : List Int} (h : Asc ks) {i j : Nat} {a b : Int} (hi : ks[i]? = some a) (hj : ks[j]? = some b) (hij : i < j) :
    a < b := by
  obtain ⟨hi', rfl⟩ := List.getElem?_eq_some_iff.mp hi
  obtain ⟨hj', rfl⟩ := List.getElem?_eq_some_iff.mp hj
  exact List.pairwise_iff_getElem.mp h i j hi' hj' hij

/-- The position of a key: smaller keys in front of it, none behind it. -/
structure Pos (ks : List Int) (key : Int) (r : Nat) : Prop where
  le : r ≤ ks.length
  front : ∀ (i : Nat) (x : Int), i < r → ks[i]? = some x → x < key
  back : ∀ (i : Nat) (x : Int), r ≤ i → ks[i]? = some x → key ≤ x

theorem bsearch_pos {ks : List Int} (h : Asc ks) (key : Int) : ∀ (n low high : Nat), high ≤ ks.length → low ≤ high → high - low ≤ n →
    (∀ (i : Nat) (x : Int), i < low → ks[i]? = some x → x < key) →
    (∀ (i : Nat) (x : Int), high ≤ i → ks[i]? = some x → key ≤ x) → Pos ks key (bsearch ks key n low high)
  | 0, low, high, h1, h2, h3, h4, h5 => by
    have : low = high := by omega
    subst this
    exact ⟨h1, h4, h5⟩
  | n + 1, low, high, h1, h2, h3, h4, h5 => by
    unfold bsearch
    split
    · rename_i hlt
      have hm : low + (high - low) / 2 < ks.length := by omega
      have e : ks[low + (high - low) / 2]? = some ks[low + (high - low) / 2] := List.getElem?_eq_getElem hm
      simp only [e]
      split
      · rename_i heq
        subst heq
        refine ⟨by omega, fun i x hi hx => h.get hx e hi, fun i x hi hx => ?_⟩
        rcases Nat.lt_or_ge (low + (high - low) / 2) i with hl | hl
        · exact Int.le_of_lt (h.get e hx hl)
        · have : i = low + (high - low) / 2 := by omega
          subst this
          rw [e] at hx
          cases hx
          exact Int.le_refl _
      · split
        · rename_i hne hl
          refine bsearch_pos h key n _ _ (by omega) (by omega) (by omega) h4 fun i x hi hx => ?_
          rcases Nat.lt_or_ge (low + (high - low) / 2) i with hl' | hl'
          · have := h.get e hx hl'; omega
          · have : i = low + (high - low) / 2 := by omega
            subst this
            rw [e] at hx
            cases hx
            omega
        · rename_i hne hl
          refine bsearch_pos h key n _ _ (by omega) (by omega) (by omega) (fun i x hi hx => ?_) h5
          rcases Nat.lt_or_ge i (low + (high - low) / 2) with hl' | hl'
          · have := h.get hx e hl'; omega
          · have : i = low + (high - low) / 2 := by omega
            subst this
            rw [e] at hx
            cases hx
            omega
    · have : low = high := by omega
      subst this
      exact ⟨h1, h4, h5⟩

theorem isearch_pos {ks : List Int} (h : Asc ks) (key : Int) : ∀ (n left right : Nat), right < ks.length → left ≤ right + 1 → right + 1 - left < n →
    (∀ (i : Nat) (x : Int), i < left → ks[i]? = some x → x < key) →
    (∀ (i : Nat) (x : Int), right < i → ks[i]? = some x → key ≤ x) → Pos ks key (isearch ks key n left right)
  | 0, left, right, _, _, h3, _, _ => by omega
  | n + 1, left, right, h1, h2, h3, h4, h5 => by
    unfold isearch
    split
    · rename_i hlt
      have hm : left + (right - left) / 2 < ks.length := by omega
      have e : ks[left + (right - left) / 2]? = some ks[left + (right - left) / 2] := List.getElem?_eq_getElem hm
      simp only [e]
      split
      · rename_i hl
        have back : ∀ (i : Nat) (x : Int), left + (right - left) / 2 ≤ i → ks[i]? = some x → key ≤ x := fun i x hi hx => by
          rcases Nat.lt_or_ge (left + (right - left) / 2) i with hl' | hl'
          · have := h.get e hx hl'; omega
          · have : i = left + (right - left) / 2 := by omega
            subst this
            rw [e] at hx
            cases hx
            omega
        split
        · rename_i h0
          exact ⟨by omega, fun i x hi _ => by omega, fun i x _ hx => back i x (by omega) hx⟩
        · exact isearch_pos h key n _ _ (by omega) (by omega) (by omega) h4 fun i x hi hx => back i x (by omega) hx
      · split
        · rename_i hl heq
          subst heq
          refine ⟨by omega, fun i x hi hx => h.get hx e hi, fun i x hi hx => ?_⟩
          rcases Nat.lt_or_ge (left + (right - left) / 2) i with hl | hl
          · exact Int.le_of_lt (h.get e hx hl)
          · have : i = left + (right - left) / 2 := by omega
            subst this
            rw [e] at hx
            cases hx
            exact Int.le_refl _
        · rename_i hl hne
          refine isearch_pos h key n _ _ (by omega) (by omega) (by omega) (fun i x hi hx => ?_) h5
          rcases Nat.lt_or_ge i (left + (right - left) / 2) with hl' | hl'
          · have := h.get hx e hl'; omega
          · have : i = left + (right - left) / 2 := by omega
            subst this
            rw [e] at hx
            cases hx
            omega
    · exact ⟨by omega, h4, fun i x hi hx => h5 i x (by omega) hx⟩

/-- A position is unique. -/
theorem Pos.unique {ks : List Int} {key : Int} {a b : Nat} (ha : Pos ks key a) (hb : Pos ks key b) : a = b := by
  rcases Nat.lt_trichotomy a b with h | h | h
  · have e := List.getElem?_eq_getElem (l := ks) (i := a) (by have := hb.le; omega)
    have h1 := ha.back a _ (Nat.le_refl _) e
    have h2 := hb.front a _ h e
    omega
  · exact h
  · have e := List.getElem?_eq_getElem (l := ks) (i := b) (by have := ha.le; omega)
    have h1 := hb.back b _ (Nat.le_refl _) e
    have h2 := ha.front b _ h e
    omega

/-- The position in a list that is split at the key. -/
theorem Pos.append {xs ys : List Int} {key : Int} (h1 : ∀ x ∈ xs, x < key) (h2 : ∀ y ∈ ys, key ≤ y) : Pos (xs ++ ys) key xs.length := by
  refine ⟨by simp, fun i x hi hx => ?_, fun i x hi hx => ?_⟩
  · rw [List.getElem?_append_left hi] at hx
    exact h1 x (List.mem_of_getElem? hx)
  · rw [List.getElem?_append_right hi] at hx
    exact h2 x (List.mem_of_getElem? hx)

/-- The keys of a leaf. -/
abbrev keys (es : List (Int × V)) : List Int := es.map (·.1)

theorem leafIdx_pos {es : List (Int × V)} (h : Asc (keys es)) (key : Int) : Pos (keys es) key (leafIdx es key) :=
  bsearch_pos h key _ _ _ (by simp) (by omega) (by omega) (fun i _ hi => by omega)
    (fun i x hi hx => by rw [List.getElem?_eq_none (by simpa using hi)] at hx; cases hx)

theorem innerIdx_pos {ks : List Int} (h : Asc ks) (key : Int) : Pos ks key (innerIdx ks key) := by
  unfold innerIdx
  split
  · rename_i e; subst e; exact ⟨by simp, fun i _ hi => by omega, fun i x _ hx => by simp at hx⟩
  · rename_i hne
    have : 0 < ks.length := List.length_pos_iff.mpr hne
    exact isearch_pos h key _ _ _ (by omega) (by omega) (by omega) (fun i _ hi => by omega)
      (fun i x hi hx => by rw [List.getElem?_eq_none (by omega)] at hx; cases hx)

theorem asc_cons {e : Int × V} {es : List (Int × V)} : Asc (keys (e :: es)) ↔ (∀ z ∈ es, e.1 < z.1) ∧ Asc (keys es) := by
  constructor
  · intro h
    have h := List.pairwise_cons.mp h
    exact ⟨fun z hz => h.1 z.1 (List.mem_map_of_mem (f := (·.1)) hz), h.2⟩
  · intro h
    refine List.pairwise_cons.mpr ⟨fun a ha => ?_, h.2⟩
    obtain ⟨z, hz, rfl⟩ := List.mem_map.mp ha
    exact h.1 z hz

theorem asc_append {xs ys : List (Int × V)} :
    Asc (keys (xs ++ ys)) ↔ Asc (keys xs) ∧ Asc (keys ys) ∧ ∀ x ∈ xs, ∀ y ∈ ys, x.1 < y.1 := by
  unfold Asc keys
  rw [List.map_append, List.pairwise_append]
  constructor
  · exact fun h => ⟨h.1, h.2.1, fun x hx y hy => h.2.2 x.1 (List.mem_map_of_mem hx) y.1 (List.mem_map_of_mem hy)⟩
  · refine fun h => ⟨h.1, h.2.1, fun a ha b hb => ?_⟩
    obtain ⟨x, hx, rfl⟩ := List.mem_map.mp ha
    obtain ⟨y, hy, rfl⟩ := List.mem_map.mp hb
    exact h.2.2 x hx y hy

/-- A sorted list cut at a key. -/
theorem cut_at {es : List (Int × V)} (h : Asc (keys es)) (key : Int) :
    ∃ xs ys : List (Int × V), es = xs ++ ys ∧ (∀ x ∈ xs, x.1 < key) ∧ (∀ y ∈ ys, key ≤ y.1) := by
  induction es with
  | nil => exact ⟨[], [], rfl, by simp, by simp⟩
  | cons e es ih =>
    have h' := asc_cons.mp h
    rcases Int.lt_or_le e.1 key with hl | hl
    · obtain ⟨xs, ys, rfl, h1, h2⟩ := ih h'.2
      exact ⟨e :: xs, ys, rfl, by simpa using ⟨hl, fun a b hab => h1 (a, b) hab⟩, h2⟩
    · refine ⟨[], e :: es, rfl, by simp, ?_⟩
      intro y hy
      rcases List.mem_cons.mp hy with rfl | hy
      · exact hl
      · have := h'.1 y hy; omega

theorem leafIdx_cut {xs ys : List (Int × V)} (h : Asc (keys (xs ++ ys))) {key : Int} (h1 : ∀ x ∈ xs, x.1 < key) (h2 : ∀ y ∈ ys, key ≤ y.1) :
    leafIdx (xs ++ ys) key = xs.length := by
  have p := leafIdx_pos h key
  have q : Pos (keys (xs ++ ys)) key xs.length := by
    have := Pos.append (xs := keys xs) (ys := keys ys) (key := key) (by simpa using fun a b hab => h1 (a, b) hab) (by simpa using fun a b hab => h2 (a, b) hab)
    simpa [keys] using this
  exact p.unique q

/-- `lookup` in a list of pairs. -/
def get (es : List (Int × V)) (key : Int) : Option V := (es.find? (fun e => e.1 = key)).map (·.2)

theorem get_none {es : List (Int × V)} {key : Int} (h : ∀ e ∈ es, e.1 ≠ key) : get es key = none := by
  unfold get
  rw [List.find?_eq_none.mpr (by simpa using fun a b hab => h (a, b) hab)]
  rfl

theorem get_append (xs ys : List (Int × V)) (key : Int) : get (xs ++ ys) key = (get xs key).or (get ys key) := by
  unfold get
  rw [List.find?_append]
  cases xs.find? (fun e => decide (e.1 = key)) <;> rfl

theorem get_left {xs ys : List (Int × V)} {key : Int} (h : ∀ y ∈ ys, y.1 ≠ key) : get (xs ++ ys) key = get xs key := by
  rw [get_append, get_none h, Option.or_none]

theorem get_right {xs ys : List (Int × V)} {key : Int} (h : ∀ x ∈ xs, x.1 ≠ key) : get (xs ++ ys) key = get ys key := by
  rw [get_append, get_none h, Option.none_or]

theorem get_cons (e : Int × V) (es : List (Int × V)) (key : Int) : get (e :: es) key = if e.1 = key then some e.2 else get es key := by
  unfold get
  by_cases h : e.1 = key <;> simp [List.find?_cons, h]

theorem get_mem {es : List (Int × V)} (h : Asc (keys es)) {key : Int} {v : V} : get es key = some v ↔ (key, v) ∈ es := by
  induction es with
  | nil => simp [get]
  | cons e es ih =>
    have h' := asc_cons.mp h
    rw [get_cons, List.mem_cons]
    by_cases he : e.1 = key
    · rw [if_pos he]
      constructor
      · rintro ⟨rfl⟩; left; subst he; rfl
      · rintro (rfl | hm)
        · rfl
        · have := h'.1 _ hm; simp only at this; omega
    · rw [if_neg he, ih h'.2]
      constructor
      · exact Or.inr
      · rintro (rfl | hm)
        · exact absurd rfl he
        · exact hm

/-- What a leaf gives is what the list of its pairs holds. -/
theorem leafGet_get {es : List (Int × V)} (h : Asc (keys es)) (key : Int) : leafGet es key = get es key := by
  obtain ⟨xs, ys, rfl, h1, h2⟩ := cut_at h key
  rw [leafGet, leafIdx_cut h h1 h2, get_right (fun x hx => by have := h1 x hx; omega), List.getElem?_append_right (by omega), Nat.sub_self]
  cases ys with
  | nil => rfl
  | cons y ys =>
    simp only [List.getElem?_cons_zero]
    rw [get_cons]
    by_cases e : key = y.1
    · simp [e]
    · rw [if_neg e, if_neg (fun c => e c.symm)]
      symm
      refine get_none fun z hz => ?_
      have := (asc_cons.mp (asc_append.mp h).2.1).1 z hz
      have := h2 y (by simp)
      omega

theorem insertIdx_mid {α : Type} (xs ys : List α) (a : α) : (xs ++ ys).insertIdx xs.length a = xs ++ a :: ys := by
  induction xs with
  | nil => rfl
  | cons x xs ih => simpa using ih

theorem eraseIdx_mid {α : Type} (xs ys : List α) (a : α) : (xs ++ a :: ys).eraseIdx xs.length = xs ++ ys := by
  induction xs with
  | nil => rfl
  | cons x xs ih => simpa using ih

/-- A pair put into a sorted list. -/
theorem leafPut_cut {xs ys : List (Int × V)} (h : Asc (keys (xs ++ ys))) {key : Int} (v : V) (h1 : ∀ x ∈ xs, x.1 < key) (h2 : ∀ y ∈ ys, key ≤ y.1) :
    leafPut (xs ++ ys) key v = xs ++ (key, v) :: (if (ys.head?.map (·.1)) = some key then ys.tail else ys) := by
  unfold leafPut
  simp only [leafIdx_cut h h1 h2]
  rw [List.getElem?_append_right (by omega), Nat.sub_self]
  have ins : (xs ++ ys).insertIdx xs.length (key, v) = xs ++ (key, v) :: ys := by
    exact insertIdx_mid xs ys _
  cases ys with
  | nil => simpa using ins
  | cons y ys =>
    simp only [List.getElem?_cons_zero, List.head?_cons, Option.map_some, Option.some.injEq, List.tail_cons]
    by_cases e : key = y.1
    · rw [if_pos e, if_pos e.symm, List.set_append_right _ _ (by omega), Nat.sub_self, List.set_cons_zero, e]
    · rw [if_neg e, if_neg (fun c => e c.symm), ins]

theorem leafPut_asc {es : List (Int × V)} (h : Asc (keys es)) (key : Int) (v : V) : Asc (keys (leafPut es key v)) := by
  obtain ⟨xs, ys, rfl, h1, h2⟩ := cut_at h key
  rw [leafPut_cut h v h1 h2]
  have h' := asc_append.mp h
  have key1 : ∀ zs : List (Int × V), Asc (keys zs) → (∀ z ∈ zs, key < z.1) → (∀ z ∈ zs, z ∈ ys) → Asc (keys (xs ++ (key, v) :: zs)) := by
    intro zs hz1 hz2 hz3
    refine asc_append.mpr ⟨h'.1, asc_cons.mpr ⟨hz2, hz1⟩, fun x hx z hz => ?_⟩
    rcases List.mem_cons.mp hz with rfl | hz
    · exact h1 x hx
    · exact h'.2.2 x hx z (hz3 z hz)
  cases ys with
  | nil => exact key1 [] (by simp [Asc, keys]) (by simp) (by simp)
  | cons y ys =>
    have h3 := asc_cons.mp h'.2.1
    have h4 := h3.1
    have := h2 y (by simp)
    simp only [List.head?_cons, Option.map_some, Option.some.injEq, List.tail_cons]
    split
    · rename_i e
      exact key1 ys h3.2 (fun z hz => by have := h4 z hz; omega) (fun z hz => by simp [hz])
    · rename_i e
      refine key1 (y :: ys) h'.2.1 (fun z hz => ?_) (fun z hz => hz)
      rcases List.mem_cons.mp hz with rfl | hz
      · omega
      · have := h4 z hz; omega

theorem leafPut_get {es : List (Int × V)} (h : Asc (keys es)) (key : Int) (v : V) (j : Int) :
    get (leafPut es key v) j = if j = key then some v else get es j := by
  obtain ⟨xs, ys, rfl, h1, h2⟩ := cut_at h key
  rw [leafPut_cut h v h1 h2]
  by_cases e : j = key
  · subst e
    rw [if_pos rfl, get_right (fun x hx => by have := h1 x hx; omega), get_cons, if_pos rfl]
  · rw [if_neg e, get_append, get_append, get_cons]
    simp only [if_neg (fun c => e (Eq.symm c))]
    congr 1
    cases ys with
    | nil => simp
    | cons y ys =>
      simp only [List.head?_cons, Option.map_some, Option.some.injEq, List.tail_cons]
      split
      · rename_i e'
        rw [get_cons, if_neg (by omega)]
      · rfl

theorem leafPut_mem {es : List (Int × V)} (h : Asc (keys es)) {key : Int} {v : V} {e : Int × V} (he : e ∈ leafPut es key v) : e.1 = key ∨ e ∈ es := by
  obtain ⟨xs, ys, rfl, h1, h2⟩ := cut_at h key
  rw [leafPut_cut h v h1 h2] at he
  simp only [List.mem_append, List.mem_cons] at he ⊢
  rcases he with he | rfl | he
  · exact .inr (.inl he)
  · exact .inl rfl
  · right; right
    split at he
    · exact List.mem_of_mem_tail he
    · exact he

theorem leafPut_length {es : List (Int × V)} (h : Asc (keys es)) (key : Int) (v : V) :
    (leafPut es key v).length = if (get es key).isSome then es.length else es.length + 1 := by
  obtain ⟨xs, ys, rfl, h1, h2⟩ := cut_at h key
  rw [leafPut_cut h v h1 h2, get_right (fun x hx => by have := h1 x hx; omega)]
  cases ys with
  | nil => simp [get]
  | cons y ys =>
    simp only [List.head?_cons, Option.map_some, Option.some.injEq, List.tail_cons, get_cons]
    by_cases e : y.1 = key
    · simp [e]
    · have : get ys key = none := get_none fun z hz => by
        have := (asc_cons.mp (asc_append.mp h).2.1).1 z hz
        have := h2 y (by simp)
        omega
      simp [e, this]
      omega

/-- Pairs put one by one behind the pairs of a leaf that has room for them. -/
theorem leafInsertAll_append (max : Nat) : ∀ (xs es : List (Int × V)), Asc (keys (es ++ xs)) → es.length + xs.length ≤ max →
    leafInsertAll max es xs = es ++ xs
  | [], es, _, _ => by simp [leafInsertAll]
  | x :: xs, es, h, hl => by
    have h' := asc_append.mp h
    have e1 : leafInsert max es x.1 x.2 = es ++ [x] := by
      rw [leafInsert, if_neg (by simp at hl; omega)]
      have := leafPut_cut (xs := es) (ys := []) (key := x.1) (by simpa using h'.1 : Asc (keys (es ++ []))) x.2
        (fun y hy => h'.2.2 y hy x (by simp)) (by simp)
      simpa using this
    have := leafInsertAll_append max xs (es ++ [x]) (by simpa using h) (by simp at hl ⊢; omega)
    simp only [leafInsertAll, List.foldl_cons, e1] at this ⊢
    simpa using this

theorem times_leafRemove (sp : Nat) : ∀ (n : Nat) (es : List (Int × V)), es.length = sp + n → times n (leafRemove sp) es = es.take sp
  | 0, es, h => by rw [times, List.take_of_length_le (by omega)]
  | n + 1, es, h => by
    rw [times, times_leafRemove sp n _ (by rw [leafRemove, List.length_eraseIdx]; split <;> omega), leafRemove]
    conv => lhs; rw [← List.take_append_drop sp es]
    have hd : es.drop sp ≠ [] := fun c => by have := congrArg List.length c; simp at this; omega
    obtain ⟨y, ys, e⟩ := List.exists_cons_of_ne_nil hd
    have hlen : (es.take sp).length = sp := by rw [List.length_take]; omega
    rw [e]
    have := eraseIdx_mid (es.take sp) ys y
    rw [hlen] at this
    rw [this, List.take_append_of_le_length (by omega), List.take_take, Nat.min_self]

end Verif.PTree
