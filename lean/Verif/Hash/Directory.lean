import Verif.Base.AMap

/-!
# Directory page of the extendible hash table
(`src/storage/page/page_types/extendable_hash_table_directory_page.rs`), property C19
-/

namespace Verif.Hash

/-! ## Model -/

/-- `HTABLE_DIRECTORY_ARRAY_SIZE` (extendable_hash_table_directory_page.rs:71-72). -/
def arraySize : Nat := 2 ^ 9

/-- `struct ExtendableHTableDirectoryPage` (extendable_hash_table_directory_page.rs:79-88). The two arrays have
`arraySize` cells; a cell beyond is never read before the check that models the panic. `INVALID_PAGE_ID` is `none`. -/
structure Dir where
  maxDepth : Nat
  gd : Nat
  ld : Nat → Nat
  pid : Nat → Option Nat

/-- `init` (extendable_hash_table_directory_page.rs:95-113). -/
def Dir.init (maxDepth : Nat) : Dir := { maxDepth, gd := 0, ld := fun _ => 0, pid := fun _ => none }

/-- `set_bucket_page_id` (extendable_hash_table_directory_page.rs:150-171), for an index inside the array. -/
def Dir.setPid (d : Dir) (i : Nat) (p : Option Nat) : Dir :=
  { d with pid := fun j => if j = i then p else d.pid j }

/-- `get_global_depth_mask` and `hash_to_bucket_index` (extendable_hash_table_directory_page.rs:122-124, 212-214). -/
def Dir.bucketIndex (d : Dir) (hash : Nat) : Nat := hash &&& (2 ^ d.gd - 1)

/-- `grow_directory` with `copy_entries_for_growth` (extendable_hash_table_directory_page.rs:658-689); `none` is the
index panic when the arrays are too short. The loops write each new slot from the slot half a directory below. -/
def Dir.grow (d : Dir) : Option (Dir × Bool) :=
  if d.gd ≥ d.maxDepth then some (d, false)
  else if 2 ^ (d.gd + 1) > arraySize then none
  else some ({ d with
    gd := d.gd + 1,
    ld := fun i => if 2 ^ d.gd ≤ i ∧ i < 2 ^ (d.gd + 1) then d.ld (i - 2 ^ d.gd) else d.ld i,
    pid := fun i => if 2 ^ d.gd ≤ i ∧ i < 2 ^ (d.gd + 1) then d.pid (i - 2 ^ d.gd) else d.pid i }, true)

/-- The `while` loop of `update_directory_for_split` (extendable_hash_table_directory_page.rs:263-268). The first argument
bounds the iterations; `target` of them are enough because each raises the depth by one. -/
def Dir.growLoop (target : Nat) : Nat → Dir → Option (Dir × Bool)
  | 0, d => some (d, true)
  | n + 1, d =>
    if target > d.gd then
      match d.grow with
      | none => none
      | some (d', false) => some (d', false)
      | some (d', true) => growLoop target n d'
    else some (d, true)

/-- The loop that redirects the slots (extendable_hash_table_directory_page.rs:271-305 and 578-613): each slot is written
at most once and the old page id is read before. -/
def Dir.redirect (d : Dir) (b : Nat) (newPid : Nat) (l : Nat) : Dir :=
  { d with
    ld := fun i => if i < 2 ^ d.gd ∧ i &&& (2 ^ l - 1) = b &&& (2 ^ l - 1) then l + 1 else d.ld i,
    pid := fun i => if i < 2 ^ d.gd ∧ i &&& (2 ^ l - 1) = b &&& (2 ^ l - 1) then
        (if i &&& 2 ^ l ≠ 0 then some newPid else d.pid b) else d.pid i }

/-- `update_directory_for_split` (extendable_hash_table_directory_page.rs:249-316); the boolean is `is_some` of the result,
whose value no caller uses. `none` is a panic. -/
def Dir.updateForSplit (d : Dir) (b : Nat) (newPid : Nat) : Option (Dir × Bool) :=
  if b ≥ arraySize then none
  else
    match d.growLoop (d.ld b + 1) (d.ld b + 1) with
    | none => none
    | some (d', false) => some (d', false)
    | some (d', true) => some (d'.redirect b newPid (d.ld b), true)

/-- `split_bucket` (extendable_hash_table_directory_page.rs:568-614). -/
def Dir.splitBucket (d : Dir) (b : Nat) (newPid : Nat) : Option Dir :=
  if b ≥ arraySize then none
  else if d.ld b ≥ d.gd then
    match d.grow with
    | none => none
    | some (d', false) => some d'
    | some (d', true) => some (d'.redirect b newPid (d.ld b))
  else some (d.redirect b newPid (d.ld b))

/-- `merge_bucket` (extendable_hash_table_directory_page.rs:617-645): the directory and the page id it reports, `some none`
being `INVALID_PAGE_ID`. Slots are compared with the unmasked index, and the buddy's slots keep their depth. -/
def Dir.mergeBucket (d : Dir) (b : Nat) : Dir × Option (Option Nat) :=
  let l := d.ld b
  if l = 0 then (d, none)
  else
    let buddy := b ^^^ 2 ^ (l - 1)
    if d.ld buddy ≠ l then (d, none)
    else
      let d' := { d with
        ld := fun i => if i < 2 ^ d.gd ∧ i &&& (2 ^ l - 1) = b then l - 1 else d.ld i,
        pid := fun i => if i < 2 ^ d.gd ∧ i &&& (2 ^ l - 1) = b then d.pid buddy else d.pid i }
      (d', some (d'.pid b))

/-- `find_bucket_index_for_page_id` (extendable_hash_table_directory_page.rs:648-655). -/
def Dir.findIndex (d : Dir) (p : Option Nat) : Option Nat := (List.range (2 ^ d.gd)).find? (fun i => d.pid i = p)

/-- `verify_integrity` (extendable_hash_table_directory_page.rs:420-501): `false` is a failed assertion. -/
def Dir.verifyIntegrity (d : Dir) : Bool :=
  let slots := List.range (2 ^ d.gd)
  slots.all (fun i => d.ld i ≤ d.gd) &&
  slots.all (fun i =>
    match d.findIndex (d.pid i) with
    | none => false
    | some j => slots.countP (fun k => d.pid k = d.pid i) == 2 ^ (d.gd - d.ld j)) &&
  slots.all (fun i => slots.all fun j => d.pid j ≠ d.pid i || d.ld i == d.ld j)

/-! ## Specification -/

/-- A well-formed directory: no slot is deeper than the directory; two slots point to the same bucket exactly if they agree
on as many low bits as the depth of that bucket, and then they have the same depth. -/
structure WF (d : Dir) : Prop where
  depth : ∀ i, i < 2 ^ d.gd → d.ld i ≤ d.gd
  same : ∀ i j, i < 2 ^ d.gd → j < 2 ^ d.gd → i % 2 ^ d.ld i = j % 2 ^ d.ld i → d.pid i = d.pid j ∧ d.ld i = d.ld j
  only : ∀ i j, i < 2 ^ d.gd → j < 2 ^ d.gd → d.pid i = d.pid j → i % 2 ^ d.ld i = j % 2 ^ d.ld i

/-- The calls that split, and the explicit doubling. -/
inductive DirOp where
  | update (b newPid : Nat)
  | split (b newPid : Nat)
  | incrGlobal
  deriving Repr

/-- One call; `none` is a panic. `incr_global_depth` is extendable_hash_table_directory_page.rs:319-321. -/
def Dir.step (d : Dir) : DirOp → Option Dir
  | .update b p => (d.updateForSplit b p).map (·.1)
  | .split b p => d.splitBucket b p
  | .incrGlobal => d.grow.map (·.1)

/-- How the caller uses the calls: the bucket index is inside the directory and the page is a new one. -/
def DirOp.Ok (d : Dir) : DirOp → Prop
  | .update b p => b < 2 ^ d.gd ∧ ∀ i, i < 2 ^ d.gd → d.pid i ≠ some p
  | .split b p => b < 2 ^ d.gd ∧ ∀ i, i < 2 ^ d.gd → d.pid i ≠ some p
  | .incrGlobal => True

/-- A sequence of calls, each used as described. -/
inductive DirRuns : Dir → List DirOp → Dir → Prop where
  | nil (d) : DirRuns d [] d
  | cons {d d' d'' o os} : o.Ok d → d.step o = some d' → DirRuns d' os d'' → DirRuns d (o :: os) d''

/-! ## Lemmas -/

theorem and_mask (i l : Nat) : i &&& (2 ^ l - 1) = i % 2 ^ l := Nat.and_two_pow_sub_one_eq_mod i l

theorem mod_succ (i l : Nat) : i % 2 ^ (l + 1) = i % 2 ^ l + 2 ^ l * (i.testBit l).toNat := by
  rw [Nat.mod_pow_succ, Nat.testBit_eq_decide_div_mod_eq]
  have : i / 2 ^ l % 2 = 0 ∨ i / 2 ^ l % 2 = 1 := by omega
  rcases this with h | h <;> simp [h]

theorem and_bit (i l : Nat) : i &&& 2 ^ l ≠ 0 ↔ i.testBit l = true := by
  have e : i &&& 2 ^ l = if i.testBit l then 2 ^ l else 0 := by
    apply Nat.eq_of_testBit_eq
    intro j
    rw [Nat.testBit_and, Nat.testBit_two_pow]
    by_cases h : l = j
    · subst h; cases h2 : i.testBit l <;> simp
    · cases h2 : i.testBit l <;> simp [h]
  rw [e]
  have : 0 < 2 ^ l := Nat.two_pow_pos l
  cases i.testBit l <;> simp

theorem mod_mod_pow (i : Nat) {l g : Nat} (h : l ≤ g) : i % 2 ^ g % 2 ^ l = i % 2 ^ l :=
  Nat.mod_mod_of_dvd i (Nat.pow_dvd_pow 2 h)

theorem mod_eq_mono {i j l g : Nat} (h : l ≤ g) (e : i % 2 ^ g = j % 2 ^ g) : i % 2 ^ l = j % 2 ^ l := by
  rw [← mod_mod_pow i h, e, mod_mod_pow j h]

/-- Two numbers that agree on `l` bits agree on `l + 1` exactly if bit `l` is the same. -/
theorem mod_succ_eq {i j l : Nat} (h : i % 2 ^ l = j % 2 ^ l) :
    i % 2 ^ (l + 1) = j % 2 ^ (l + 1) ↔ i.testBit l = j.testBit l := by
  rw [mod_succ, mod_succ, h]
  have : 0 < 2 ^ l := Nat.two_pow_pos l
  cases i.testBit l <;> cases j.testBit l <;> simp <;> omega

theorem grow_get {d d' : Dir} (h : d.grow = some (d', true)) :
    d'.gd = d.gd + 1 ∧ d'.maxDepth = d.maxDepth ∧
    ∀ i, i < 2 ^ (d.gd + 1) → d'.ld i = d.ld (i % 2 ^ d.gd) ∧ d'.pid i = d.pid (i % 2 ^ d.gd) := by
  unfold Dir.grow at h
  split at h
  · simp at h
  · split at h
    · simp at h
    · simp only [Option.some.injEq, Prod.mk.injEq, and_true] at h
      subst h
      refine ⟨rfl, rfl, fun i hi => ?_⟩
      have hp : 0 < 2 ^ d.gd := Nat.two_pow_pos _
      by_cases hge : 2 ^ d.gd ≤ i
      · have e : i % 2 ^ d.gd = i - 2 ^ d.gd := by
          rw [Nat.mod_eq_sub_mod hge, Nat.mod_eq_of_lt]
          rw [Nat.pow_succ] at hi; omega
        simp [hge, hi, e]
      · have e : i % 2 ^ d.gd = i := Nat.mod_eq_of_lt (by omega)
        simp [hge, e]

theorem grow_false {d d' : Dir} (h : d.grow = some (d', false)) : d' = d := by
  unfold Dir.grow at h
  split at h
  · simp only [Option.some.injEq, Prod.mk.injEq, and_true] at h; exact h.symm
  · split at h <;> simp at h

theorem wf_grow {d d' : Dir} (w : WF d) (h : d.grow = some (d', true)) : WF d' := by
  obtain ⟨h1, _, h2⟩ := grow_get h
  have hp : 0 < 2 ^ d.gd := Nat.two_pow_pos _
  have hlt : ∀ i : Nat, i % 2 ^ d.gd < 2 ^ d.gd := fun i => Nat.mod_lt _ hp
  constructor
  · intro i hi
    rw [h1] at hi ⊢
    rw [(h2 i hi).1]
    have := w.depth _ (hlt i); omega
  · intro i j hi hj he
    rw [h1] at hi hj
    rw [(h2 i hi).1, (h2 i hi).2, (h2 j hj).1, (h2 j hj).2] at *
    refine w.same _ _ (hlt i) (hlt j) ?_
    rw [mod_mod_pow _ (w.depth _ (hlt i)), mod_mod_pow _ (w.depth _ (hlt i))]
    exact he
  · intro i j hi hj he
    rw [h1] at hi hj
    rw [(h2 i hi).2, (h2 j hj).2] at he
    rw [(h2 i hi).1]
    have := w.only _ _ (hlt i) (hlt j) he
    rwa [mod_mod_pow _ (w.depth _ (hlt i)), mod_mod_pow _ (w.depth _ (hlt i))] at this

theorem wf_redirect {d : Dir} (w : WF d) {b newPid : Nat} (hb : b < 2 ^ d.gd) (hl : d.ld b < d.gd)
    (hf : ∀ i, i < 2 ^ d.gd → d.pid i ≠ some newPid) : WF (d.redirect b newPid (d.ld b)) := by
  have hld : ∀ i, i < 2 ^ d.gd → (d.redirect b newPid (d.ld b)).ld i =
      if i % 2 ^ d.ld b = b % 2 ^ d.ld b then d.ld b + 1 else d.ld i := by
    intro i hi; simp only [Dir.redirect, and_mask, hi, true_and]
  have hpid : ∀ i, i < 2 ^ d.gd → (d.redirect b newPid (d.ld b)).pid i =
      if i % 2 ^ d.ld b = b % 2 ^ d.ld b then (if i.testBit (d.ld b) = true then some newPid else d.pid b) else d.pid i := by
    intro i hi; simp only [Dir.redirect, and_mask, and_bit, hi, true_and]
  have hgd : (d.redirect b newPid (d.ld b)).gd = d.gd := rfl
  generalize hd' : d.redirect b newPid (d.ld b) = d' at *
  -- slots of the class of `b`
  have cls : ∀ i, i < 2 ^ d.gd → (i % 2 ^ d.ld b = b % 2 ^ d.ld b ↔ d.pid i = d.pid b) := by
    intro i hi
    constructor
    · intro e; exact (w.same b i hb hi e.symm).1.symm
    · intro e; exact (w.only b i hb hi e.symm).symm
  constructor
  · intro i hi
    rw [hgd] at hi ⊢
    rw [hld i hi]
    split
    · omega
    · exact w.depth i hi
  · intro i j hi hj he
    rw [hgd] at hi hj
    rw [hld i hi] at he ⊢
    rw [hld j hj, hpid i hi, hpid j hj]
    by_cases ci : i % 2 ^ d.ld b = b % 2 ^ d.ld b
    · simp only [ci, if_true] at he ⊢
      have cj : j % 2 ^ d.ld b = b % 2 ^ d.ld b := by
        rw [← ci]; exact (mod_eq_mono (Nat.le_succ _) he).symm
      have hbit := (mod_succ_eq (ci.trans cj.symm)).1 he
      simp only [cj, if_true, hbit, and_self]
    · simp only [ci, if_false] at he ⊢
      have hs := w.same i j hi hj he
      have cj : ¬ j % 2 ^ d.ld b = b % 2 ^ d.ld b := by
        rw [cls j hj]; rw [cls i hi] at ci; rw [← hs.1]; exact ci
      simp only [cj, if_false]
      exact hs
  · intro i j hi hj he
    rw [hgd] at hi hj
    rw [hpid i hi, hpid j hj] at he
    rw [hld i hi]
    by_cases ci : i % 2 ^ d.ld b = b % 2 ^ d.ld b
    · by_cases cj : j % 2 ^ d.ld b = b % 2 ^ d.ld b
      · simp only [ci, cj, if_true] at he ⊢
        rw [mod_succ_eq (ci.trans cj.symm)]
        have hn := hf b hb
        cases hbi : i.testBit (d.ld b) <;> cases hbj : j.testBit (d.ld b) <;> simp [hbi, hbj] at he ⊢
        · exact hn he
        · exact hn he.symm
      · simp only [ci, cj, if_true, if_false] at he
        exfalso
        split at he
        · exact hf j hj he.symm
        · exact cj ((cls j hj).2 he.symm)
    · by_cases cj : j % 2 ^ d.ld b = b % 2 ^ d.ld b
      · simp only [ci, cj, if_true, if_false] at he
        exfalso
        split at he
        · exact hf i hi he
        · exact ci ((cls i hi).2 he)
      · simp only [ci, cj, if_false] at he ⊢
        exact w.only i j hi hj he

theorem growLoop_eq {d : Dir} (w : WF d) {b : Nat} (hb : b < 2 ^ d.gd) :
    d.growLoop (d.ld b + 1) (d.ld b + 1) = if d.ld b ≥ d.gd then d.grow else some (d, true) := by
  have hle := w.depth b hb
  unfold Dir.growLoop
  by_cases h : d.ld b ≥ d.gd
  · rw [if_pos (by omega), if_pos h]
    cases hg : d.grow with
    | none => rfl
    | some r =>
      obtain ⟨d', f⟩ := r
      cases f with
      | false => rfl
      | true =>
        simp only
        have := (grow_get hg).1
        cases hn : d.ld b with
        | zero => rfl
        | succ n => simp only [Dir.growLoop]; rw [if_neg (by omega)]
  · rw [if_neg (by omega), if_neg h]

/-- Effect of a split on a well-formed directory: `split_bucket` and `update_directory_for_split` agree. -/
theorem updateForSplit_eq {d : Dir} (w : WF d) {b p : Nat} (hb : b < 2 ^ d.gd) :
    (d.updateForSplit b p).map (·.1) = d.splitBucket b p := by
  unfold Dir.updateForSplit Dir.splitBucket
  split
  · rfl
  · rw [growLoop_eq w hb]
    by_cases h : d.ld b ≥ d.gd
    · simp only [h, if_true]
      cases d.grow with
      | none => rfl
      | some r => obtain ⟨d', f⟩ := r; cases f <;> rfl
    · simp only [h, if_false]; rfl

/-- Growing leaves the low slots alone. -/
theorem grow_low {d d' : Dir} (h : d.grow = some (d', true)) {b : Nat} (hb : b < 2 ^ d.gd) :
    d'.ld b = d.ld b ∧ d'.pid b = d.pid b := by
  have hlt : b < 2 ^ (d.gd + 1) := by rw [Nat.pow_succ]; omega
  have h2 := (grow_get h).2.2 b hlt
  rwa [Nat.mod_eq_of_lt hb] at h2

theorem grow_fresh {d d' : Dir} (h : d.grow = some (d', true)) {p : Nat} (hf : ∀ i, i < 2 ^ d.gd → d.pid i ≠ some p) :
    ∀ i, i < 2 ^ d'.gd → d'.pid i ≠ some p := by
  obtain ⟨h1, _, h2⟩ := grow_get h
  intro i hi
  rw [h1] at hi
  rw [(h2 i hi).2]
  exact hf _ (Nat.mod_lt _ (Nat.two_pow_pos _))

theorem wf_split {d d' : Dir} (w : WF d) {b p : Nat} (hb : b < 2 ^ d.gd) (hf : ∀ i, i < 2 ^ d.gd → d.pid i ≠ some p)
    (h : d.splitBucket b p = some d') : WF d' := by
  unfold Dir.splitBucket at h
  split at h
  · cases h
  · split at h
    · next hge =>
      split at h
      · cases h
      · next d1 hg => cases h; rw [grow_false hg]; exact w
      · next d1 hg =>
        cases h
        have hl := grow_low hg hb
        have h1 := (grow_get hg).1
        have hb1 : b < 2 ^ d1.gd := by rw [h1, Nat.pow_succ]; omega
        have := wf_redirect (wf_grow w hg) hb1 (by rw [hl.1, h1]; have := w.depth b hb; omega) (grow_fresh hg hf)
        rwa [hl.1] at this
    · next hlt => cases h; exact wf_redirect w hb (by omega) hf

theorem wf_step {d d' : Dir} (w : WF d) {o : DirOp} (ho : o.Ok d) (h : d.step o = some d') : WF d' := by
  cases o with
  | update b p => simp only [Dir.step] at h; rw [updateForSplit_eq w ho.1] at h; exact wf_split w ho.1 ho.2 h
  | split b p => exact wf_split w ho.1 ho.2 h
  | incrGlobal =>
    simp only [Dir.step] at h
    cases hg : d.grow with
    | none => rw [hg] at h; cases h
    | some r =>
      rw [hg] at h; obtain ⟨d1, f⟩ := r; cases h
      cases f with
      | false => rw [grow_false hg]; exact w
      | true => exact wf_grow w hg

theorem wf_init (maxDepth p : Nat) : WF ((Dir.init maxDepth).setPid 0 (some p)) := by
  constructor
  · intro i _; exact Nat.zero_le _
  · intro i j hi hj _
    simp only [Dir.init, Dir.setPid, Nat.pow_zero] at hi hj ⊢
    have : i = 0 := by omega
    have : j = 0 := by omega
    subst i j; simp
  · intro i j hi hj _
    simp only [Dir.init, Dir.setPid, Nat.pow_zero, Nat.mod_one]

/-! ## Property -/

/-- C19. After any sequence of splits and doublings from a directory with one bucket, each giving the new bucket a page not
yet in the directory, the directory is well formed. -/
theorem C19_directory_well_formed (maxDepth p : Nat) (os : List DirOp) (d : Dir)
    (h : DirRuns ((Dir.init maxDepth).setPid 0 (some p)) os d) : WF d := by
  have gen : ∀ {d0 os d}, DirRuns d0 os d → WF d0 → WF d := by
    intro d0 os d h
    induction h with
    | nil => exact id
    | cons ho hs _ ih => intro w; exact ih (wf_step w ho hs)
  exact gen h (wf_init maxDepth p)

theorem countP_congr_range {n : Nat} {f g : Nat → Bool} (h : ∀ i, i < n → f i = g i) :
    (List.range n).countP f = (List.range n).countP g := by
  apply List.countP_congr
  intro i hi
  rw [h i (List.mem_range.1 hi)]

/-- Out of `2 ^ (l + m)` consecutive numbers, `2 ^ m` have a given remainder modulo `2 ^ l`. -/
theorem count_mod (l m r : Nat) (hr : r < 2 ^ l) :
    (List.range (2 ^ (l + m))).countP (fun j => decide (j % 2 ^ l = r)) = 2 ^ m := by
  induction m with
  | zero =>
    rw [Nat.add_zero, Nat.pow_zero]
    rw [countP_congr_range (g := fun j => decide (j = r)) (fun i hi => by rw [Nat.mod_eq_of_lt hi])]
    have : (List.range (2 ^ l)).countP (fun j => decide (j = r)) = (List.range (2 ^ l)).count r := by
      rw [List.count_eq_countP]; apply List.countP_congr; intro x _; simp
    rw [this, List.count_range]; simp [hr]
  | succ m ih =>
    have e : 2 ^ (l + (m + 1)) = 2 ^ (l + m) + 2 ^ (l + m) := by rw [← Nat.add_assoc, Nat.pow_succ]; omega
    rw [e, List.range_add, List.countP_append, List.countP_map, ih]
    have : ((fun j => decide (j % 2 ^ l = r)) ∘ fun x => 2 ^ (l + m) + x) = fun j => decide (j % 2 ^ l = r) := by
      funext x
      simp only [Function.comp]
      rw [Nat.pow_add, Nat.mul_add_mod]
    rw [this, ih, Nat.pow_succ]; omega

/-- C19. The code's own check of a directory never fails after such a sequence: in particular each bucket is pointed to by
`2 ^ (global depth - local depth)` slots. -/
theorem C19_verify_integrity_passes (maxDepth p : Nat) (os : List DirOp) (d : Dir)
    (h : DirRuns ((Dir.init maxDepth).setPid 0 (some p)) os d) : d.verifyIntegrity = true := by
  have w := C19_directory_well_formed maxDepth p os d h
  simp only [Dir.verifyIntegrity, Bool.and_eq_true, List.all_eq_true, List.mem_range, decide_eq_true_eq,
    Bool.or_eq_true, beq_iff_eq]
  refine ⟨⟨w.depth, ?_⟩, ?_⟩
  · intro i hi
    cases hf : d.findIndex (d.pid i) with
    | none =>
      simp only [Dir.findIndex, List.find?_eq_none, List.mem_range, decide_eq_true_eq] at hf
      exact absurd rfl (hf i hi)
    | some j =>
      simp only [Dir.findIndex] at hf
      have hj := List.find?_some hf
      have hjm := List.mem_range.1 (List.mem_of_find?_eq_some hf)
      simp only [decide_eq_true_eq] at hj
      simp only [beq_iff_eq]
      have hd := w.depth j hjm
      have hr : j % 2 ^ d.ld j < 2 ^ d.ld j := Nat.mod_lt _ (Nat.two_pow_pos _)
      have hc := count_mod (d.ld j) (d.gd - d.ld j) (j % 2 ^ d.ld j) hr
      rw [Nat.add_sub_cancel' hd] at hc
      rw [← hc]
      apply countP_congr_range
      intro k hk
      rw [decide_eq_decide, ← hj]
      constructor
      · intro e; exact (w.only j k hjm hk e.symm).symm
      · intro e; exact (w.same j k hjm hk e.symm).1.symm
  · intro i hi j hj
    by_cases e : d.pid j = d.pid i
    · right
      exact (w.same i j hi hj (w.only i j hi hj e.symm)).2
    · left; exact e

/-- The hypotheses are met: three splits, the last one of a bucket that two slots share. -/
example : ∃ d, DirRuns ((Dir.init 9).setPid 0 (some 10)) [.update 0 11, .split 1 12, .update 2 13] d ∧ d.gd = 2 ∧
    (List.range 4).map d.pid = [some 10, some 11, some 13, some 12] := by
  refine ⟨_, .cons ⟨by decide, by decide⟩ rfl (.cons ⟨by decide, by decide⟩ rfl
    (.cons ⟨by decide, by decide⟩ rfl (.nil _))), by decide, by decide⟩

end Verif.Hash
