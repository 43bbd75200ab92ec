import Verif.TablePage.Spec

namespace Verif.TablePage

open Verif.Bytes Verif.Wire
open Verif.Wal (Rid)

/-! ### Bytes -/

theorem length_splice {d : List Byte} {off : Nat} {bs : List Byte} (h : off + bs.length ≤ d.length) :
    (splice d off bs).length = d.length := by
  simp only [splice, List.length_append, List.length_take, List.length_drop]; omega

theorem splice_get {d : List Byte} {off : Nat} {bs : List Byte} (h : off + bs.length ≤ d.length) (x : Nat) :
    (splice d off bs)[x]? = if x < off then d[x]? else if x < off + bs.length then bs[x - off]? else d[x]? := by
  simp only [splice, List.getElem?_append, List.length_take, List.getElem?_take, List.getElem?_drop]
  have hm : min off d.length = off := by omega
  rw [hm]
  by_cases h1 : x < off
  · simp [h1]
  · simp only [h1, if_false]
    by_cases h2 : x < off + bs.length
    · rw [if_pos (by omega), if_pos h2]
    · rw [if_neg (by omega), if_neg h2]
      congr 1; omega

theorem slice_get {d : List Byte} {off n : Nat} (x : Nat) : (slice d off n)[x]? = if x < n then d[off + x]? else none := by
  simp only [slice, List.getElem?_take, List.getElem?_drop]

theorem length_slice {d : List Byte} {off n : Nat} (h : off + n ≤ d.length) : (slice d off n).length = n := by
  simp only [slice, List.length_take, List.length_drop]; omega

theorem slice_congr {d e : List Byte} {off n : Nat} (h : ∀ x, off ≤ x → x < off + n → d[x]? = e[x]?) :
    slice d off n = slice e off n := by
  apply List.ext_getElem?
  intro x
  rw [slice_get, slice_get]
  split
  · exact h _ (by omega) (by omega)
  · rfl

/-- A slice of the bytes just written. -/
theorem slice_splice_self {d : List Byte} {off : Nat} {bs : List Byte} (h : off + bs.length ≤ d.length) :
    slice (splice d off bs) off bs.length = bs := by
  apply List.ext_getElem?
  intro x
  rw [slice_get]
  split
  · rw [splice_get h, if_neg (by omega), if_pos (by omega)]
    congr 1; omega
  · rw [List.getElem?_eq_none (by omega)]

/-- A slice apart from the bytes just written. -/
theorem slice_splice_apart {d : List Byte} {off : Nat} {bs : List Byte} {o n : Nat} (h : off + bs.length ≤ d.length)
    (ha : o + n ≤ off ∨ off + bs.length ≤ o) : slice (splice d off bs) o n = slice d o n := by
  apply slice_congr
  intro x h1 h2
  rw [splice_get h]
  by_cases hx : x < off
  · simp [hx]
  · rw [if_neg hx, if_neg (by omega)]

@[simp] theorem length_zeros (n : Nat) : (zeros n).length = n := by simp [zeros]

/-! ### Serializing -/

theorem copyRows_total (d : List Byte) : ∀ (is : List Info) (b : List Byte), (∀ e ∈ is, e.off + e.size ≤ PS) →
    ∃ b', copyRows d is b = some b'
  | [], b, _ => ⟨b, rfl⟩
  | i :: is, b, h => by
    rw [copyRows, if_pos (h i (by simp))]
    exact copyRows_total d is _ (fun e he => h e (by simp [he]))

theorem copyRows_spec {d : List Byte} (hd : d.length = PS) : ∀ (is : List Info) (b b' : List Byte), b.length = PS →
    (∀ e ∈ is, e.off + e.size ≤ PS) → copyRows d is b = some b' →
    b'.length = PS ∧ ∀ x, ((∃ e ∈ is, e.off ≤ x ∧ x < e.off + e.size) → b'[x]? = d[x]?)
      ∧ ((∀ e ∈ is, x < e.off) → b'[x]? = b[x]?) ∧ (b[x]? = d[x]? → b'[x]? = d[x]?)
  | [], b, b', hb, _, h => by
    simp only [copyRows, Option.some.injEq] at h
    subst h
    refine ⟨hb, fun x => ⟨?_, fun _ => rfl, fun h => h⟩⟩
    rintro ⟨e, he, _⟩
    simp at he
  | i :: is, b, b', hb, hin, h => by
    have hi := hin i (by simp)
    rw [copyRows, if_pos hi] at h
    have hl : (slice d i.off i.size).length = i.size := length_slice (by omega)
    have hs : i.off + (slice d i.off i.size).length ≤ b.length := by omega
    obtain ⟨h1, h2⟩ := copyRows_spec hd is _ b' (by rw [length_splice hs, hb]) (fun e he => hin e (by simp [he])) h
    refine ⟨h1, fun x => ⟨?_, ?_, ?_⟩⟩
    · rintro ⟨e, he, hx⟩
      rcases List.mem_cons.1 he with rfl | he
      · refine (h2 x).2.2 ?_
        rw [splice_get hs, if_neg (by omega), if_pos (by omega), slice_get, if_pos (by omega)]
        congr 1; omega
      · exact (h2 x).1 ⟨e, he, hx⟩
    · intro hx
      rw [(h2 x).2.1 (fun e he => hx e (by simp [he])), splice_get hs, if_pos (hx i (by simp))]
    · intro hx
      refine (h2 x).2.2 ?_
      rw [splice_get hs]
      split
      · exact hx
      · split
        · rw [slice_get, if_pos (by omega)]
          congr 1; omega
        · exact hx

theorem length_writeInfos : ∀ (is : List Info) (o : Nat) (b : List Byte), b.length = PS → (writeInfos is o b).2.length = PS
  | [], o, b, h => h
  | i :: is, o, b, h => by
    rw [writeInfos]
    split
    · exact h
    · rename_i h1
      have h2 : o + (toLE 2 i.off ++ toLE 2 i.size).length ≤ b.length := by simp; omega
      split
      · rw [length_splice h2]; exact h
      · rename_i h3
        refine length_writeInfos is _ _ ?_
        rw [length_splice, length_splice h2, h]
        rw [length_splice h2]; omega

theorem length_serHead (p : Page) : (serHead p).length = PS := by
  simp only [serHead]
  have h0 : (splice (zeros PS) 0 [2]).length = PS := by
    rw [length_splice (by simp [PS])]; simp
  have h1 : (splice (splice (zeros PS) 0 [2]) 1 (encHeader p)).length = PS := by
    rw [length_splice, h0]; rw [h0]; simp [encHeader, PS]
  rw [length_splice, h1]; rw [h1]; decide

theorem length_writeEnd {o : Nat} {b : List Byte} (h : b.length = PS) : (writeEnd o b).length = PS := by
  rw [writeEnd]
  split
  · rw [length_splice, h]; simp [endMagic]; omega
  · rw [length_splice, h]; rw [h]; decide

/-- What `serialize` keeps: the bytes under every slot. -/
theorem serialize_spec {p : Page} (hd : p.data.length = PS) (hin : ∀ e ∈ p.info, e.off + e.size ≤ PS) :
    ∃ b, serialize p = some b ∧ b.length = PS ∧ ∀ e ∈ p.info, slice b e.off e.size = slice p.data e.off e.size := by
  obtain ⟨b, hb⟩ := copyRows_total p.data p.info
    (writeEnd (writeInfos p.info 33 (serHead p)).1 (writeInfos p.info 33 (serHead p)).2) hin
  obtain ⟨h1, h2⟩ := copyRows_spec hd _ _ _ (length_writeEnd (length_writeInfos _ _ _ (length_serHead p))) hin hb
  exact ⟨b, hb, h1, fun e he => slice_congr fun x hx hx' => (h2 x).1 ⟨e, he, hx, hx'⟩⟩

/-! ### The other rows' lowest offset -/

theorem foldl_min_le (is : List Info) (a : Nat) : is.foldl (fun a x => min a x.off) a ≤ a
    ∧ ∀ e ∈ is, is.foldl (fun a x => min a x.off) a ≤ e.off := by
  induction is generalizing a with
  | nil => simp
  | cons i is ih =>
    obtain ⟨h1, h2⟩ := ih (min a i.off)
    simp only [List.foldl_cons]
    refine ⟨by omega, ?_⟩
    intro e he
    rcases List.mem_cons.1 he with rfl | he
    · omega
    · exact h2 e he

theorem minOther_le (is : List Info) (i : Nat) : minOther is i ≤ PS := (foldl_min_le _ _).1

theorem minOther_le_other {is : List Info} {i j : Nat} {e : Info} (hij : j ≠ i) (he : is[j]? = some e) : minOther is i ≤ e.off := by
  refine (foldl_min_le _ _).2 e ?_
  rw [List.mem_eraseIdx_iff_getElem?]
  exact ⟨j, hij, he⟩

/-! ### What every page keeps -/

theorem encVar_le : ∀ k x, (encVar k x).length ≤ k := by
  intro k
  induction k with
  | zero => intro x; simp [encVar]
  | succ k ih => intro x; rw [encVar]; split <;> simp; exact ih _

theorem encMeta_le (m : Meta) : (encMeta m).length ≤ 33 := by
  have h64 : ∀ x, (encU64 x).length ≤ 10 := fun x => encVar_le 10 x
  have hopt : ∀ t : Option Nat, (encOpt encU64 t).length ≤ 11 := by
    intro t
    cases t with
    | none => simp [encOpt]
    | some t => simp only [encOpt, List.length_cons]; have := h64 t; omega
  have hb : (encBool m.deleted).length ≤ 1 := by cases m.deleted <;> decide
  simp only [encMeta, List.length_append]
  have := h64 m.creator; have := hopt m.commit; have := hopt m.undo
  omega

theorem encMeta_ge (m : Meta) : 4 ≤ (encMeta m).length := by
  have h64 : ∀ x, 0 < (encU64 x).length := fun x => encVar_pos (by decide)
  have hopt : ∀ t : Option Nat, 1 ≤ (encOpt encU64 t).length := by
    intro t
    cases t <;> simp [encOpt]
  have hb : 1 ≤ (encBool m.deleted).length := by cases m.deleted <;> decide
  simp only [encMeta, List.length_append]
  have := h64 m.creator; have := hopt m.commit; have := hopt m.undo
  omega

theorem infoBytes_bounds (is : List Info) : 8 * is.length ≤ infoBytes is ∧ infoBytes is ≤ 37 * is.length := by
  induction is with
  | nil => simp [infoBytes]
  | cons i is ih =>
    have := encMeta_le i.md; have := encMeta_ge i.md
    simp only [infoBytes, List.length_cons]
    omega

/-- The slots lie in the page. -/
structure WF (p : Page) : Prop where
  num : p.num = p.info.length
  len : p.data.length = PS
  inPage : ∀ e ∈ p.info, e.off + e.size ≤ PS
  few : p.info.length ≤ 512

theorem new_wf (id : Nat) : WF (new id) := by
  refine ⟨rfl, ?_, by simp [new], by simp [new]⟩
  have h0 : (splice (zeros PS) 0 [2]).length = PS := by
    rw [length_splice (by simp [PS])]; simp
  simp only [new]
  rw [length_splice, h0]; rw [h0]; simp [PS]

theorem nextOffset_total {p : Page} (h : WF p) (m : Meta) (bs : List Byte) : ∃ r, nextOffset p m bs = some r := by
  simp only [nextOffset]
  split
  · exact ⟨_, rfl⟩
  · split
    · exact ⟨_, rfl⟩
    · have : ∃ e, slotEnd p = some e := by
        rw [slotEnd]
        split
        · rename_i hn
          rw [List.getElem?_eq_getElem (by rw [← h.num]; omega)]
          exact ⟨_, rfl⟩
        · exact ⟨_, rfl⟩
      obtain ⟨e, he⟩ := this
      rw [he]
      exact ⟨_, rfl⟩

/-- What an accepted placement satisfies. -/
theorem nextOffset_spec {p : Page} {m : Meta} {bs : List Byte} {o : Nat} (h : nextOffset p m bs = some (some o)) :
    bs.length ≤ maxRow ∧ slotEnd p = some (o + bs.length) ∧ footprintNew p m ≤ o ∧ p.info.length < 512 := by
  simp only [nextOffset] at h
  split at h
  · simp at h
  · rename_i h1
    have hl : bs.length ≤ maxRow := by
      simp only [tooLarge, Bool.or_eq_true, decide_eq_true_eq, not_or] at h1
      omega
    have hm : bs.length % 65536 = bs.length := Nat.mod_eq_of_lt (by simp only [maxRow] at hl; omega)
    have hpos : tooLarge p bs = false := by simpa using h1
    have hfoot : 0 < footprintNew p ⟨0, none, false, none⟩ ∧ footprintNew p ⟨0, none, false, none⟩ ≤ PS := by
      simp only [tooLarge, Bool.or_eq_true, decide_eq_true_eq, not_or] at h1
      refine ⟨by simp only [footprintNew]; omega, by omega⟩
    rw [hm] at h
    split at h
    · simp at h
    · cases he : slotEnd p with
      | none => rw [he] at h; simp at h
      | some e =>
        rw [he] at h
        simp only [Option.map_some, Option.some.injEq] at h
        split at h
        · simp at h
        · rename_i h3
          simp only [Option.some.injEq] at h
          have hmeta := encMeta_le m
          have h0 := hfoot.2
          have hlt : footprintNew p m < 65536 := by
            simp only [footprintNew, PS] at h0 ⊢
            omega
          rw [Nat.mod_eq_of_lt hlt] at h3
          have hpos2 : 0 < footprintNew p m := by simp only [footprintNew]; omega
          refine ⟨hl, ?_, by omega, ?_⟩
          · congr 1; omega
          · have := (infoBytes_bounds p.info).1
            simp only [footprintNew, PS] at h0
            omega

theorem slotEnd_le {p : Page} (h : WF p) {e : Nat} (he : slotEnd p = some e) : e ≤ PS := by
  rw [slotEnd] at he
  split at he
  · cases hg : p.info[p.num - 1]? with
    | none => rw [hg] at he; simp at he
    | some i =>
      rw [hg] at he
      simp only [Option.map_some, Option.some.injEq] at he
      have := h.inPage i (List.mem_of_getElem? hg)
      omega
  · simp only [Option.some.injEq] at he; omega

theorem placed_wf {p : Page} (h : WF p) {o : Nat} {m : Meta} {bs : List Byte} (hb : bs.length ≤ maxRow) (ho : o + bs.length ≤ PS)
    (hf : p.info.length < 512) : WF (placed p o m bs) := by
  refine ⟨by simp [placed, h.num], ?_, ?_, by simp [placed]; omega⟩
  · simp only [placed]
    rw [length_splice (by rw [h.len]; exact ho), h.len]
  · intro e he
    simp only [placed, List.mem_append, List.mem_singleton] at he
    rcases he with he | rfl
    · exact h.inPage e he
    · have : bs.length % 65536 = bs.length := Nat.mod_eq_of_lt (by simp only [maxRow] at hb; omega)
      simp only [this]; exact ho

/-- The end of an insert, on a well-formed page. -/
theorem finishInsert_spec {p : Page} (h : WF p) {o : Nat} {m : Meta} {bs : List Byte} {r : Rid} (hb : bs.length ≤ maxRow)
    (ho : o + bs.length ≤ PS) (hf : p.info.length < 512) : ∃ d, serialize (placed p o m bs) = some d
      ∧ finishInsert p o m bs r = some ({ placed p o m bs with data := d }, some r) ∧ d.length = PS
      ∧ ∀ e ∈ (placed p o m bs).info, slice d e.off e.size = slice (placed p o m bs).data e.off e.size := by
  have hw := placed_wf (m := m) h hb ho hf
  obtain ⟨d, h1, h2, h3⟩ := serialize_spec hw.len hw.inPage
  refine ⟨d, h1, ?_, h2, h3⟩
  rw [finishInsert, if_pos ho, h1]
  rfl

/-- An accepted insert in normal form. -/
structure Inserted (p : Page) (m : Meta) (row : List Value) (q : Page) : Prop where
  place : ∃ o d, nextOffset p m (encTuple row) = some (some o) ∧ serialize (placed p o m (encTuple row)) = some d
    ∧ q = { placed p o m (encTuple row) with data := d }

theorem insert_cases {p : Page} (h : WF p) (m : Meta) (row : List Value) (rid : Rid) :
    insert p m row rid = some (p, none) ∨ ∃ q, insert p m row rid = some (q, some ⟨p.id, p.num⟩) ∧ rid = ⟨p.id, p.num⟩ ∧ Inserted p m row q := by
  obtain ⟨r, hr⟩ := nextOffset_total h m (encTuple row)
  rw [insert, hr]
  cases r with
  | none => exact Or.inl rfl
  | some o =>
    simp only [Option.bind_some]
    by_cases hrid : rid = ⟨p.id, p.num⟩
    · rw [if_pos hrid]
      obtain ⟨h1, h2, _, h3⟩ := nextOffset_spec hr
      obtain ⟨d, h4, h5, _⟩ := finishInsert_spec (r := ⟨p.id, p.num⟩) (m := m) h h1 (slotEnd_le h h2) h3
      exact Or.inr ⟨_, h5, hrid, ⟨o, d, hr, h4, rfl⟩⟩
    · rw [if_neg hrid]; exact Or.inl rfl

theorem insertWithRid_cases {p : Page} (h : WF p) (m : Meta) (row : List Value) (rid : Rid) :
    insertWithRid p m row rid = some (p, none) ∨ ∃ q, insertWithRid p m row rid = some (q, some rid) ∧ Inserted p m row q := by
  obtain ⟨r, hr⟩ := nextOffset_total h m (encTuple row)
  rw [insertWithRid, hr]
  cases r with
  | none => exact Or.inl rfl
  | some o =>
    simp only [Option.bind_some]
    obtain ⟨h1, h2, _, h3⟩ := nextOffset_spec hr
    obtain ⟨d, h4, h5, _⟩ := finishInsert_spec (r := rid) (m := m) h h1 (slotEnd_le h h2) h3
    exact Or.inr ⟨_, h5, ⟨o, d, hr, h4, rfl⟩⟩

theorem Inserted.wf {p : Page} (h : WF p) {m : Meta} {row : List Value} {q : Page} (hq : Inserted p m row q) : WF q := by
  obtain ⟨o, d, h1, h2, rfl⟩ := hq.place
  obtain ⟨h3, h4, _, hf⟩ := nextOffset_spec h1
  have hw := placed_wf (m := m) h h3 (slotEnd_le h h4) hf
  obtain ⟨d', h5, h6, _⟩ := serialize_spec hw.len hw.inPage
  rw [h2] at h5
  cases h5
  exact ⟨hw.num, h6, hw.inPage, hw.few⟩

theorem updateInPlace_wf {p : Page} (h : WF p) {i : Nat} {e : Info} {m : Meta} {bs : List Byte} (he : p.info[i]? = some e)
    (hs : bs.length ≤ e.size) : WF (updateInPlace p i e m bs) := by
  have hin := h.inPage e (List.mem_of_getElem? he)
  have hl : e.off + bs.length ≤ p.data.length := by rw [h.len]; omega
  refine ⟨by simp [updateInPlace, h.num], ?_, ?_, by simpa [updateInPlace] using h.few⟩
  · simp only [updateInPlace]
    rw [length_splice, length_splice hl, h.len]
    rw [length_splice hl, h.len, length_zeros]; omega
  · intro x hx
    simp only [updateInPlace] at hx
    rcases List.mem_or_eq_of_mem_set hx with hx | rfl
    · exact h.inPage x hx
    · dsimp only; omega

theorem updateMoved_wf {p : Page} (h : WF p) {i : Nat} {e : Info} {m : Meta} {bs : List Byte} (he : p.info[i]? = some e)
    (hs : bs.length ≤ minOther p.info i) : WF (updateMoved p i e m bs) := by
  have hin := h.inPage e (List.mem_of_getElem? he)
  have hm := minOther_le p.info i
  have hl : e.off + (zeros e.size).length ≤ p.data.length := by rw [h.len, length_zeros]; omega
  refine ⟨by simp [updateMoved, h.num], ?_, ?_, by simpa [updateMoved] using h.few⟩
  · simp only [updateMoved]
    rw [length_splice, length_splice hl, h.len]
    rw [length_splice hl, h.len]; omega
  · intro x hx
    simp only [updateMoved] at hx
    rcases List.mem_or_eq_of_mem_set hx with hx | rfl
    · exact h.inPage x hx
    · dsimp only; omega

theorem footprint_mod {p : Page} (h : WF p) : footprint p % 65536 = footprint p ∧ 0 < footprint p := by
  have := (infoBytes_bounds p.info).2
  have := h.few
  refine ⟨Nat.mod_eq_of_lt ?_, ?_⟩ <;> simp only [footprint] <;> omega

/-- Every way an update can go. -/
theorem update_cases {p : Page} (h : WF p) (m : Meta) (row : List Value) (i : Nat) :
    update p m row i = some (p, false)
    ∨ (65536 ≤ (encTuple row).length ∧ update p m row i = none)
    ∨ ∃ e, p.info[i]? = some e ∧ (encTuple row).length < 65536
      ∧ (((encTuple row).length ≤ e.size ∧ update p m row i = some (updateInPlace p i e m (encTuple row), true))
        ∨ (e.size < (encTuple row).length ∧ (encTuple row).length + footprint p ≤ minOther p.info i
          ∧ update p m row i = some (updateMoved p i e m (encTuple row), true))) := by
  rw [update]
  by_cases hn : p.num ≤ i
  · rw [if_pos hn]; exact Or.inl rfl
  · rw [if_neg hn]
    have hi : i < p.info.length := by rw [← h.num]; omega
    rw [List.getElem?_eq_getElem hi]
    generalize he : p.info[i] = e
    have he' : p.info[i]? = some e := by rw [List.getElem?_eq_getElem hi, he]
    have hin := h.inPage e (List.mem_of_getElem? he')
    have hm := minOther_le p.info i
    obtain ⟨hf1, hf2⟩ := footprint_mod h
    simp only [Option.bind_some, hf1]
    by_cases hl : (encTuple row).length < 65536
    · rw [Nat.mod_eq_of_lt hl]
      by_cases hs : (encTuple row).length ≤ e.size
      · rw [if_pos hs, if_pos ⟨hl, hin⟩]
        exact Or.inr (Or.inr ⟨e, rfl, hl, Or.inl ⟨hs, rfl⟩⟩)
      · rw [if_neg hs]
        by_cases hf : minOther p.info i - (encTuple row).length < footprint p
        · rw [if_pos hf]; exact Or.inl rfl
        · rw [if_neg hf, if_pos ⟨hl, hin, hm⟩]
          exact Or.inr (Or.inr ⟨e, rfl, hl, Or.inr ⟨by omega, by omega, rfl⟩⟩)
    · by_cases hs : (encTuple row).length % 65536 ≤ e.size
      · rw [if_pos hs, if_neg (by omega)]; exact Or.inr (Or.inl ⟨by omega, rfl⟩)
      · rw [if_neg hs]
        split
        · exact Or.inl rfl
        · rw [if_neg (by omega)]; exact Or.inr (Or.inl ⟨by omega, rfl⟩)

theorem updateMeta_cases {p : Page} (h : WF p) (m : Meta) (i : Nat) :
    updateMeta p m i = some (p, false)
    ∨ ∃ e, p.info[i]? = some e
      ∧ updateMeta p m i = some ({ p with info := p.info.set i { e with md := m }, ndel := newDeleted e.md m p.ndel }, true) := by
  rw [updateMeta]
  by_cases hn : p.num ≤ i
  · rw [if_pos hn]; exact Or.inl rfl
  · rw [if_neg hn]
    have hi : i < p.info.length := by rw [← h.num]; omega
    rw [List.getElem?_eq_getElem hi]
    exact Or.inr ⟨_, rfl, rfl⟩

theorem updateMeta_wf {p : Page} (h : WF p) {m : Meta} {i n : Nat} {e : Info} (he : p.info[i]? = some e) :
    WF { p with info := p.info.set i { e with md := m }, ndel := n } := by
  refine ⟨by simp [h.num], h.len, ?_, by simpa using h.few⟩
  intro x hx
  rcases List.mem_or_eq_of_mem_set hx with hx | rfl
  · exact h.inPage x hx
  · exact h.inPage e (List.mem_of_getElem? he)

theorem step_wf {p : Page} (h : WF p) {o : Op} {q : Page} {b : Bool} (hs : step p o = some (q, b)) : WF q := by
  cases o with
  | insert m row rid =>
    simp only [step] at hs
    rcases insert_cases h m row rid with h1 | ⟨x, h1, _, h2⟩
    · rw [h1] at hs; simp at hs; exact hs.1 ▸ h
    · rw [h1] at hs; simp at hs; exact hs.1 ▸ h2.wf h
  | insertWithRid m row rid =>
    simp only [step] at hs
    rcases insertWithRid_cases h m row rid with h1 | ⟨x, h1, h2⟩
    · rw [h1] at hs; simp at hs; exact hs.1 ▸ h
    · rw [h1] at hs; simp at hs; exact hs.1 ▸ h2.wf h
  | update m row i =>
    simp only [step] at hs
    rcases update_cases h m row i with h1 | ⟨_, h1⟩ | ⟨e, he, hl, ⟨h1, h2⟩ | ⟨h1, h2, h3⟩⟩
    · rw [h1] at hs; simp at hs; exact hs.1 ▸ h
    · rw [h1] at hs; simp at hs
    · rw [h2] at hs; simp at hs; exact hs.1 ▸ updateInPlace_wf h he h1
    · rw [h3] at hs; simp at hs; exact hs.1 ▸ updateMoved_wf h he (by omega)
  | updateMeta m i =>
    simp only [step] at hs
    rcases updateMeta_cases h m i with h1 | ⟨e, he, h1⟩
    · rw [h1] at hs; simp at hs; exact hs.1 ▸ h
    · rw [h1] at hs; simp at hs; exact hs.1 ▸ updateMeta_wf h he
  | setNext id => simp [step] at hs; obtain ⟨rfl, _⟩ := hs; exact ⟨h.num, h.len, h.inPage, h.few⟩
  | setPrev id => simp [step] at hs; obtain ⟨rfl, _⟩ := hs; exact ⟨h.num, h.len, h.inPage, h.few⟩

/-! ### The rows -/

open Spec

/-- The page holds exactly these rows, apart from each other; unless stretched, the newest row is the lowest. -/
structure Holds (p : Page) (rows : List Row) (s : Bool) : Prop where
  wf : WF p
  len : p.info.length = rows.length
  row : ∀ (i : Nat) (e : Info) (r : Row), p.info[i]? = some e → rows[i]? = some r → e.md = r.1 ∧ e.size = rowSize r.2 ∧ slice p.data e.off e.size = encTuple r.2
  apart : ∀ (i j : Nat) (e f : Info), i ≠ j → p.info[i]? = some e → p.info[j]? = some f → e.off + e.size ≤ f.off ∨ f.off + f.size ≤ e.off
  low : s = false → ∀ (i : Nat) (e l : Info), p.info[i]? = some e → p.info[p.info.length - 1]? = some l → l.off ≤ e.off

theorem new_holds (id : Nat) (s : Bool) : Holds (new id) [] s :=
  ⟨new_wf id, rfl, by simp [new], by simp [new], by simp [new]⟩

theorem inserted_holds {p : Page} {rows : List Row} (h : Holds p rows false) {m : Meta} {row : List Value} {q : Page}
    (hq : Inserted p m row q) : Holds q (rows ++ [(m, row)]) false := by
  have hwf := hq.wf h.wf
  obtain ⟨o, d, h1, h2, rfl⟩ := hq.place
  obtain ⟨hl, he, _, hf⟩ := nextOffset_spec h1
  have hPS := slotEnd_le h.wf he
  obtain ⟨d', h5, _, _, h6⟩ := finishInsert_spec (r := ⟨0, 0⟩) (m := m) h.wf hl hPS hf
  rw [h2] at h5
  cases h5
  have hmod : (encTuple row).length % 65536 = (encTuple row).length := Nat.mod_eq_of_lt (by simp only [maxRow] at hl; omega)
  have hnew : ∀ e ∈ p.info, o + (encTuple row).length ≤ e.off := by
    intro e hm
    obtain ⟨i, hi⟩ := List.mem_iff_getElem?.1 hm
    have hpos : 0 < p.info.length := List.length_pos_of_mem hm
    have hlt : p.info.length - 1 < p.info.length := by omega
    rw [slotEnd, if_pos (by rw [h.wf.num]; exact hpos), h.wf.num, List.getElem?_eq_getElem hlt] at he
    simp only [Option.map_some, Option.some.injEq] at he
    rw [← he]
    exact h.low rfl i e _ hi (List.getElem?_eq_getElem hlt)
  have hget : ∀ i e, (placed p o m (encTuple row)).info[i]? = some e →
      (p.info[i]? = some e ∧ i < p.info.length) ∨ (i = p.info.length ∧ e = ⟨o, (encTuple row).length, m⟩) := by
    intro i e hi
    simp only [placed, hmod] at hi
    rcases Nat.lt_trichotomy i p.info.length with hlt | rfl | hgt
    · rw [List.getElem?_append_left hlt] at hi; exact Or.inl ⟨hi, hlt⟩
    · simp at hi; exact Or.inr ⟨rfl, hi.symm⟩
    · rw [List.getElem?_eq_none (by simp; omega)] at hi; simp at hi
  have hsl : o + (encTuple row).length ≤ p.data.length := by rw [h.wf.len]; exact hPS
  refine ⟨hwf, by simp [placed, h.len], ?_, ?_, ?_⟩
  · intro i e r hi hr
    have hslice := h6 e (List.mem_of_getElem? hi)
    rcases hget i e hi with ⟨hi', hlt⟩ | ⟨rfl, rfl⟩
    · rw [List.getElem?_append_left (by rw [← h.len]; exact hlt)] at hr
      obtain ⟨a, b, c⟩ := h.row i e r hi' hr
      refine ⟨a, b, ?_⟩
      show slice d e.off e.size = _
      rw [hslice, ← c]
      exact slice_splice_apart hsl (Or.inr (hnew e (List.mem_of_getElem? hi')))
    · rw [h.len] at hr
      simp only [List.getElem?_concat_length, Option.some.injEq] at hr
      subst hr
      refine ⟨rfl, rfl, ?_⟩
      show slice d o (encTuple row).length = _
      rw [hslice]
      exact slice_splice_self hsl
  · intro i j e f hij hi hj
    rcases hget i e hi with ⟨hi', hlt⟩ | ⟨rfl, rfl⟩
    · rcases hget j f hj with ⟨hj', _⟩ | ⟨rfl, rfl⟩
      · exact h.apart i j e f hij hi' hj'
      · exact Or.inr (hnew e (List.mem_of_getElem? hi'))
    · rcases hget j f hj with ⟨hj', _⟩ | ⟨rfl, rfl⟩
      · exact Or.inl (hnew f (List.mem_of_getElem? hj'))
      · exact absurd rfl hij
  · intro _ i e l hi hlst
    have hlen : (placed p o m (encTuple row)).info.length - 1 = p.info.length := by simp [placed]
    have hlst : (placed p o m (encTuple row)).info[p.info.length]? = some l := by rw [← hlen]; exact hlst
    have hlo : l.off = o := by
      rcases hget _ l hlst with ⟨_, hlt⟩ | ⟨_, rfl⟩
      · omega
      · rfl
    rcases hget i e hi with ⟨hi', _⟩ | ⟨_, rfl⟩
    · have := hnew e (List.mem_of_getElem? hi'); omega
    · dsimp only; omega

theorem getElem?_set_cases {α : Type} {l : List α} {i j : Nat} {a x : α} (h : (l.set i a)[j]? = some x) :
    (j = i ∧ x = a ∧ i < l.length) ∨ (j ≠ i ∧ l[j]? = some x) := by
  rw [List.getElem?_set] at h
  by_cases hij : i = j
  · subst hij
    rw [if_pos rfl] at h
    split at h
    · simp only [Option.some.injEq] at h; exact Or.inl ⟨rfl, h.symm, by assumption⟩
    · simp at h
  · rw [if_neg hij] at h; exact Or.inr ⟨fun h => hij h.symm, h⟩

theorem updateInPlace_holds {p : Page} {rows : List Row} {s : Bool} (h : Holds p rows s) {m : Meta} {row : List Value} {i : Nat} {e : Info}
    (he : p.info[i]? = some e) (hs : (encTuple row).length ≤ e.size) :
    Holds (updateInPlace p i e m (encTuple row)) (rows.set i (m, row)) s := by
  have hin := h.wf.inPage e (List.mem_of_getElem? he)
  have hl : e.off + (encTuple row).length ≤ p.data.length := by rw [h.wf.len]; omega
  have hz : e.off + (encTuple row).length + (zeros (e.size - (encTuple row).length)).length
      ≤ (splice p.data e.off (encTuple row)).length := by rw [length_splice hl, length_zeros, h.wf.len]; omega
  have hz' : (zeros (e.size - (encTuple row).length)).length = e.size - (encTuple row).length := length_zeros _
  refine ⟨updateInPlace_wf h.wf he hs, by simp [updateInPlace, h.len], ?_, ?_, ?_⟩
  · intro j x r hj hr
    simp only [updateInPlace] at hj ⊢
    rcases getElem?_set_cases hj with ⟨rfl, rfl, _⟩ | ⟨hne, hj⟩
    · rcases getElem?_set_cases hr with ⟨_, rfl, _⟩ | ⟨hne, _⟩
      · refine ⟨rfl, rfl, ?_⟩
        dsimp only
        rw [slice_splice_apart hz (Or.inl (by omega)), slice_splice_self hl]
      · exact absurd rfl hne
    · rcases getElem?_set_cases hr with ⟨rfl, _, _⟩ | ⟨_, hr⟩
      · exact absurd rfl hne
      · obtain ⟨a, b, c⟩ := h.row j x r hj hr
        have hap := h.apart j i x e hne hj he
        refine ⟨a, b, ?_⟩
        rw [slice_splice_apart hz (by omega), slice_splice_apart hl (by omega), c]
  · intro j k x y hjk hj hk
    simp only [updateInPlace] at hj hk
    rcases getElem?_set_cases hj with ⟨rfl, rfl, _⟩ | ⟨hne, hj'⟩
    · rcases getElem?_set_cases hk with ⟨rfl, rfl, _⟩ | ⟨hne, hk⟩
      · exact absurd rfl hjk
      · have := h.apart _ _ e y hjk he hk
        dsimp only; omega
    · rcases getElem?_set_cases hk with ⟨rfl, rfl, _⟩ | ⟨_, hk⟩
      · have := h.apart _ _ x e hjk hj' he
        dsimp only; omega
      · exact h.apart _ _ x y hjk hj' hk
  · intro hs0 j x l hj hlst
    simp only [updateInPlace, List.length_set] at hj hlst
    have key : ∀ (k : Nat) (y : Info), (p.info.set i ⟨e.off, (encTuple row).length, m⟩)[k]? = some y → ∃ y', p.info[k]? = some y' ∧ y'.off = y.off := by
      intro k y hk
      rcases getElem?_set_cases hk with ⟨rfl, rfl, _⟩ | ⟨_, hk⟩
      · exact ⟨e, he, rfl⟩
      · exact ⟨y, hk, rfl⟩
    obtain ⟨x', hx1, hx2⟩ := key _ _ hj
    obtain ⟨l', hl1, hl2⟩ := key _ _ hlst
    have := h.low hs0 j x' l' hx1 hl1
    omega

theorem updateMoved_holds {p : Page} {rows : List Row} {s : Bool} (h : Holds p rows s) {m : Meta} {row : List Value} {i : Nat} {e : Info}
    (he : p.info[i]? = some e) (hs : (encTuple row).length ≤ minOther p.info i) :
    Holds (updateMoved p i e m (encTuple row)) (rows.set i (m, row)) (decide (i + 1 ≠ rows.length)) := by
  have hin := h.wf.inPage e (List.mem_of_getElem? he)
  have hmin := minOther_le p.info i
  have hl : e.off + (zeros e.size).length ≤ p.data.length := by rw [h.wf.len, length_zeros]; omega
  have hw : minOther p.info i - (encTuple row).length + (encTuple row).length
      ≤ (splice p.data e.off (zeros e.size)).length := by rw [length_splice hl, h.wf.len]; omega
  have hzl : (zeros e.size).length = e.size := length_zeros _
  refine ⟨updateMoved_wf h.wf he hs, by simp [updateMoved, h.len], ?_, ?_, ?_⟩
  · intro j x r hj hr
    simp only [updateMoved] at hj ⊢
    rcases getElem?_set_cases hj with ⟨rfl, rfl, _⟩ | ⟨hne, hj⟩
    · rcases getElem?_set_cases hr with ⟨_, rfl, _⟩ | ⟨hne, _⟩
      · refine ⟨rfl, rfl, ?_⟩
        dsimp only
        rw [slice_splice_self hw]
      · exact absurd rfl hne
    · rcases getElem?_set_cases hr with ⟨rfl, _, _⟩ | ⟨_, hr⟩
      · exact absurd rfl hne
      · obtain ⟨a, b, c⟩ := h.row j x r hj hr
        have hap := h.apart j i x e hne hj he
        have hmo := minOther_le_other hne hj
        refine ⟨a, b, ?_⟩
        rw [slice_splice_apart hw (by omega), slice_splice_apart hl (by omega), c]
  · intro j k x y hjk hj hk
    simp only [updateMoved] at hj hk
    rcases getElem?_set_cases hj with ⟨rfl, rfl, _⟩ | ⟨hne, hj'⟩
    · rcases getElem?_set_cases hk with ⟨rfl, rfl, _⟩ | ⟨hne, hk⟩
      · exact absurd rfl hjk
      · have := minOther_le_other hne hk
        dsimp only; omega
    · rcases getElem?_set_cases hk with ⟨rfl, rfl, _⟩ | ⟨_, hk⟩
      · have := minOther_le_other hne hj'
        dsimp only; omega
      · exact h.apart _ _ x y hjk hj' hk
  · intro hs0 j x l hj hlst
    have hlast : i = p.info.length - 1 := by
      have := h.len
      simp only [ne_eq, decide_not, Bool.not_eq_eq_eq_not, Bool.not_false, decide_eq_true_eq] at hs0
      omega
    simp only [updateMoved, List.length_set] at hj hlst
    rcases getElem?_set_cases hlst with ⟨_, rfl, _⟩ | ⟨hne, _⟩
    · rcases getElem?_set_cases hj with ⟨_, rfl, _⟩ | ⟨hne, hj⟩
      · exact Nat.le_refl _
      · have := minOther_le_other hne hj
        dsimp only; omega
    · exact absurd hlast.symm hne

theorem updateMeta_holds {p : Page} {rows : List Row} {s : Bool} (h : Holds p rows s) {m : Meta} {i n : Nat} {e : Info} {r : Row}
    (he : p.info[i]? = some e) (hr : rows[i]? = some r) :
    Holds { p with info := p.info.set i { e with md := m }, ndel := n } (rows.set i (m, r.2)) s := by
  have key : ∀ (k : Nat) (y : Info), (p.info.set i { e with md := m })[k]? = some y → ∃ y', p.info[k]? = some y' ∧ y'.off = y.off ∧ y'.size = y.size := by
    intro k y hk
    rcases getElem?_set_cases hk with ⟨rfl, rfl, _⟩ | ⟨_, hk⟩
    · exact ⟨e, he, rfl, rfl⟩
    · exact ⟨y, hk, rfl, rfl⟩
  refine ⟨updateMeta_wf h.wf he, by simp [h.len], ?_, ?_, ?_⟩
  · intro j x r' hj hr'
    rcases getElem?_set_cases hj with ⟨rfl, rfl, _⟩ | ⟨hne, hj⟩
    · rcases getElem?_set_cases hr' with ⟨_, rfl, _⟩ | ⟨hne, _⟩
      · obtain ⟨_, b, c⟩ := h.row _ e r he hr
        exact ⟨rfl, b, c⟩
      · exact absurd rfl hne
    · rcases getElem?_set_cases hr' with ⟨rfl, _, _⟩ | ⟨_, hr'⟩
      · exact absurd rfl hne
      · exact h.row j x r' hj hr'
  · intro j k x y hjk hj hk
    obtain ⟨x', hx, h1, h2⟩ := key _ _ hj
    obtain ⟨y', hy, h3, h4⟩ := key _ _ hk
    have := h.apart j k x' y' hjk hx hy
    omega
  · intro hs0 j x l hj hlst
    simp only [List.length_set] at hlst
    obtain ⟨x', hx, h1, h2⟩ := key _ _ hj
    obtain ⟨l', hy, h3, h4⟩ := key _ _ hlst
    have := h.low hs0 j x' l' hx hy
    omega

theorem Holds.row? {p : Page} {rows : List Row} {s : Bool} (h : Holds p rows s) {i : Nat} {e : Info} (he : p.info[i]? = some e) :
    ∃ r, rows[i]? = some r := by
  have : i < p.info.length := by
    rcases Nat.lt_or_ge i p.info.length with h1 | h1
    · exact h1
    · rw [List.getElem?_eq_none h1] at he; simp at he
  exact ⟨_, List.getElem?_eq_getElem (by rw [← h.len]; exact this)⟩

theorem step_holds {p : Page} {rows : List Row} {s : Bool} (h : Holds p rows s) {o : Op} {q : Page} {b : Bool}
    (hs : step p o = some (q, b)) (ht : isInsert o = true → b = true → s = false) :
    Holds q (apply rows o b) (stretch rows s o b) := by
  cases o with
  | insert m row rid =>
    simp only [step] at hs
    rcases insert_cases h.wf m row rid with h1 | ⟨x, h1, _, h2⟩
    · rw [h1] at hs; simp at hs; obtain ⟨rfl, rfl⟩ := hs; exact h
    · rw [h1] at hs; simp at hs; obtain ⟨rfl, rfl⟩ := hs
      have := ht rfl rfl
      subst this
      exact inserted_holds h h2
  | insertWithRid m row rid =>
    simp only [step] at hs
    rcases insertWithRid_cases h.wf m row rid with h1 | ⟨x, h1, h2⟩
    · rw [h1] at hs; simp at hs; obtain ⟨rfl, rfl⟩ := hs; exact h
    · rw [h1] at hs; simp at hs; obtain ⟨rfl, rfl⟩ := hs
      have := ht rfl rfl
      subst this
      exact inserted_holds h h2
  | update m row i =>
    simp only [step] at hs
    rcases update_cases h.wf m row i with h1 | ⟨_, h1⟩ | ⟨e, he, hl, ⟨h1, h2⟩ | ⟨h1, h2, h3⟩⟩
    · rw [h1] at hs; simp at hs; obtain ⟨rfl, rfl⟩ := hs
      simpa [apply, stretch] using h
    · rw [h1] at hs; simp at hs
    · rw [h2] at hs; simp at hs; obtain ⟨rfl, rfl⟩ := hs
      obtain ⟨r, hr⟩ := h.row? he
      have := (h.row i e r he hr).2.1
      have hst : stretch rows s (.update m row i) true = s := by
        simp only [stretch, hr, Option.any_some, decide_eq_true_eq, true_and]
        rw [if_neg]; simp only [rowSize] at this ⊢; omega
      rw [hst]
      exact updateInPlace_holds h he h1
    · rw [h3] at hs; simp at hs; obtain ⟨rfl, rfl⟩ := hs
      obtain ⟨r, hr⟩ := h.row? he
      have := (h.row i e r he hr).2.1
      have hst : stretch rows s (.update m row i) true = decide (i + 1 ≠ rows.length) := by
        simp only [stretch, hr, Option.any_some, decide_eq_true_eq, true_and]
        rw [if_pos]; simp only [rowSize] at this ⊢; omega
      rw [hst]
      exact updateMoved_holds h he (by omega)
  | updateMeta m i =>
    simp only [step] at hs
    rcases updateMeta_cases h.wf m i with h1 | ⟨e, he, h1⟩
    · rw [h1] at hs; simp at hs; obtain ⟨rfl, rfl⟩ := hs; exact h
    · rw [h1] at hs; simp at hs; obtain ⟨rfl, rfl⟩ := hs
      obtain ⟨r, hr⟩ := h.row? he
      simp only [apply, hr]
      exact updateMeta_holds h he hr
  | setNext id =>
    simp [step] at hs; obtain ⟨rfl, rfl⟩ := hs
    exact ⟨⟨h.wf.num, h.wf.len, h.wf.inPage, h.wf.few⟩, h.len, h.row, h.apart, h.low⟩
  | setPrev id =>
    simp [step] at hs; obtain ⟨rfl, rfl⟩ := hs
    exact ⟨⟨h.wf.num, h.wf.len, h.wf.inPage, h.wf.few⟩, h.len, h.row, h.apart, h.low⟩

theorem run_holds : ∀ (os : List Op) (p : Page) (rows : List Row) (s : Bool) (q : Page) (bs : List Bool), Holds p rows s →
    run p os = some (q, bs) → Tame rows s os bs → ∃ s', Holds q (rowsAfter rows os bs) s'
  | [], p, rows, s, q, bs, h, hr, _ => by
    simp [run] at hr
    obtain ⟨rfl, rfl⟩ := hr
    exact ⟨s, h⟩
  | o :: os, p, rows, s, q, bs, h, hr, ht => by
    simp only [run, Option.bind_eq_some_iff, Option.map_eq_some_iff] at hr
    obtain ⟨⟨p', b⟩, h1, ⟨q', bs'⟩, h2, h3⟩ := hr
    simp only [Prod.mk.injEq] at h3
    obtain ⟨rfl, rfl⟩ := h3
    exact run_holds os p' _ _ _ _ (step_holds h h1 ht.1) h2 ht.2

theorem step_id {p q : Page} {o : Op} {b : Bool} (h : WF p) (hs : step p o = some (q, b)) : q.id = p.id := by
  cases o with
  | insert m row rid =>
    simp only [step] at hs
    rcases insert_cases h m row rid with h1 | ⟨x, h1, _, h2⟩
    · rw [h1] at hs; simp at hs; rw [← hs.1]
    · rw [h1] at hs; simp at hs; obtain ⟨o, d, _, _, rfl⟩ := h2.place; rw [← hs.1]; rfl
  | insertWithRid m row rid =>
    simp only [step] at hs
    rcases insertWithRid_cases h m row rid with h1 | ⟨x, h1, h2⟩
    · rw [h1] at hs; simp at hs; rw [← hs.1]
    · rw [h1] at hs; simp at hs; obtain ⟨o, d, _, _, rfl⟩ := h2.place; rw [← hs.1]; rfl
  | update m row i =>
    simp only [step] at hs
    rcases update_cases h m row i with h1 | ⟨_, h1⟩ | ⟨e, he, hl, ⟨h1, h2⟩ | ⟨h1, h2, h3⟩⟩
    · rw [h1] at hs; simp at hs; rw [← hs.1]
    · rw [h1] at hs; simp at hs
    · rw [h2] at hs; simp at hs; rw [← hs.1]; rfl
    · rw [h3] at hs; simp at hs; rw [← hs.1]; rfl
  | updateMeta m i =>
    simp only [step] at hs
    rcases updateMeta_cases h m i with h1 | ⟨e, he, h1⟩
    · rw [h1] at hs; simp at hs; rw [← hs.1]
    · rw [h1] at hs; simp at hs; rw [← hs.1]
  | setNext id => simp [step] at hs; rw [← hs.1]; rfl
  | setPrev id => simp [step] at hs; rw [← hs.1]; rfl

theorem run_wf : ∀ (os : List Op) (p q : Page) (bs : List Bool), WF p → run p os = some (q, bs) → WF q ∧ q.id = p.id
  | [], p, q, bs, h, hr => by simp [run] at hr; obtain ⟨rfl, _⟩ := hr; exact ⟨h, rfl⟩
  | o :: os, p, q, bs, h, hr => by
    simp only [run, Option.bind_eq_some_iff, Option.map_eq_some_iff] at hr
    obtain ⟨⟨p', b⟩, h1, ⟨q', bs'⟩, h2, h3⟩ := hr
    simp only [Prod.mk.injEq] at h3
    obtain ⟨rfl, rfl⟩ := h3
    have := run_wf os p' _ _ (step_wf h h1) h2
    exact ⟨this.1, this.2.trans (step_id h h1)⟩

end Verif.TablePage
