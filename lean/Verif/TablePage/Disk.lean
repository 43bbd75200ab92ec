import Verif.TablePage.Lemmas

/-! # Reading back the bytes `serialize` writes -/

namespace Verif.TablePage

open Verif.Bytes Verif.Wire Spec
open Verif.Wal (Rid)

/-- The slot directory as one run of bytes. -/
def encInfos : List Info → List Byte
  | [] => []
  | i :: is => toLE 2 i.off ++ (toLE 2 i.size ++ (encMeta i.md ++ encInfos is))

theorem length_encInfos (is : List Info) : (encInfos is).length = infoBytes is := by
  induction is with
  | nil => rfl
  | cons i is ih => simp only [encInfos, infoBytes, List.length_append, length_toLE, ih]; omega

theorem splice_pre (pre t bs : List Byte) {o : Nat} (ho : pre.length = o) : splice (pre ++ t) o bs = pre ++ (bs ++ t.drop bs.length) := by
  subst ho
  simp [splice, List.drop_append]

theorem writeInfos_spec : ∀ (is : List Info) (o : Nat) (pre t : List Byte), pre.length = o → o + infoBytes is + 4 ≤ PS →
    writeInfos is o (pre ++ t) = (o + infoBytes is, pre ++ (encInfos is ++ t.drop (infoBytes is)))
  | [], o, pre, t, _, _ => by simp [writeInfos, infoBytes, encInfos]
  | i :: is, o, pre, t, ho, hl => by
    simp only [infoBytes] at hl
    have := encMeta_ge i.md
    rw [writeInfos, if_neg (by omega), if_neg (by omega), splice_pre _ _ _ ho]
    rw [← List.append_assoc pre, splice_pre _ _ _ (show (pre ++ (toLE 2 i.off ++ toLE 2 i.size)).length = o + 4 by simp; omega)]
    rw [← List.append_assoc (pre ++ _) (encMeta i.md), writeInfos_spec is _ _ _ (by simp; omega) (by omega)]
    simp only [infoBytes, encInfos, List.drop_drop, List.append_assoc, List.length_append, length_toLE, Prod.mk.injEq]
    exact ⟨by omega, trivial⟩

theorem drop_zeros (n k : Nat) : (zeros n).drop k = zeros (n - k) := by simp [zeros]

theorem length_encHeader (p : Page) : (encHeader p).length = 28 := by simp [encHeader]

theorem serHead_eq (p : Page) : serHead p = (2 :: (encHeader p ++ magic)) ++ zeros (PS - 33) := by
  have h1 : splice (zeros PS) 0 [2] = [2] ++ zeros (PS - 1) := by
    rw [show zeros PS = [] ++ zeros PS from rfl, splice_pre [] (zeros PS) [2] (o := 0) rfl, drop_zeros]; rfl
  rw [serHead, h1, splice_pre [2] _ _ (o := 1) rfl, drop_zeros, length_encHeader, ← List.append_assoc,
    splice_pre _ _ _ (show ([2] ++ encHeader p).length = 29 by simp [length_encHeader]), drop_zeros]
  simp [magic, PS]

/-- Everything before the row bodies. -/
def metaPart (p : Page) : List Byte := 2 :: (encHeader p ++ (magic ++ (encInfos p.info ++ endMagic)))

theorem length_metaPart (p : Page) : (metaPart p).length = footprint p := by
  simp only [metaPart, List.length_cons, List.length_append, length_encHeader, length_encInfos, footprint]
  rw [show magic.length = 4 from rfl, show endMagic.length = 4 from rfl]
  omega

/-- When the rows lie above the directory, `serialize` writes the whole directory. -/
theorem serialize_meta {p : Page} (hd : p.data.length = PS) (hin : ∀ e ∈ p.info, e.off + e.size ≤ PS) (hfp : footprint p ≤ PS)
    (habove : ∀ e ∈ p.info, footprint p ≤ e.off) :
    ∃ t, serialize p = some (metaPart p ++ t) ∧ (metaPart p ++ t).length = PS
      ∧ ∀ e ∈ p.info, slice (metaPart p ++ t) e.off e.size = slice p.data e.off e.size := by
  have hlen := length_metaPart p
  have hw := writeInfos_spec p.info 33 (2 :: (encHeader p ++ magic)) (zeros (PS - 33))
    (by simp [length_encHeader, magic]) (by simp only [footprint] at hfp; omega)
  rw [← serHead_eq] at hw
  have hb : writeEnd (writeInfos p.info 33 (serHead p)).1 (writeInfos p.info 33 (serHead p)).2
      = metaPart p ++ zeros (PS - 33 - infoBytes p.info - 4) := by
    rw [hw]
    dsimp only
    rw [writeEnd, if_pos (by simp only [footprint] at hfp; omega), ← List.append_assoc,
      splice_pre _ _ _ (by simp [length_encHeader, magic, length_encInfos]; omega), drop_zeros, drop_zeros]
    simp [metaPart, endMagic, magic]
  obtain ⟨b, h1, h2, h3⟩ := serialize_spec hd hin
  have h4 : b.take (footprint p) = metaPart p := by
    have h1' := h1
    rw [serialize, hb] at h1'
    have hlb : (metaPart p ++ zeros (PS - 33 - infoBytes p.info - 4)).length = PS := by
      rw [List.length_append, hlen, length_zeros]; simp only [footprint] at hfp ⊢; omega
    obtain ⟨_, h5⟩ := copyRows_spec hd _ _ _ hlb hin h1'
    apply List.ext_getElem?
    intro x
    rw [List.getElem?_take]
    split
    · rename_i hx
      rw [(h5 x).2.1 (fun e he => by have := habove e he; omega), List.getElem?_append_left (by omega)]
    · rw [List.getElem?_eq_none (by omega)]
  refine ⟨b.drop (footprint p), ?_, ?_, ?_⟩
  · rw [← h4, List.take_append_drop]; exact h1
  · rw [← h4, List.take_append_drop]; exact h2
  · rw [← h4, List.take_append_drop]; exact h3

/-- The directory's numbers fit. -/
def InfoOk (i : Info) : Prop := i.off < 65536 ∧ i.size < 65536 ∧ i.md.ok

theorem readInfos_spec : ∀ (is : List Info) (pre rest : List Byte) (o : Nat), pre.length = o → (∀ i ∈ is, InfoOk i) →
    readInfos (pre ++ (encInfos is ++ rest)) is.length o = some (is, o + infoBytes is)
  | [], pre, rest, o, _, _ => by simp [readInfos, infoBytes]
  | i :: is, pre, rest, o, ho, hok => by
    obtain ⟨h1, h2, h3⟩ := hok i (by simp)
    have ih := readInfos_spec is (pre ++ (toLE 2 i.off ++ (toLE 2 i.size ++ encMeta i.md))) rest (o + 4 + (encMeta i.md).length)
      (by simp; omega) (fun x hx => hok x (by simp [hx]))
    simp only [List.append_assoc] at ih
    have d0 : (pre ++ (encInfos (i :: is) ++ rest)).drop o = toLE 2 i.off ++ (toLE 2 i.size ++ (encMeta i.md ++ (encInfos is ++ rest))) := by
      rw [List.drop_append_of_le_length (by omega), List.drop_eq_nil_of_le (by omega)]; simp [encInfos]
    have d2 : (pre ++ (encInfos (i :: is) ++ rest)).drop (o + 2) = toLE 2 i.size ++ (encMeta i.md ++ (encInfos is ++ rest)) := by
      rw [← List.drop_drop, d0, List.drop_append_of_le_length (by simp), List.drop_eq_nil_of_le (by simp)]; rfl
    have d4 : (pre ++ (encInfos (i :: is) ++ rest)).drop (o + 4) = encMeta i.md ++ (encInfos is ++ rest) := by
      rw [show o + 4 = o + 2 + 2 from rfl, ← List.drop_drop, d2, List.drop_append_of_le_length (by simp),
        List.drop_eq_nil_of_le (by simp)]; rfl
    rw [List.length_cons, readInfos, d0, d2, d4, readLE_toLE (by simpa using h1), readLE_toLE (by simpa using h2), decMeta_encMeta h3]
    simp only [Option.bind_some]
    rw [show pre ++ (encInfos (i :: is) ++ rest)
      = pre ++ (toLE 2 i.off ++ (toLE 2 i.size ++ (encMeta i.md ++ (encInfos is ++ rest)))) by simp [encInfos], ih]
    simp [infoBytes, Nat.add_assoc]

theorem drop_pre (pre t : List Byte) {o : Nat} (ho : pre.length = o) : (pre ++ t).drop o = t := by
  subst ho; simp

theorem readHeader_spec {p : Page} (h1 : p.id < 2 ^ 64) (h2 : p.next < 2 ^ 64) (h3 : p.prev < 2 ^ 64) (h4 : p.num < 65536)
    (h5 : p.ndel < 65536) (rest : List Byte) :
    readHeader (2 :: (encHeader p ++ rest)) = some { p with info := [], data := 2 :: (encHeader p ++ rest) } := by
  generalize hb : (2 : Byte) :: (encHeader p ++ rest) = b
  have e1 : b.drop 1 = toLE 8 p.id ++ (toLE 8 p.next ++ (toLE 8 p.prev ++ (toLE 2 p.num ++ (toLE 2 p.ndel ++ rest)))) := by
    rw [← hb]; simp [encHeader]
  have e2 : b.drop 9 = toLE 8 p.next ++ (toLE 8 p.prev ++ (toLE 2 p.num ++ (toLE 2 p.ndel ++ rest))) := by
    rw [show 9 = 1 + 8 from rfl, ← List.drop_drop, e1]; exact drop_pre _ _ (by simp)
  have e3 : b.drop 17 = toLE 8 p.prev ++ (toLE 2 p.num ++ (toLE 2 p.ndel ++ rest)) := by
    rw [show 17 = 9 + 8 from rfl, ← List.drop_drop, e2]; exact drop_pre _ _ (by simp)
  have e4 : b.drop 25 = toLE 2 p.num ++ (toLE 2 p.ndel ++ rest) := by
    rw [show 25 = 17 + 8 from rfl, ← List.drop_drop, e3]; exact drop_pre _ _ (by simp)
  have e5 : b.drop 27 = toLE 2 p.ndel ++ rest := by
    rw [show 27 = 25 + 2 from rfl, ← List.drop_drop, e4]; exact drop_pre _ _ (by simp)
  simp only [readHeader, e1, e2, e3, e4, e5]
  rw [readLE_toLE (by simpa using h1), readLE_toLE (by simpa using h2), readLE_toLE (by simpa using h3), readLE_toLE (by simpa using h4),
    readLE_toLE (by simpa using h5)]
  rfl

/-- Reading a page whose directory is intact. -/
theorem deserialize_meta {p : Page} (h1 : p.id < 2 ^ 64) (h2 : p.next < 2 ^ 64) (h3 : p.prev < 2 ^ 64) (h4 : p.num < 65536)
    (h5 : p.ndel < 65536) (hn : p.num = p.info.length) (hok : ∀ i ∈ p.info, InfoOk i) (t : List Byte) :
    deserialize (metaPart p ++ t) = some { p with data := metaPart p ++ t } := by
  have hb : metaPart p ++ t = 2 :: (encHeader p ++ (magic ++ (encInfos p.info ++ (endMagic ++ t)))) := by
    simp [metaPart]
  have hh := readHeader_spec h1 h2 h3 h4 h5 (magic ++ (encInfos p.info ++ (endMagic ++ t)))
  rw [← hb] at hh
  have hmag : slice (metaPart p ++ t) 29 4 = magic := by
    rw [hb, slice, show (2 : Byte) :: (encHeader p ++ (magic ++ (encInfos p.info ++ (endMagic ++ t))))
      = (2 :: encHeader p) ++ (magic ++ (encInfos p.info ++ (endMagic ++ t))) from by simp,
      drop_pre _ _ (by simp [length_encHeader])]
    rfl
  have hri : readInfos (metaPart p ++ t) p.num 33 = some (p.info, 33 + infoBytes p.info) := by
    rw [hb, show (2 : Byte) :: (encHeader p ++ (magic ++ (encInfos p.info ++ (endMagic ++ t))))
      = (2 :: (encHeader p ++ magic)) ++ (encInfos p.info ++ (endMagic ++ t)) from by simp, hn]
    exact readInfos_spec _ _ _ _ (by simp [length_encHeader, magic]) hok
  have hend : slice (metaPart p ++ t) (33 + infoBytes p.info) 4 = endMagic := by
    rw [hb, slice, show (2 : Byte) :: (encHeader p ++ (magic ++ (encInfos p.info ++ (endMagic ++ t))))
      = (2 :: (encHeader p ++ (magic ++ encInfos p.info))) ++ (endMagic ++ t) from by simp,
      drop_pre _ _ (by simp [length_encHeader, magic, length_encInfos]; omega)]
    rfl
  rw [deserialize, if_neg (by rw [hb]; simp), hh]
  simp only [Option.bind_some]
  rw [if_neg (by rw [hmag]; simp), hri]
  simp only [Option.bind_some]
  rw [if_pos]
  refine Or.inr (Or.inl ⟨?_, hend⟩)
  rw [List.length_append, length_metaPart, footprint]
  omega

end Verif.TablePage
