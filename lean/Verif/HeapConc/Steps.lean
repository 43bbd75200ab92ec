import Verif.HeapConc.Lemmas

/-!
# Every step has the effect the specification says
-/

namespace Verif.HeapConc

open Verif.Wire Verif.Bytes Verif.Sql Verif.Exec Verif.Dml

/-- What the thread has asked, told from where it is. -/
def Asked (S : Sheet) (t : Nat) : Pc → Prop
  | .idle | .done _ => True
  | .insWait s | .insHave s | .insNew s _ | .insLink s _ _ | .insLast s _ | .insPut s _ | .insFirst s _ | .insOnly s _ => S.asked t = some (.insert s)
  | .chgRead txn r how => S.asked t = some (.change txn r how)
  | .chgWait r s' | .chgHave r s' => ∃ txn how s, S.asked t = some (.change txn r how) ∧ S.noted t = some s ∧ s' = After txn how s
  | .commit txn r => S.asked t = some (.commit txn r)
  | .restore r s => S.asked t = some (.restore r s)
  | .scanFirst | .scanWalk _ | .scanLink _ | .initWait _ | .initFirst _ | .initWalk _ _ | .initLink _ _ | .scanGet _ _ | .scanNext _ _ => S.asked t = some .scan

theorem Asked.congr {S S' : Sheet} {t : Nat} {pc : Pc} (h : Asked S t pc) (ha : S'.asked t = S.asked t) (hn : S'.noted t = S.noted t) : Asked S' t pc := by
  cases pc <;> simp only [Asked] at h ⊢ <;> first | trivial | (rw [ha]; exact h) | (rw [ha, hn]; exact h)

structure Rel (σ : Sys) (S : Sheet) (ids : List Nat) : Prop where
  inv : Inv σ ids
  asks : ∀ t, Asked S t (σ.pc t)
  rows : S.rows = slotsOf σ.heap.page ids

theorem Rel.build {σ : Sys} {S S' : Sheet} {ids ids' : List Nat} (hI : Rel σ S ids) {t : Nat} {pc' : Pc} {h' : Heap} {w' : Option Nat} {rd : List Nat}
    (hs : Sound h' ids') (hrows : S'.rows = slotsOf h'.page ids') (hfit : Fits h' ids' pc') (hother : ∀ u, u ≠ t → Fits h' ids' (σ.pc u))
    (hw : ∀ u, u ≠ t → (σ.writer = some u ↔ w' = some u)) (hwt : pc'.writes = true ↔ w' = some t) (hlast : w' = none → h'.last = ids'.getLast?)
    (hask : Asked S' t pc') (ha : ∀ u, u ≠ t → S'.asked u = S.asked u) (hn : ∀ u, u ≠ t → S'.noted u = S.noted u) :
    Rel (({ σ with heap := h', writer := w', readers := rd } : Sys).goto t pc') S' ids' := by
  refine ⟨⟨hs, fun u => ?_, fun u => ?_, hlast⟩, fun u => ?_, hrows⟩
  · simp only [Sys.goto]
    by_cases hu : u = t
    · simp only [hu, if_true]; exact hfit
    · simp only [hu, if_false]; exact hother u hu
  · simp only [Sys.goto]
    by_cases hu : u = t
    · simp only [hu, if_true]; exact hwt
    · simp only [hu, if_false]
      exact (hI.inv.writer u).trans (hw u hu)
  · simp only [Sys.goto]
    by_cases hu : u = t
    · simp only [hu, if_true]; exact hask
    · simp only [hu, if_false]
      exact (hI.asks u).congr (ha u hu) (hn u hu)

/-- The result of a step: an effect, and the relation again. -/
def Good (d : Disk) (σ : Sys) (S : Sheet) (ids : List Nat) (e : Label) (σ' : Sys) : Prop :=
  ∃ S' ids', Effect d S e S' ∧ Rel σ' S' ids' ∧ Grow σ.heap ids σ'.heap ids'

/-- A step that leaves the table alone. -/
theorem good_quiet {d : Disk} {σ : Sys} {S S' : Sheet} {ids : List Nat} (hI : Rel σ S ids) {t : Nat} {pc' : Pc} {rd : List Nat} {e : Label}
    (he : Effect d S e S') (hr : S'.rows = S.rows) (hfit : Fits σ.heap ids pc') (hwt : pc'.writes = (σ.pc t).writes)
    (hask : Asked S' t pc') (ha : ∀ u, u ≠ t → S'.asked u = S.asked u) (hn : ∀ u, u ≠ t → S'.noted u = S.noted u) :
    Good d σ S ids e (({ σ with readers := rd } : Sys).goto t pc') := by
  refine ⟨S', ids, he, ?_, Grow.refl _ _⟩
  have := hI.build (t := t) (pc' := pc') (S' := S') (h' := σ.heap) (w' := σ.writer) (rd := rd) hI.inv.sound (hr.trans hI.rows) hfit (fun u _ => hI.inv.fits u) (fun u _ => Iff.rfl)
    (by rw [hwt]; exact hI.inv.writer t) hI.inv.last hask ha hn
  exact this

theorem not_writes {σ : Sys} {ids : List Nat} (hI : Inv σ ids) {t u : Nat} (ht : (σ.pc t).writes = true) (hu : u ≠ t) : (σ.pc u).writes = false := by
  cases h : (σ.pc u).writes with
  | false => rfl
  | true =>
    have h1 := (hI.writer t).1 ht
    have h2 := (hI.writer u).1 h
    rw [h1] at h2
    cases h2
    exact absurd rfl hu

/-- A step of the thread that holds the latch for writing, and keeps it. -/
theorem good_writer {d : Disk} {σ : Sys} {S S' : Sheet} {ids ids' : List Nat} (hI : Rel σ S ids) {t : Nat} {pc' : Pc} {h' : Heap} {e : Label}
    (ht : (σ.pc t).writes = true) (he : Effect d S e S') (hs : Sound h' ids') (hg : Grow σ.heap ids h' ids') (hrows : S'.rows = slotsOf h'.page ids')
    (hfit : Fits h' ids' pc') (hwt : pc'.writes = true) (hask : Asked S' t pc') (ha : S'.asked = S.asked) (hn : S'.noted = S.noted) :
    Good d σ S ids e (({ σ with heap := h' } : Sys).goto t pc') := by
  refine ⟨S', ids', he, ?_, hg⟩
  have := hI.build (t := t) (pc' := pc') (S' := S') (h' := h') (w' := σ.writer) (rd := σ.readers) hs hrows hfit
    (fun u hu => fits_of_not_writes (not_writes hI.inv ht hu)) (fun u _ => Iff.rfl) ⟨fun _ => (hI.inv.writer t).1 ht, fun _ => hwt⟩
    (fun hw => by rw [(hI.inv.writer t).1 ht] at hw; cases hw) hask (fun u _ => by rw [ha]) (fun u _ => by rw [hn])
  exact this

/-- The last step of the thread that holds the latch for writing. -/
theorem good_finish {d : Disk} {σ : Sys} {S S' : Sheet} {ids ids' : List Nat} (hI : Rel σ S ids) {t : Nat} {a : Answer} {h' : Heap}
    (ht : (σ.pc t).writes = true) (he : Effect d S (.answer t a) S') (hs : Sound h' ids') (hg : Grow σ.heap ids h' ids') (hrows : S'.rows = slotsOf h'.page ids')
    (hlast : h'.last = ids'.getLast?) (ha : S'.asked = S.asked) (hn : S'.noted = S.noted) :
    Good d σ S ids (.answer t a) (({ σ with heap := h', writer := none } : Sys).goto t (.done a)) := by
  refine ⟨S', ids', he, ?_, hg⟩
  have hwt := (hI.inv.writer t).1 ht
  have := hI.build (t := t) (pc' := .done a) (S' := S') (h' := h') (w' := none) (rd := σ.readers) hs hrows trivial
    (fun u hu => fits_of_not_writes (not_writes hI.inv ht hu)) (fun u hu => by
      rw [hwt]
      exact ⟨fun h => (by cases h; exact absurd rfl hu), fun h => (by cases h)⟩) ⟨fun h => (by cases h), fun h => (by cases h)⟩
    (fun _ => hlast) trivial (fun u _ => by rw [ha]) (fun u _ => by rw [hn])
  exact this

/-- A call that fails under the latch. -/
theorem good_failW {d : Disk} {σ : Sys} {S : Sheet} {ids : List Nat} (hI : Rel σ S ids) {t : Nat} {op : Op} (ht : (σ.pc t).writes = true) (hl : σ.heap.last = ids.getLast?)
    (hop : S.asked t = some op) (hx : Excuse d S t op) : Good d σ S ids (.answer t .failed) (({ σ with writer := none } : Sys).goto t (.done .failed)) :=
  good_finish (h' := σ.heap) hI ht (.fail hop hx) hI.inv.sound (Grow.refl _ _) hI.rows hl rfl rfl

/-- Taking the latch. -/
theorem good_lock {d : Disk} {σ : Sys} {S : Sheet} {ids : List Nat} (hI : Rel σ S ids) {t : Nat} {pc' : Pc} (hw : σ.writer = none) (hfit : Fits σ.heap ids pc')
    (hwt : pc'.writes = true) (hask : Asked S t pc') : Good d σ S ids (.work t) (({ σ with writer := some t } : Sys).goto t pc') := by
  refine ⟨S, ids, .work t, ?_, Grow.refl _ _⟩
  have := hI.build (t := t) (pc' := pc') (S' := S) (h' := σ.heap) (w' := some t) (rd := σ.readers) hI.inv.sound hI.rows hfit (fun u _ => hI.inv.fits u) (fun u hu => by
      rw [hw]
      exact ⟨fun h => (by cases h), fun h => (by cases h; exact absurd rfl hu)⟩) ⟨fun _ => rfl, fun _ => hwt⟩ (fun h => by cases h) hask (fun _ _ => rfl) (fun _ _ => rfl)
  exact this

/-- A slot overwritten by a thread without the latch. -/
theorem good_slot {d : Disk} {σ : Sys} {S : Sheet} {ids : List Nat} (hI : Rel σ S ids) {t : Nat} {r : Rid} {s : Slot} {h' : Heap}
    (ht : (σ.pc t).writes = false) (hsh : Shape σ.heap h') (hs : Sound h' ids) (hg : Grow σ.heap ids h' ids) (hrows : slotsOf h'.page ids = overwrite (slotsOf σ.heap.page ids) r s)
    (he : Effect d S (.answer t .changed) { S with rows := overwrite S.rows r s }) :
    Good d σ S ids (.answer t .changed) (({ σ with heap := h' } : Sys).goto t (.done .changed)) := by
  refine ⟨_, ids, he, ?_, hg⟩
  have := hI.build (t := t) (pc' := .done .changed) (S' := { S with rows := overwrite S.rows r s }) (h' := h') (w' := σ.writer) (rd := σ.readers) hs
    (by simp only; rw [hrows, hI.rows]) trivial (fun u _ => fits_shape hsh (hI.inv.fits u)) (fun u _ => Iff.rfl)
    (by rw [← hI.inv.writer t, ht]; rfl) (fun hw => hsh.last.trans (hI.inv.last hw)) trivial (fun _ _ => rfl) (fun _ _ => rfl)
  exact this

theorem get_some {d : Disk} {h : Heap} {ids : List Nat} (hs : Sound h ids) {r : Rid} {s : Slot} (hg : h.get d r = some s) : (r, s) ∈ slotsOf h.page ids ∧ s.info.deleted = false := by
  simp only [Heap.get] at hg
  split at hg
  · cases hg
  · rename_i pg hpg
    split at hg
    · rename_i s' hs'
      split at hg
      · cases hg
      · rename_i hd
        cases hg
        refine ⟨(mem_rows hs).2 ?_, by simpa using hd⟩
        simp only [Heap.slot?, getPage_page hpg, hs']
    · cases hg

theorem get_none {d : Disk} {h : Heap} {ids : List Nat} (hs : Sound h ids) {r : Rid} (hg : h.get d r = none) : Broken d ∨ ∀ s, (r, s) ∈ slotsOf h.page ids → s.info.deleted = true := by
  by_cases hb : Broken d
  · exact .inl hb
  · refine .inr fun s hm => ?_
    have h1 := (mem_rows hs).1 hm
    have hr : d.readable r.page = true := by
      cases h : d.readable r.page with
      | true => rfl
      | false => exact absurd ⟨_, h⟩ hb
    rw [Heap.get_eq hr, h1] at hg
    simp only [Option.bind_some] at hg
    split at hg
    · rename_i hd; exact hd
    · cases hg

theorem write_none {d : Disk} {h : Heap} {ids : List Nat} (hs : Sound h ids) {r : Rid} {s : Slot} (hw : h.write d r s = none) :
    Broken d ∨ (∀ s', (r, s') ∉ slotsOf h.page ids) ∨ ∃ slots, d.rewrite slots r.slot s = false := by
  simp only [Heap.write] at hw
  split at hw
  · rename_i hg
    by_cases hb : Broken d
    · exact .inl hb
    · refine .inr (.inl fun s' hm => ?_)
      have h1 := (mem_rows hs).1 hm
      simp only [Heap.slot?] at h1
      split at h1
      · rename_i pg hpg
        exact hb (getPage_none hpg hg)
      · cases h1
  · rename_i pg hg
    split at hw
    · cases hw
    · rename_i hc
      by_cases hlt : r.slot < pg.slots.length
      · refine .inr (.inr ⟨pg.slots, ?_⟩)
        cases hrw : d.rewrite pg.slots r.slot s with
        | false => rfl
        | true => exact absurd ⟨hlt, hrw⟩ hc
      · refine .inr (.inl fun s' hm => ?_)
        have h1 := (mem_rows hs).1 hm
        simp only [Heap.slot?, getPage_page hg] at h1
        exact hlt (List.getElem?_eq_some_iff.1 h1).1

/-- A step of a scan. -/
theorem good_scan {d : Disk} {σ : Sys} {S : Sheet} {ids : List Nat} (hI : Rel σ S ids) {t : Nat} {pc : Pc} (hpc : σ.pc t = pc) (hw : pc.writes = false)
    (pc' : Pc) (hw' : pc'.writes = false) {rd : List Nat} (hask : Asked S t pc') :
    Good d σ S ids (.work t) (({ σ with readers := rd } : Sys).goto t pc') :=
  good_quiet hI (.work t) rfl (fits_of_not_writes hw') (by rw [hpc, hw, hw']) hask (fun _ _ => rfl) (fun _ _ => rfl)

theorem good_scanned {d : Disk} {σ : Sys} {S : Sheet} {ids : List Nat} (hI : Rel σ S ids) {t : Nat} {pc : Pc} (hpc : σ.pc t = pc) (hw : pc.writes = false)
    (hasked : S.asked t = some .scan) (out : List (Rid × Slot)) {rd : List Nat} :
    Good d σ S ids (.answer t (.rows out)) (({ σ with readers := rd } : Sys).goto t (.done (.rows out))) :=
  good_quiet hI (.rows out hasked) rfl trivial (by rw [hpc, hw]; rfl) trivial (fun _ _ => rfl) (fun _ _ => rfl)

/-- Every step has its effect. -/
theorem Rel.step {d : Disk} {σ σ' : Sys} {S : Sheet} {ids : List Nat} {e : Label} (hf : Fresh d) (hI : Rel σ S ids) (st : Step d σ e σ') : Good d σ S ids e σ' := by
  cases st with
  | @call t op hfree =>
    have : ∀ rd, σ.readers = rd → σ.goto t op.entry = (({ σ with readers := rd } : Sys).goto t op.entry) := fun rd h => by subst h; rfl
    rw [this _ rfl]
    refine good_quiet hI (S' := S.ask t op) (.call t op) rfl ?_ ?_ ?_ (fun u hu => by simp [Sheet.ask, hu]) (fun u hu => by simp [Sheet.ask, hu])
    · cases op <;> trivial
    · have h1 : (σ.pc t).writes = false := by
        cases hp : σ.pc t <;> rw [hp] at hfree <;> first | rfl | cases hfree
      rw [h1]
      cases op <;> rfl
    · cases op <;> simp [Op.entry, Asked, Sheet.ask]
  | step hst =>
    rename_i t
    have hfit := hI.inv.fits t
    have hask := hI.asks t
    have hsound := hI.inv.sound
    simp only [Sys.step] at hst
    cases hpc : σ.pc t with
    | idle => rw [hpc] at hst; cases hst
    | done a => rw [hpc] at hst; cases hst
    | insWait s =>
      rw [hpc] at hst hask
      simp only [Sys.lockW, Sys.move] at hst
      split at hst
      · rename_i hc
        cases hst
        exact good_lock hI hc.1 (hI.inv.last hc.1) rfl hask
      · cases hst
    | insHave s =>
      have ht : (σ.pc t).writes = true := by rw [hpc]; rfl
      rw [hpc] at hst hask hfit
      simp only [Fits] at hfit
      simp only [Asked] at hask
      simp only [Sys.tryLast, Sys.finishW, Sys.finish, Sys.move] at hst
      split at hst
      · rename_i hl
        rw [hl] at hfit
        have hnil : ids = [] := List.getLast?_eq_none_iff.1 hfit.symm
        split at hst
        · rename_i hlarge
          cases hst
          exact good_failW hI ht (hl.trans hfit) hask (.large hlarge)
        · split at hst
          · rename_i hfr
            cases hst
            exact good_failW hI ht (hl.trans hfit) hask (.noPage hfr)
          · rename_i p hfr
            cases hst
            obtain ⟨_, h2, h3, h4⟩ := sound_fresh hsound (hf _ _ hfr)
            exact good_writer hI ht (.work t) h2 h3 (hI.rows.trans h4.symm) ⟨hnil, by simp [Heap.set]⟩ rfl hask rfl rfl
      · rename_i l hl
        rw [hl] at hfit
        split at hst
        · rename_i hg
          cases hst
          obtain ⟨pg, hpg, _⟩ := chain_last hsound.chain hfit.symm
          exact good_failW hI ht (hl.trans hfit) hask (.broken (getPage_none hpg hg))
        · rename_i pg hg
          split at hst
          · cases hst
            obtain ⟨h1, h2, h3, h4⟩ := sound_append hsound hfit.symm (getPage_page hg) s
            refine good_finish hI ht (.insert hask ?_) h1 h2 ?_ (hl.trans hfit) rfl rfl
            · rw [hI.rows]; exact h4
            · simp only; rw [hI.rows, h3]
          · cases hst
            have := good_writer (d := d) hI ht (pc' := .insNew s l) (.work t) hsound (Grow.refl _ _) hI.rows ⟨hl.trans hfit, hfit.symm⟩ rfl hask rfl rfl
            exact this
    | insNew s l =>
      have ht : (σ.pc t).writes = true := by rw [hpc]; rfl
      rw [hpc] at hst hask hfit
      simp only [Fits] at hfit
      simp only [Asked] at hask
      simp only [Sys.newPage, Sys.finishW, Sys.finish, Sys.move] at hst
      split at hst
      · rename_i hlarge
        cases hst
        exact good_failW hI ht hfit.1 hask (.large hlarge)
      · split at hst
        · rename_i hfr
          cases hst
          exact good_failW hI ht hfit.1 hask (.noPage hfr)
        · rename_i p hfr
          cases hst
          obtain ⟨h1, h2, h3, h4⟩ := sound_fresh hsound (hf _ _ hfr)
          exact good_writer hI ht (.work t) h2 h3 (hI.rows.trans h4.symm) ⟨hfit.1, hfit.2, h1, by simp [Heap.set]⟩ rfl hask rfl rfl
    | insLink s l p =>
      have ht : (σ.pc t).writes = true := by rw [hpc]; rfl
      rw [hpc] at hst hask hfit
      simp only [Fits] at hfit
      simp only [Asked] at hask
      simp only [Sys.linkPage, Sys.finishW, Sys.finish, Sys.move] at hst
      split at hst
      · rename_i hg
        cases hst
        obtain ⟨pg, hpg, _⟩ := chain_last hsound.chain hfit.2.1
        exact good_failW hI ht hfit.1 hask (.broken (getPage_none hpg hg))
      · rename_i pg hg
        cases hst
        obtain ⟨h1, h2, h3, h4⟩ := sound_link hsound hfit.2.1 (getPage_page hg) hfit.2.2.1 hfit.2.2.2
        exact good_writer hI ht (.work t) h1 h2 (hI.rows.trans h3.symm) ⟨by simp, h4⟩ rfl hask rfl rfl
    | insLast s p =>
      have ht : (σ.pc t).writes = true := by rw [hpc]; rfl
      rw [hpc] at hst hask hfit
      simp only [Fits] at hfit
      simp only [Sys.move] at hst
      cases hst
      exact good_writer hI ht (.work t) ⟨hsound.chain, hsound.nodup, hsound.others⟩ ⟨List.prefix_rfl, fun _ _ pg hp => ⟨pg, hp, Nat.le_refl _⟩⟩ hI.rows
        ⟨hfit.1.symm, hfit.1, hfit.2⟩ rfl hask rfl rfl
    | insPut s p =>
      have ht : (σ.pc t).writes = true := by rw [hpc]; rfl
      rw [hpc] at hst hask hfit
      simp only [Fits] at hfit
      simp only [Asked] at hask
      simp only [Sys.putNew, Sys.finishW, Sys.finish, hfit.2.2] at hst
      split at hst
      · cases hst
        obtain ⟨h1, h2, h3, h4⟩ := sound_append hsound hfit.2.1 hfit.2.2 s
        refine good_finish hI ht (.insert hask ?_) h1 h2 ?_ hfit.1 rfl rfl
        · rw [hI.rows]; exact h4
        · simp only; rw [hI.rows]; exact h3.symm
      · rename_i hsp
        cases hst
        exact good_failW hI ht hfit.1 hask (.noSpace (by simpa using hsp))
    | insFirst s p =>
      have ht : (σ.pc t).writes = true := by rw [hpc]; rfl
      rw [hpc] at hst hask hfit
      simp only [Fits] at hfit
      simp only [Sys.move] at hst
      cases hst
      obtain ⟨rfl, hp⟩ := hfit
      obtain ⟨h1, h2, h3⟩ := sound_first hsound hp
      exact good_writer hI ht (.work t) h1 h2 (hI.rows.trans h3.symm) ⟨rfl, hp⟩ rfl hask rfl rfl
    | insOnly s p =>
      have ht : (σ.pc t).writes = true := by rw [hpc]; rfl
      rw [hpc] at hst hask hfit
      simp only [Fits] at hfit
      simp only [Sys.move] at hst
      cases hst
      obtain ⟨hids, hp⟩ := hfit
      exact good_writer hI ht (.work t) ⟨hsound.chain, hsound.nodup, hsound.others⟩ ⟨List.prefix_rfl, fun _ _ pg hp => ⟨pg, hp, Nat.le_refl _⟩⟩ hI.rows
        ⟨by rw [hids]; rfl, by rw [hids]; rfl, hp⟩ rfl hask rfl rfl
    | chgRead txn r how =>
      have ht : (σ.pc t).writes = false := by rw [hpc]; rfl
      rw [hpc] at hst hask
      simp only [Asked] at hask
      have fail : Excuse d S t (.change txn r how) → Good d σ S ids (.answer t .failed) (σ.goto t (.done .failed)) := fun hx => by
        have := good_quiet (d := d) (rd := σ.readers) hI (t := t) (pc' := .done .failed) (.fail hask hx) rfl trivial (by rw [ht]; rfl) trivial (fun _ _ => rfl) (fun _ _ => rfl)
        exact this
      simp only [Sys.readRow] at hst
      split at hst
      · rename_i hg
        simp only [Sys.finish] at hst
        cases hst
        rcases get_none hsound hg with hb | hn
        · exact fail (.broken hb)
        · exact fail (.noRow (by rw [hI.rows]; exact hn))
      · rename_i s hg
        obtain ⟨hm, hd⟩ := get_some hsound hg
        rw [← hI.rows] at hm
        have go : Allowed txn how s → Good d σ S ids (.work t) (σ.goto t (.chgWait r (After txn how s))) := fun hal => by
          have := good_quiet (d := d) (rd := σ.readers) hI (t := t) (pc' := .chgWait r (After txn how s)) (.look hask hm hd hal) rfl trivial (by rw [ht]; rfl)
            ⟨txn, how, s, hask, by simp [Sheet.note], rfl⟩ (fun _ _ => rfl) (fun u hu => by simp [Sheet.note, hu])
          exact this
        cases how with
        | update as row =>
          simp only [Sys.finish, Sys.move] at hst
          split at hst
          · rename_i hc
            cases hst
            exact fail (.notAllowed hm (by simp only [Allowed]; rintro (h | h); exact hc.1 h; rw [hc.2] at h; cases h))
          · rename_i hc
            cases hst
            refine go ?_
            simp only [Allowed]
            by_cases h : s.info.creator = as
            · exact .inl h
            · exact .inr (by cases hcm : s.info.committed with | true => rfl | false => exact absurd ⟨h, hcm⟩ hc)
        | delete =>
          simp only [Sys.finish, Sys.move] at hst
          split at hst
          · rename_i hc
            cases hst
            exact fail (.notAllowed hm (by simp only [Allowed]; rintro (h | h); exact hc.1 h; rw [hc.2] at h; cases h))
          · rename_i hc
            cases hst
            refine go ?_
            simp only [Allowed]
            by_cases h : s.info.creator = txn
            · exact .inl h
            · exact .inr (by cases hcm : s.info.committed with | true => rfl | false => exact absurd ⟨h, hcm⟩ hc)
    | chgWait r s =>
      rw [hpc] at hst hask
      simp only [Sys.lockW, Sys.move] at hst
      split at hst
      · rename_i hc
        cases hst
        exact good_lock hI hc.1 (hI.inv.last hc.1) rfl hask
      · cases hst
    | chgHave r s' =>
      have ht : (σ.pc t).writes = true := by rw [hpc]; rfl
      rw [hpc] at hst hask hfit
      simp only [Fits] at hfit
      simp only [Asked] at hask
      obtain ⟨txn, how, s, ha, hn, rfl⟩ := hask
      simp only [Sys.writeRow, Sys.finishW, Sys.finish] at hst
      split at hst
      · rename_i hw
        cases hst
        refine good_failW hI ht hfit ha ?_
        rcases write_none hsound hw with hb | hno | ⟨slots, hr⟩
        · exact .broken hb
        · exact .noRow fun s' hm => absurd (hI.rows ▸ hm) (hno s')
        · exact .noFit hn hr
      · rename_i h' hw
        cases hst
        obtain ⟨g1, g2, g3, g4⟩ := Heap.write_ok hw
        obtain ⟨k1, k2, k3, k4⟩ := sound_write hsound g1 g3 g4 g2
        refine good_finish hI ht (.change ha hn ?_) k1 k2 ?_ (g1.last.trans hfit) rfl rfl
        · rw [hI.rows]; exact k4
        · simp only; rw [hI.rows]; exact k3.symm
    | commit txn r =>
      have ht : (σ.pc t).writes = false := by rw [hpc]; rfl
      rw [hpc] at hst hask
      simp only [Asked] at hask
      have fail : Excuse d S t (.commit txn r) → Good d σ S ids (.answer t .failed) (σ.goto t (.done .failed)) := fun hx => by
        have := good_quiet (d := d) (rd := σ.readers) hI (t := t) (pc' := .done .failed) (.fail hask hx) rfl trivial (by rw [ht]; rfl) trivial (fun _ _ => rfl) (fun _ _ => rfl)
        exact this
      simp only [Sys.commitRow, Sys.finish] at hst
      split at hst
      · rename_i hg
        cases hst
        by_cases hb : Broken d
        · exact fail (.broken hb)
        · refine fail (.notOurs fun s hm => ?_)
          rw [hI.rows] at hm
          have h1 := (mem_rows hsound).1 hm
          simp only [Heap.slot?] at h1
          split at h1
          · rename_i pg hpg
            exact absurd (getPage_none hpg hg) hb
          · cases h1
      · rename_i pg hg
        have hpg := getPage_page hg
        split at hst
        · rename_i hs
          cases hst
          refine fail (.notOurs fun s hm => ?_)
          rw [hI.rows] at hm
          have h1 := (mem_rows hsound).1 hm
          simp only [Heap.slot?, hpg, hs] at h1
          cases h1
        · rename_i s hs
          have hm : (r, s) ∈ slotsOf σ.heap.page ids := (mem_rows hsound).2 (by simp only [Heap.slot?, hpg, hs])
          split at hst
          · rename_i hc
            cases hst
            obtain ⟨g1, g2, g3⟩ := shape_set (s := { s with info := { s.info with committed := true } }) hpg hs
            obtain ⟨k1, k2, k3, _⟩ := sound_write hsound g1 g2 g3 ⟨s, by simp only [Heap.slot?, hpg, hs]⟩
            exact good_slot hI ht g1 k1 k2 k3 (.commit hask (hI.rows ▸ hm) hc)
          · rename_i hc
            cases hst
            refine fail (.notOurs fun s' hm' => ?_)
            rw [hI.rows] at hm'
            have h1 := (mem_rows hsound).1 hm'
            have h2 := (mem_rows hsound).1 hm
            rw [h1] at h2
            cases h2
            exact hc
    | restore r s =>
      have ht : (σ.pc t).writes = false := by rw [hpc]; rfl
      rw [hpc] at hst hask
      simp only [Asked] at hask
      simp only [Sys.restoreRow, Sys.finish] at hst
      split at hst
      · rename_i hw
        cases hst
        have hx : Excuse d S t (.restore r s) := by
          rcases write_none hsound hw with hb | hno | ⟨slots, hr⟩
          · exact .broken hb
          · exact .nothing fun s' hm => hno s' (hI.rows ▸ hm)
          · exact .noFitBack hr
        have := good_quiet (d := d) (rd := σ.readers) hI (t := t) (pc' := .done .failed) (.fail hask hx) rfl trivial (by rw [ht]; rfl) trivial (fun _ _ => rfl) (fun _ _ => rfl)
        exact this
      · rename_i h' hw
        cases hst
        obtain ⟨g1, g2, g3, g4⟩ := Heap.write_ok hw
        obtain ⟨k1, k2, k3, k4⟩ := sound_write hsound g1 g3 g4 g2
        exact good_slot hI ht g1 k1 k2 k3 (.restore hask (by rw [hI.rows]; exact k4))
    | scanFirst =>
      rw [hpc] at hst hask
      cases hst
      exact good_scan hI hpc rfl _ rfl (rd := σ.readers) hask
    | scanWalk p =>
      rw [hpc] at hst hask
      simp only [Sys.walkAt, Sys.move] at hst
      split at hst
      · cases hst
        exact good_scan hI hpc rfl _ rfl (rd := σ.readers) hask
      · split at hst
        · cases hst
          exact good_scan hI hpc rfl _ rfl (rd := σ.readers) hask
        · split at hst <;> cases hst <;> exact good_scan hI hpc rfl _ rfl (rd := σ.readers) hask
    | scanLink p =>
      rw [hpc] at hst hask
      cases hst
      exact good_scan hI hpc rfl _ rfl (rd := σ.readers) hask
    | initWait g =>
      rw [hpc] at hst hask
      simp only [Sys.lockR, Sys.move] at hst
      split at hst
      · cases hst
        exact good_scan hI hpc rfl _ rfl (rd := t :: σ.readers) hask
      · cases hst
    | initFirst g =>
      rw [hpc] at hst hask
      cases hst
      exact good_scan hI hpc rfl _ rfl (rd := σ.readers) hask
    | initWalk g p =>
      rw [hpc] at hst hask
      have hend : ∀ p, σ.initEnd d t g p = some (e, σ') → Good d σ S ids e σ' := fun p hst => by
        simp only [Sys.initEnd, Sys.move, Sys.finish, Sys.unlockR] at hst
        split at hst
        · cases hst
          exact good_scanned hI hpc rfl hask _ (rd := σ.readers.erase t)
        · split at hst
          · cases hst
            exact good_scan hI hpc rfl _ rfl (rd := σ.readers.erase t) hask
          · split at hst <;> cases hst <;> exact good_scan hI hpc rfl _ rfl (rd := σ.readers.erase t) hask
      cases p with
      | none => exact hend none hst
      | some p =>
        simp only at hst
        split at hst
        · cases hst
          exact good_scan hI hpc rfl _ rfl (rd := σ.readers) hask
        · split at hst
          · exact hend _ hst
          · cases hst
            exact good_scan hI hpc rfl _ rfl (rd := σ.readers) hask
    | initLink g p =>
      rw [hpc] at hst hask
      cases hst
      exact good_scan hI hpc rfl _ rfl (rd := σ.readers) hask
    | scanGet out cur =>
      rw [hpc] at hst hask
      simp only at hst
      split at hst <;> cases hst <;> exact good_scan hI hpc rfl _ rfl (rd := σ.readers) hask
    | scanNext out cur =>
      rw [hpc] at hst hask
      simp only [Sys.advance, Sys.move, Sys.finish] at hst
      split at hst
      · split at hst
        · cases hst
          exact good_scan hI hpc rfl _ rfl (rd := σ.readers) hask
        · cases hst
          exact good_scanned hI hpc rfl hask _ (rd := σ.readers)
      · cases hst

end Verif.HeapConc
