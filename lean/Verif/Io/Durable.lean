import Verif.Io.Runs

/-! What stays in the files. -/

namespace Verif.Io

open Spec

theorem Written.keeps {f g d x : Data} {off o n : Nat} (hw : Written f o x g) (hd : off + n ≤ o ∨ o + x.length ≤ off) (hh : Has f off n d) : Has g off n d := by
  obtain ⟨h1, h2, h3⟩ := hh
  have hlen : f.length ≤ g.length := by
    rw [hw.1]; split
    · exact Nat.le_refl _
    · omega
  refine ⟨by omega, h2, ?_⟩
  intro i hi
  rw [hw.2 (off + i) (by omega), if_neg (by omega), if_pos (by omega)]
  exact h3 i hi

theorem Written.has {f g d : Data} {off : Nat} (hw : Written f off d g) : d ≠ [] → Has g off d.length d := by
  intro hne
  have h1 := hw.1
  rw [if_neg hne] at h1
  refine ⟨by omega, rfl, ?_⟩
  intro i hi
  rw [hw.2 (off + i) (by omega), if_pos (by omega)]
  congr 1
  omega

/-- The page is in the file, and was at the last sync, and has not been written since. -/
def Kept (f : Files) (p : Nat) (d : Data) : Prop :=
  Has f.db (p * 4096) 4096 d ∧ Has f.dbSafe (p * 4096) 4096 d ∧ ∀ w ∈ f.dbSince, w.1 + w.2 ≤ p * 4096 ∨ p * 4096 + 4096 ≤ w.1

theorem exec_has {f : Files} {k : Kind} {cut : Option Nat} {p : Nat} {d : Data} (hs : Small k) (hp : p < 2 ^ 52) (hk : ∀ d', k ≠ .writePage p d')
    (h : Has f.db (p * 4096) 4096 d) : Has (f.exec k cut).1.db (p * 4096) 4096 d := by
  cases k with
  | readPage q => simp only [Files.exec]; split <;> exact h
  | writePage q x =>
    simp only [Files.exec]
    split
    · rename_i hx
      have hq := pageOff_small (p := q) hs
      rw [hq]
      have hne : q ≠ p := fun e => hk x (by rw [e])
      refine Written.keeps (writeAt_written f.db (q * 4096) _) ?_ h
      have : (cutTo cut x).length ≤ 4096 := by
        cases cut with
        | none => exact Nat.le_of_eq hx
        | some n => simp [cutTo]; omega
      omega
    · exact h
  | readLog off n =>
    simp only [Files.exec]
    split
    · exact h
    · split <;> exact h
  | writeLog x off => simp only [Files.exec]; split <;> exact h
  | appendLog x => simp only [Files.exec]; split <;> exact h
  | sync => cases cut <;> exact h
  | syncLog => cases cut <;> exact h

theorem exec_kept {f : Files} {k : Kind} {cut : Option Nat} {p : Nat} {d : Data} (hs : Small k) (hp : p < 2 ^ 52) (hk : ∀ d', k ≠ .writePage p d')
    (h : Kept f p d) : Kept (f.exec k cut).1 p d := by
  refine ⟨exec_has hs hp hk h.1, ?_⟩
  cases k with
  | readPage q => simp only [Files.exec]; split <;> exact h.2
  | writePage q x =>
    simp only [Files.exec]
    split
    · rename_i hx
      have hq := pageOff_small (p := q) hs
      rw [hq]
      have hne : q ≠ p := fun e => hk x (by rw [e])
      refine ⟨h.2.1, ?_⟩
      intro w hw
      simp only [Files.writeDb, List.mem_cons] at hw
      rcases hw with rfl | hw
      · have : (cutTo cut x).length ≤ 4096 := by
          cases cut with
          | none => exact Nat.le_of_eq hx
          | some n => simp [cutTo]; omega
        show q * 4096 + _ ≤ _ ∨ _ ≤ q * 4096
        omega
      · exact h.2.2 w hw
    · exact h.2
  | readLog off n =>
    simp only [Files.exec]
    split
    · exact h.2
    · split <;> exact h.2
  | writeLog x off => simp only [Files.exec]; split <;> exact h.2
  | appendLog x => simp only [Files.exec]; split <;> exact h.2
  | sync =>
    cases cut with
    | none => exact ⟨h.1, by intro w hw; simp [Files.exec] at hw⟩
    | some n => exact h.2
  | syncLog => cases cut <;> exact h.2

theorem Execs.has {f f' : Files} {l : List Lab} {p : Nat} {d : Data} (he : Execs f l f') (hs : ∀ i k r, Lab.act i k r ∈ l → Small k) (hp : p < 2 ^ 52)
    (hk : ∀ i d' r, Lab.act i (.writePage p d') r ∉ l) (h : Has f.db (p * 4096) 4096 d) : Has f'.db (p * 4096) 4096 d := by
  induction he with
  | nil f => exact h
  | call i k _ ih => exact ih (fun i k r hm => hs i k r (List.mem_cons_of_mem _ hm)) (fun i d' r hm => hk i d' r (List.mem_cons_of_mem _ hm)) h
  | ret i r _ ih => exact ih (fun i k r hm => hs i k r (List.mem_cons_of_mem _ hm)) (fun i d' r hm => hk i d' r (List.mem_cons_of_mem _ hm)) h
  | act i k cut _ ih =>
    refine ih (fun i k r hm => hs i k r (List.mem_cons_of_mem _ hm)) (fun i d' r hm => hk i d' r (List.mem_cons_of_mem _ hm)) ?_
    exact exec_has (hs i k _ List.mem_cons_self) hp (by rintro d' rfl; exact hk i d' _ List.mem_cons_self) h

theorem Execs.kept {f f' : Files} {l : List Lab} {p : Nat} {d : Data} (he : Execs f l f') (hs : ∀ i k r, Lab.act i k r ∈ l → Small k) (hp : p < 2 ^ 52)
    (hk : ∀ i d' r, Lab.act i (.writePage p d') r ∉ l) (h : Kept f p d) : Kept f' p d := by
  induction he with
  | nil f => exact h
  | call i k _ ih => exact ih (fun i k r hm => hs i k r (List.mem_cons_of_mem _ hm)) (fun i d' r hm => hk i d' r (List.mem_cons_of_mem _ hm)) h
  | ret i r _ ih => exact ih (fun i k r hm => hs i k r (List.mem_cons_of_mem _ hm)) (fun i d' r hm => hk i d' r (List.mem_cons_of_mem _ hm)) h
  | act i k cut _ ih =>
    refine ih (fun i k r hm => hs i k r (List.mem_cons_of_mem _ hm)) (fun i d' r hm => hk i d' r (List.mem_cons_of_mem _ hm)) ?_
    exact exec_kept (hs i k _ List.mem_cons_self) hp (by rintro d' rfl; exact hk i d' _ List.mem_cons_self) h

/-- A page that was kept is there after a crash. -/
theorem Kept.survives {f : Files} {p : Nat} {d left : Data} (h : Kept f p d) (hl : Survives f.dbSafe f.dbSince left) : Has left (p * 4096) 4096 d := by
  obtain ⟨-, ⟨h1, h2, h3⟩, h4⟩ := h
  have key : ∀ i, i < 4096 → d[i]? = left[p * 4096 + i]? := by
    intro i hi
    rw [hl (p * 4096 + i) (by omega) (fun w hw => by have := h4 w hw; omega)]
    exact h3 i hi
  refine ⟨?_, h2, key⟩
  have := key 4095 (by omega)
  rw [List.getElem?_eq_getElem (by omega)] at this
  have := (List.getElem?_eq_some_iff.1 this.symm).1
  omega

/-- Where in a history a call took effect. -/
theorem Spec.Placed.locate {h a c : List Lab} {i : Id} {k : Kind} {v : Data} (hp : Placed h) (e : h = a ++ .call i k :: c) {b d : List Lab} (ec : c = b ++ .ret i (.ok v) :: d) :
    ∃ b1 b2, b = b1 ++ Lab.act i k (.ok v) :: b2 := by
  subst ec
  have h1 := hp (a ++ .call i k :: b) (.ret i (.ok v)) d (by simp [e])
  obtain ⟨k', hk'⟩ := h1.2.2 v rfl
  have h0 := hp a (.call i k) _ e
  have hm : Lab.act i k' (.ok v) ∈ b := by
    rcases List.mem_append.1 hk' with hm | hm
    · exact absurd rfl ((h0 _ hm).2.1 k' (.ok v))
    · rcases List.mem_cons.1 hm with hm | hm
      · cases hm
      · exact hm
  obtain ⟨b1, b2, hb⟩ := List.append_of_mem hm
  have h2 := hp (a ++ .call i k :: b1) (.act i k' (.ok v)) (b2 ++ .ret i (.ok v) :: d) (by simp [e, hb])
  have h3 : Lab.call i k' ∈ a ++ .call i k :: b1 := h2.1
  have hk : k' = k := by
    rcases List.mem_append.1 h3 with hm | hm
    · exact absurd rfl ((h0 _ hm).1 k')
    · rcases List.mem_cons.1 hm with hm | hm
      · injection hm
      · obtain ⟨c1, c2, hc⟩ := List.append_of_mem hm
        have h4 := hp (a ++ .call i k :: c1) (.call i k') (c2 ++ Lab.act i k' (.ok v) :: (b2 ++ .ret i (.ok v) :: d)) (by simp [e, hb, hc])
        exact absurd rfl ((h4 (.call i k) (by simp)).1 k)
  subst hk
  exact ⟨b1, b2, hb⟩

/-- Nothing acts twice. -/
theorem Spec.Placed.act_once {h a b : List Lab} {i : Id} {k k' : Kind} {r r' : Res} (hp : Placed h) (e : h = a ++ Lab.act i k r :: b) : Lab.act i k' r' ∉ b := by
  intro hm
  obtain ⟨b1, b2, hb⟩ := List.append_of_mem hm
  have := (hp (a ++ .act i k r :: b1) (.act i k' r') b2 (by simp [e, hb])).2 k r
  exact this (by simp)

/-- A name is used for one call. -/
theorem Spec.Placed.call_once {h : List Lab} {i : Id} {k k' : Kind} (hp : Placed h) (h1 : Lab.call i k ∈ h) (h2 : Lab.call i k' ∈ h) : k = k' := by
  obtain ⟨a, b, e⟩ := List.append_of_mem h1
  have h0 := hp a _ b e
  rw [e] at h2
  rcases List.mem_append.1 h2 with hm | hm
  · exact absurd rfl ((h0 _ hm).1 k')
  · rcases List.mem_cons.1 hm with hm | hm
    · injection hm with _ hm; exact hm.symm
    · obtain ⟨c1, c2, hc⟩ := List.append_of_mem hm
      exact absurd rfl ((hp (a ++ .call i k :: c1) (.call i k') c2 (by simp [e, hc]) (.call i k) (by simp)).1 k)

/-- A call answered with success took effect. -/
theorem Spec.Placed.acted {h : List Lab} {i : Id} {k : Kind} {v : Data} (hp : Placed h) (hc : Lab.call i k ∈ h) (hr : Lab.ret i (.ok v) ∈ h) :
    ∃ l1 l2, h = l1 ++ Lab.act i k (.ok v) :: l2 := by
  obtain ⟨a, b, e⟩ := List.append_of_mem hr
  obtain ⟨k', hk'⟩ := (hp a _ b e).2.2 v rfl
  have hm : Lab.act i k' (.ok v) ∈ h := by rw [e]; exact List.mem_append_left _ hk'
  have hc' := hp.called hm
  have : k' = k := hp.call_once hc' hc
  subst this
  exact List.append_of_mem hm

/-! ## The log -/

theorem exec_log {f : Files} {k : Kind} {cut : Option Nat} (hk : ∀ d o, k ≠ .writeLog d o) : ∃ x, (f.exec k cut).1.log = f.log ++ x := by
  cases k with
  | readPage q => simp only [Files.exec]; split <;> exact ⟨[], by simp⟩
  | writePage q x => simp only [Files.exec]; split <;> exact ⟨[], by simp [Files.writeDb]⟩
  | readLog off n =>
    simp only [Files.exec]
    split
    · exact ⟨[], by simp⟩
    · split <;> exact ⟨[], by simp⟩
  | writeLog x off => exact absurd rfl (hk x off)
  | appendLog x =>
    simp only [Files.exec]
    split
    · exact ⟨[], by simp⟩
    · exact ⟨_, writeAt_end _ _⟩
  | sync => cases cut <;> exact ⟨[], by simp [Files.exec]⟩
  | syncLog => cases cut <;> exact ⟨[], by simp [Files.exec]⟩

theorem Execs.log {f f' : Files} {l : List Lab} (he : Execs f l f') (hk : ∀ i d o r, Lab.act i (.writeLog d o) r ∉ l) : ∃ x, f'.log = f.log ++ x := by
  induction he with
  | nil f => exact ⟨[], by simp⟩
  | call i k _ ih => exact ih fun i d o r hm => hk i d o r (List.mem_cons_of_mem _ hm)
  | ret i r _ ih => exact ih fun i d o r hm => hk i d o r (List.mem_cons_of_mem _ hm)
  | @act f l f' i k cut _ ih =>
    obtain ⟨x, hx⟩ := ih fun i d o r hm => hk i d o r (List.mem_cons_of_mem _ hm)
    obtain ⟨y, hy⟩ := exec_log (f := f) (k := k) (cut := cut) (by rintro d o rfl; exact hk i d o _ List.mem_cons_self)
    exact ⟨y ++ x, by rw [hx, hy, List.append_assoc]⟩

theorem has_append {f d x : Data} : Has (f ++ d ++ x) f.length d.length d := by
  refine ⟨by simp only [List.length_append]; omega, rfl, ?_⟩
  intro i hi
  rw [List.append_assoc, List.getElem?_append_right (by omega), List.getElem?_append_left (by omega)]
  congr 1
  omega

/-- What a successful append does. -/
theorem exec_append {f : Files} {d o : Data} {cut : Option Nat} (h : (f.exec (.appendLog d) cut).2 = .ok o) :
    (f.exec (.appendLog d) cut).1.log = f.log ++ d ∧ o = Bytes.toLE 8 f.log.length := by
  cases cut with
  | some n =>
    simp only [Files.exec] at h
    split at h <;> cases h
  | none =>
    simp only [Files.exec] at h ⊢
    split at h
    · rename_i hd
      rw [if_pos hd]
      cases h
      exact ⟨by rw [List.isEmpty_iff.1 hd]; simp, rfl⟩
    · rename_i hd
      rw [if_neg hd]
      cases h
      exact ⟨writeAt_end _ _, rfl⟩

/-- Where a successful append is in the log, and how long the log was before and is after. -/
theorem Execs.appended {f f' : Files} {l1 l2 : List Lab} {i : Id} {d o : Data} (he : Execs f (l1 ++ Lab.act i (.appendLog d) (.ok o) :: l2) f')
    (hk : ∀ j e p r, Lab.act j (.writeLog e p) r ∉ l1 ++ Lab.act i (.appendLog d) (.ok o) :: l2) :
    ∃ a x, Execs f l1 a ∧ o = Bytes.toLE 8 a.log.length ∧ f'.log = a.log ++ d ++ x := by
  obtain ⟨g, h1, h2⟩ := he.split
  generalize hr : Res.ok o = r at h2
  cases h2 with
  | act _ _ cut h3 =>
    obtain ⟨x, hx⟩ := h3.log fun i d o r hm => hk i d o r (by simp [hm])
    obtain ⟨h4, h5⟩ := exec_append hr.symm
    exact ⟨g, x, h1, h5, by rw [hx, h4]⟩

/-- The log begins with `P`, which was synced, and nothing before the end of what was synced has been written since. -/
def LogKept (f : Files) (P : Data) : Prop :=
  (∃ x, f.logSafe = P ++ x) ∧ (∃ y, f.log = f.logSafe ++ y) ∧ ∀ w ∈ f.logSince, f.logSafe.length ≤ w.1

theorem exec_logKept {f : Files} {k : Kind} {cut : Option Nat} {P : Data} (hk : ∀ d o, k ≠ .writeLog d o) (h : LogKept f P) : LogKept (f.exec k cut).1 P := by
  cases k with
  | readPage q => simp only [Files.exec]; split <;> exact h
  | writePage q x => simp only [Files.exec]; split <;> exact h
  | readLog off n =>
    simp only [Files.exec]
    split
    · exact h
    · split <;> exact h
  | writeLog x off => exact absurd rfl (hk x off)
  | appendLog x =>
    simp only [Files.exec]
    split
    · exact h
    · obtain ⟨h1, ⟨y, hy⟩, h3⟩ := h
      refine ⟨h1, ⟨y ++ cutTo cut x, ?_⟩, ?_⟩
      · show writeAt f.log f.log.length (cutTo cut x) = f.logSafe ++ (y ++ cutTo cut x)
        rw [writeAt_end, hy, List.append_assoc]
      · intro w hw
        simp only [Files.writeLog, List.mem_cons] at hw
        rcases hw with rfl | hw
        · show f.logSafe.length ≤ f.log.length
          rw [hy]; simp
        · exact h3 w hw
  | sync => cases cut <;> exact h
  | syncLog =>
    cases cut with
    | none =>
      obtain ⟨⟨x, hx⟩, ⟨y, hy⟩, h3⟩ := h
      exact ⟨⟨x ++ y, by simp only [Files.exec]; rw [hy, hx, List.append_assoc]⟩, ⟨[], by simp [Files.exec]⟩, by intro w hw; simp [Files.exec] at hw⟩
    | some n => exact h

theorem Execs.logKept {f f' : Files} {l : List Lab} {P : Data} (he : Execs f l f') (hk : ∀ i d o r, Lab.act i (.writeLog d o) r ∉ l) (h : LogKept f P) : LogKept f' P := by
  induction he with
  | nil f => exact h
  | call i k _ ih => exact ih (fun i d o r hm => hk i d o r (List.mem_cons_of_mem _ hm)) h
  | ret i r _ ih => exact ih (fun i d o r hm => hk i d o r (List.mem_cons_of_mem _ hm)) h
  | act i k cut _ ih =>
    exact ih (fun i d o r hm => hk i d o r (List.mem_cons_of_mem _ hm)) (exec_logKept (by rintro d o rfl; exact hk i d o _ List.mem_cons_self) h)

theorem LogKept.survives {f : Files} {P d left : Data} (h : LogKept f (P ++ d)) (hl : Survives f.logSafe f.logSince left) : Has left P.length d.length d := by
  obtain ⟨⟨x, hx⟩, -, h3⟩ := h
  have key : ∀ i, i < (P ++ d).length → left[i]? = (P ++ d)[i]? := by
    intro i hi
    rw [hl i (by rw [hx, List.length_append]; omega) (fun w hw => .inl (by have := h3 w hw; rw [hx, List.length_append] at this; omega)), hx,
      List.getElem?_append_left hi]
  rw [List.length_append] at key
  refine ⟨?_, rfl, ?_⟩
  · by_cases h0 : P.length + d.length = 0
    · omega
    · have := key (P.length + d.length - 1) (by omega)
      rw [List.getElem?_eq_getElem (l := P ++ d) (by simp only [List.length_append]; omega)] at this
      have := (List.getElem?_eq_some_iff.1 this).1
      omega
  · intro i hi
    rw [key (P.length + i) (by omega), List.getElem?_append_right (by omega)]
    congr 1
    omega

end Verif.Io
