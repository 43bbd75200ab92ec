import Verif.Catalog.Lemmas

/-! # The statements do what they mean, for plain names -/

namespace Verif.Catalog

open Verif (AMap)

/-! ## Words -/

def NoWs (w : Name) : Prop := ∀ ch ∈ w, ch.isWhitespace = false

theorem words_single : ∀ (w : Name), NoWs w → w ≠ [] → words w = [w]
  | [], _, h => absurd rfl h
  | [ch], h, _ => by
    have h1 : ch.isWhitespace = false := h ch (by simp)
    simp [words, h1]
  | ch :: ch' :: cs, h, _ => by
    have h1 : ch.isWhitespace = false := h ch (by simp)
    have h2 : ch'.isWhitespace = false := h ch' (by simp)
    have ih := words_single (ch' :: cs) (fun x hx => h x (List.mem_cons_of_mem _ hx)) (by simp)
    rw [words]
    simp only [h1, h2, ih]
    rfl

theorem words_space (rest : Name) : ∀ (w : Name), NoWs w → w ≠ [] → words (w ++ ' ' :: rest) = w :: words rest
  | [], _, h => absurd rfl h
  | [ch], h, _ => by
    have h1 : ch.isWhitespace = false := h ch (by simp)
    have h2 : ' '.isWhitespace = true := by decide
    have h3 : words (' ' :: rest) = words rest := by cases rest <;> simp [words, h2]
    show words (ch :: ' ' :: rest) = _
    rw [words]
    simp only [h1, h2, h3]
    rfl
  | ch :: ch' :: cs, h, _ => by
    have h1 : ch.isWhitespace = false := h ch (by simp)
    have h2 : ch'.isWhitespace = false := h ch' (by simp)
    have ih := words_space rest (ch' :: cs) (fun x hx => h x (List.mem_cons_of_mem _ hx)) (by simp)
    show words (ch :: ch' :: (cs ++ ' ' :: rest)) = _
    have ih : words (ch' :: (cs ++ ' ' :: rest)) = (ch' :: cs) :: words rest := ih
    rw [words]
    simp only [h1, h2, ih]
    rfl

theorem createDatabaseName_text {n : Name} (h : NoWs n) (h0 : n ≠ []) (ine : Bool) : createDatabaseName (createDatabaseText n ine) = some n := by
  have a1 : NoWs wCreate := by unfold NoWs; decide
  have a2 : NoWs wDatabase := by unfold NoWs; decide
  have a3 : NoWs wIf := by unfold NoWs; decide
  have a4 : NoWs wNot := by unfold NoWs; decide
  have a5 : NoWs wExists := by unfold NoWs; decide
  cases ine
  · have hw : words (createDatabaseText n false) = [wCreate, wDatabase, n] := by
      have : createDatabaseText n false = wCreate ++ ' ' :: (wDatabase ++ ' ' :: n) := by
        simp [createDatabaseText]
      rw [this, words_space _ _ a1 (by decide), words_space _ _ a2 (by decide), words_single _ h h0]
    unfold createDatabaseName
    simp [hw]
  · have hw : words (createDatabaseText n true) = [wCreate, wDatabase, wIf, wNot, wExists, n] := by
      have : createDatabaseText n true = wCreate ++ ' ' :: (wDatabase ++ ' ' :: (wIf ++ ' ' :: (wNot ++ ' ' :: (wExists ++ ' ' :: n)))) := by
        simp [createDatabaseText]
      rw [this, words_space _ _ a1 (by decide), words_space _ _ a2 (by decide), words_space _ _ a3 (by decide), words_space _ _ a4 (by decide),
        words_space _ _ a5 (by decide), words_single _ h h0]
    unfold createDatabaseName
    simp [hw]

theorem useName_text {n : Name} (h : NoWs n) (h0 : n ≠ []) : useName (useText n) = some n := by
  have a1 : NoWs wUse := by unfold NoWs; decide
  unfold useName useText
  rw [words_space _ _ a1 (by decide), words_single _ h h0]
  rfl

/-! ## Columns -/

theorem setFk_eq (n : Name) (r : Name × Name) : ∀ (cols : List Col), (cols.map Col.name).Nodup →
    setFk n r cols = if n ∈ cols.map Col.name then some (cols.map fun c => if c.name = n then { c with fk := some r } else c) else none
  | [], _ => by simp [setFk]
  | c :: cs, h => by
    simp only [List.map_cons, List.nodup_cons] at h
    have ih := setFk_eq n r cs h.2
    unfold setFk
    by_cases hc : c.name = n
    · subst hc
      have : (cs.map fun x => if x.name = c.name then { x with fk := some r } else x) = cs := by
        have h2 : ∀ x ∈ cs, (if x.name = c.name then ({ x with fk := some r } : Col) else x) = id x := by
          intro x hx
          rw [if_neg]
          · rfl
          · intro e
            exact h.1 (List.mem_map.mpr ⟨x, hx, e⟩)
        rw [List.map_congr_left h2, List.map_id]
      simp [this]
    · rw [if_neg hc, ih]
      by_cases hm : n ∈ cs.map Col.name
      · rw [if_pos hm, List.map_cons, if_pos (List.mem_cons_of_mem _ hm)]
        simp [hc]
      · rw [if_neg hm, List.map_cons, if_neg]
        · rfl
        · intro hx
          rcases List.mem_cons.mp hx with hx | hx
          · exact hc hx.symm
          · exact hm hx

theorem declared_cons (f : FkDef) (fs : List FkDef) (n : Name) :
    declared (f :: fs) n = match declared fs n with
      | some r => some r
      | none => if f.cols.map Ident.value = [n] then some (text f.table, text f.refs) else none := by
  unfold declared
  rw [List.filter_cons]
  by_cases hf : f.cols.map Ident.value = [n]
  · rw [if_pos (by simpa using hf)]
    cases hl : (fs.filter fun f => f.cols.map Ident.value = [n]) with
    | nil => simp [hf]
    | cons g gs =>
      have : (f :: g :: gs).getLast? = (g :: gs).getLast? := by simp [List.getLast?_cons_cons]
      rw [this, List.getLast?_cons]
      rfl
  · rw [if_neg (by simpa using hf)]
    cases ((fs.filter fun f => f.cols.map Ident.value = [n]).getLast?).map fun f => (text f.table, text f.refs) with
    | none => simp [hf]
    | some r => rfl

theorem show_plain {n : ObjName} (h : PlainName n) : n.show = text n := by
  obtain ⟨v, rfl, _⟩ := h
  rfl

theorem addFks_eq : ∀ (fks : List FkDef) (cols : List Col), (cols.map Col.name).Nodup →
    (∀ f ∈ fks, (∃ i, f.cols = [i]) ∧ PlainName f.table ∧ ∃ i, f.refs = [i]) →
    addFks cols fks = if ∀ f ∈ fks, text f.cols ∈ cols.map Col.name then
      some (cols.map fun c => { c with fk := match declared fks c.name with | some r => some r | none => c.fk }) else none
  | [], cols, _, _ => by
    have hd : ∀ n, declared [] n = none := fun n => rfl
    have h2 : ∀ x ∈ cols, ({ x with fk := match declared [] x.name with | some r => some r | none => x.fk } : Col) = id x := fun x _ => rfl
    rw [List.map_congr_left h2, List.map_id]
    simp [addFks]
  | f :: fs, cols, hn, hf => by
    obtain ⟨⟨a, ha⟩, hp, b, hb⟩ := hf f (by simp)
    have hta : text f.cols = a.value := by rw [ha]; rfl
    unfold addFks
    simp only [ha, hb]
    rw [setFk_eq _ _ _ hn]
    by_cases hm : a.value ∈ cols.map Col.name
    · rw [if_pos hm]
      simp only
      have hnames : ((cols.map fun c => if c.name = a.value then ({ c with fk := some (f.table.show, b.value) } : Col) else c).map Col.name) = cols.map Col.name := by
        rw [List.map_map]
        apply List.map_congr_left
        intro x _
        simp only [Function.comp]
        split <;> rfl
      rw [addFks_eq fs _ (by rw [hnames]; exact hn) (fun g hg => hf g (List.mem_cons_of_mem _ hg)), hnames]
      by_cases hall : ∀ g ∈ fs, text g.cols ∈ cols.map Col.name
      · rw [if_pos hall, if_pos]
        · congr 1
          rw [List.map_map]
          apply List.map_congr_left
          intro x _
          simp only [Function.comp, declared_cons, ha, List.map_cons, List.map_nil]
          have e1 : ([a.value] = [x.name]) ↔ x.name = a.value := by
            constructor
            · intro h; simp at h; exact h.symm
            · intro h; rw [h]
          by_cases hx : x.name = a.value
          · rw [if_pos hx, if_pos (e1.mpr hx)]
            simp only [show_plain hp, hb]
            cases declared fs x.name <;> rfl
          · rw [if_neg hx, if_neg (fun h => hx (e1.mp h))]
            cases declared fs x.name <;> rfl
        · intro g hg
          rcases List.mem_cons.mp hg with rfl | hg
          · rw [hta]; exact hm
          · exact hall g hg
      · rw [if_neg hall, if_neg (fun h => hall (fun g hg => h g (List.mem_cons_of_mem _ hg)))]
    · rw [if_neg hm, if_neg]
      intro h
      have := h f (by simp)
      rw [hta] at this
      exact hm this

theorem convertCols_eq : ∀ (defs : List ColDef), (∀ d ∈ defs, d.name.quote = none) →
    (∀ d ∈ defs, ∀ r, d.ref = some r → PlainName r.1 ∧ ∃ i, r.2 = [i]) →
    convertCols defs = some (defs.map fun d => ⟨d.name.value, d.ty, d.ref.map fun r => (text r.1, text r.2)⟩)
  | [], _, _ => rfl
  | d :: ds, h1, h2 => by
    have ih := convertCols_eq ds (fun x hx => h1 x (List.mem_cons_of_mem _ hx)) (fun x hx => h2 x (List.mem_cons_of_mem _ hx))
    have hs : d.name.show = d.name.value := by
      unfold Ident.show
      rw [h1 d (by simp)]
    unfold convertCols
    rw [ih, hs]
    cases hr : d.ref with
    | none => simp [hr]
    | some r =>
      obtain ⟨t, cs⟩ := r
      obtain ⟨hp, i, hi⟩ := h2 d (by simp) _ hr
      simp only at hp hi
      subst hi
      simp only [Option.map_some, List.map_cons, hr, show_plain hp]
      rfl

/-- The columns the planner makes of a plain CREATE TABLE. -/
theorem planned (defs : List ColDef) (fks : List FkDef) (hn : (defs.map (·.name.value)).Nodup) (h1 : ∀ d ∈ defs, d.name.quote = none)
    (h2 : ∀ d ∈ defs, ∀ r, d.ref = some r → PlainName r.1 ∧ ∃ i, r.2 = [i])
    (h3 : ∀ f ∈ fks, (∃ i, f.cols = [i]) ∧ PlainName f.table ∧ ∃ i, f.refs = [i]) :
    (convertCols defs).isSome = true ∧
    (convertCols defs).bind (addFks · fks) = if ∀ f ∈ fks, text f.cols ∈ defs.map (·.name.value) then some (columns defs fks) else none := by
  rw [convertCols_eq defs h1 h2]
  refine ⟨rfl, ?_⟩
  simp only [Option.bind_some]
  have hnames : ((defs.map fun d => (⟨d.name.value, d.ty, d.ref.map fun r => (text r.1, text r.2)⟩ : Col)).map Col.name) = defs.map (·.name.value) := by
    rw [List.map_map]
    rfl
  rw [addFks_eq _ _ (by rw [hnames]; exact hn) h3, hnames]
  congr 1
  unfold columns
  rw [List.map_map]
  rfl

/-! ## Simulation -/

/-- The catalog stands for the abstract state. -/
structure Sim (c : Cat) (s : Spec) : Prop where
  cur : c.cur = s.cur
  db : ∀ d, (c.dbs.get d).isSome = s.db d
  tab : ∀ d n, (c.tab d n).map Tab.cols = s.tab d n

theorem sim_new : Sim (Cat.new none) Spec.new where
  cur := rfl
  db := by
    intro d
    unfold Cat.new Spec.new AMap.get
    by_cases h : d = defaultDb
    · subst h
      simp
    · have : ¬ defaultDb = d := fun e => h e.symm
      simp [h, this]
  tab := by
    intro d n
    rw [Cat.new_tab]
    rfl

/-- What a plain CREATE TABLE answers and does. -/
theorem execCreateTable_sim {c : Cat} {s : Spec} (hi : c.Inv) (hs : Sim c s) (e : Env) {n : ObjName} {defs : List ColDef} {fks : List FkDef} {ine : Bool}
    (hp : Plain (.createTable n defs fks ine)) :
    Sim (c.execCreateTable e n defs fks ine).2 (s.step (.createTable n defs fks ine)) ∧
    ((c.execCreateTable e n defs fks ine).1 = .ok true ↔ s.creatable (text n) defs fks ∨ (s.tab s.cur (text n)).isSome = true ∧ ine = true) := by
  obtain ⟨hpn, hdefs, hnd, hq, hr, hf⟩ := hp
  have hshow := show_plain hpn
  have hne : text n ≠ [] := by
    obtain ⟨v, rfl, hv⟩ := hpn
    exact hv
  obtain ⟨hconv, hplan⟩ := planned defs fks hnd hq hr hf
  have htab : ∀ m, (c.tab c.cur m).map Tab.cols = s.tab s.cur m := by
    intro m
    rw [hs.tab, hs.cur]
  have htabf : (fun m => (c.tab c.cur m).map Tab.cols) = s.tab s.cur := funext htab
  unfold Cat.execCreateTable
  simp only [hshow, if_neg hne, if_neg hdefs]
  cases hg : c.getTable (text n) with
  | some x =>
    have hx : (s.tab s.cur (text n)) = some x.cols := by
      rw [← htab, ← Cat.getTable_eq, hg]
      rfl
    have hnc : ¬ s.creatable (text n) defs fks := by
      intro h
      rw [h.1] at hx
      cases hx
    have hstep : s.step (.createTable n defs fks ine) = s := by
      simp only [Spec.step]
      rw [if_neg hnc]
    rw [hstep]
    simp only
    cases ine
    · simp only [Bool.false_eq_true, if_false]
      exact ⟨hs, by simp [hnc]⟩
    · cases hc : convertCols defs with
      | none => rw [hc] at hconv; cases hconv
      | some _ =>
        simp only [if_true]
        exact ⟨hs, by simp [hx]⟩
  | none =>
    have hx : (s.tab s.cur (text n)) = none := by
      rw [← htab, ← Cat.getTable_eq, hg]
      rfl
    simp only
    rw [hplan]
    by_cases hall : ∀ f ∈ fks, text f.cols ∈ defs.map (·.name.value)
    · rw [if_pos hall]
      simp only
      rcases Cat.createTable_cases hi (text n) (columns defs fks) e with ⟨h1, h2⟩ | ⟨t, c', h1, h2, h3, h4, h5, h6, h7, h8, h9, _, _, h10, h11, h12, _⟩
      · rw [h1]
        rw [htabf] at h2
        have hnc : ¬ s.creatable (text n) defs fks := by
          intro h
          exact h2 ⟨by rw [← Cat.getTable_eq]; exact hg, h.2.2⟩
        have hstep : s.step (.createTable n defs fks ine) = s := by
          simp only [Spec.step]
          rw [if_neg hnc]
        rw [hstep]
        exact ⟨hs, by simp [hnc, hx]⟩
      · rw [h1]
        rw [htabf] at h3
        have hcr : s.creatable (text n) defs fks := ⟨hx, hall, h3⟩
        refine ⟨?_, by simp [hcr]⟩
        have hstep : s.step (.createTable n defs fks ine) =
            { s with tab := fun d t => if d = s.cur ∧ t = text n then some (columns defs fks) else s.tab d t } := by
          simp only [Spec.step]
          rw [if_pos hcr]
        rw [hstep]
        constructor
        · simp only [h8, hs.cur]
        · intro d
          simp only [h11, hs.db]
        · intro d m
          simp only [h10, hs.cur]
          split
          · simp [h5]
          · exact hs.tab d m
    · rw [if_neg hall]
      have hnc : ¬ s.creatable (text n) defs fks := fun h => hall h.2.1
      have hstep : s.step (.createTable n defs fks ine) = s := by
        simp only [Spec.step]
        rw [if_neg hnc]
      rw [hstep]
      exact ⟨hs, by simp [hnc, hx]⟩

theorem exec_sim {c : Cat} {s : Spec} (hi : c.Inv) (hs : Sim c s) (e : Env) {st : Stmt} (hp : Plain st) : Sim (c.exec e st).2 (s.step st) := by
  cases st with
  | createTable n defs fks ine => exact (execCreateTable_sim hi hs e hp).1
  | createIndex nm t cols ine =>
    show Sim (c.execCreateIndex nm t cols).2 s
    rcases c.execCreateIndex_cases nm t cols with h1 | ⟨i, tn, attrs, h1⟩
    · rw [h1]; exact hs
    · rw [h1]
      obtain ⟨r1, _, _, _, r5⟩ := c.createIndex_rest i tn attrs
      exact ⟨by rw [r1]; exact hs.cur, fun d => by rw [r5]; exact hs.db d, fun d n => by rw [Cat.createIndex_tab]; exact hs.tab d n⟩
  | createDatabase n ine =>
    obtain ⟨i, rfl, h0, hw⟩ := hp
    show Sim (c.execCreateDatabase [i] ine).2 { s with db := fun d => s.db d || d = text [i] }
    unfold Cat.execCreateDatabase
    simp only [createDatabaseName_text hw h0]
    refine ⟨?_, fun d => ?_, fun d n => ?_⟩
    · have : (c.createDatabase i.value).2.cur = c.cur := by
        unfold Cat.createDatabase
        split <;> rfl
      rw [this]
      exact hs.cur
    · rw [Cat.createDatabase_db, hs.db]
      rfl
    · rw [Cat.createDatabase_tab]
      exact hs.tab d n
  | use n =>
    obtain ⟨i, rfl, h0, hw⟩ := hp
    show Sim (c.execUse [i]).2 (if s.db i.value then { s with cur := i.value } else s)
    unfold Cat.execUse
    simp only [useName_text hw h0]
    have hdb := hs.db i.value
    unfold Cat.useDatabase AMap.has
    rw [hdb]
    cases s.db i.value
    · exact hs
    · exact ⟨rfl, hs.db, hs.tab⟩
  | echo => exact hs
  | rollback => exact hs
  | other => exact hs

theorem run_sim (evs : List Ev) {c : Cat} {s : Spec} (hi : c.Inv) (hs : Sim c s) (hp : ∀ ev ∈ evs, PlainEv ev) : Sim (c.run evs) (s.run evs) := by
  induction evs generalizing c s with
  | nil => exact hs
  | cons ev evs ih =>
    have hrest := fun x hx => hp x (List.mem_cons_of_mem _ hx)
    cases ev with
    | stmt st e =>
      exact ih (hi.exec e st) (exec_sim hi hs e (hp (.stmt st e) (by simp))) hrest
    | page => exact ih (hi.step .page) ⟨hs.cur, hs.db, hs.tab⟩ hrest

end Verif.Catalog
