import Verif.Whole.NamedSpec
import Verif.Whole.Props
import Verif.Catalog.Props

/-!
# C142: a session from an empty database on
-/

namespace Verif.Whole

open Verif.Wire Verif.Bytes Verif.Sql Verif.Exec Verif.Dml Verif.Plan
open Verif.Catalog (Cat Tab Col ColDef FkDef ObjName)

/-! ## The catalog by numbers -/

/-- The table of a number. -/
def look (c : Cat) (t : Nat) : Option Tab := c.current.bind (·.tabs.get t)

/-- Every table has a name, and no two columns of a table have the same. -/
def Filed (c : Cat) : Prop := ∀ t tab, look c t = some tab → c.getTable tab.name = some tab ∧ tab.oid = t ∧ (tab.cols.map Col.name).Nodup

theorem look_of_name {c : Cat} (hi : c.Inv) {n : Catalog.Name} {tab : Tab} (h : c.getTable n = some tab) : look c tab.oid = some tab ∧ tab.name = n := by
  unfold Cat.getTable at h
  unfold look
  cases hc : c.current with
  | none => rw [hc] at h; cases h
  | some db =>
    rw [hc] at h
    have hok := hi.ok _ _ hc
    obtain ⟨h1, h2⟩ := hok.getTable h
    obtain ⟨_, t, h3, h4, h5⟩ := hok.tab _ _ h1
    have : db.getTable n = some t := by
      unfold Catalog.Db.getTable
      rw [h1]
      exact h3
    rw [show db.getTable n = some tab from h] at this
    cases this
    exact ⟨h3, h2⟩

theorem created_tabs {d d' : Catalog.Db} {n : Catalog.Name} {cols : List Col} {p : Option Nat} {tab : Tab} (hd : d.createTable n cols p = some (tab, d')) :
    d'.tabs = d.tabs.set d.nextTab tab := by
  unfold Catalog.Db.createTable at hd
  split at hd
  · cases hd
  split at hd
  · cases hd; rfl
  · cases hd

theorem create_cases {c : Cat} (hi : c.Inv) (hf : Filed c) (e : Catalog.Env) {n : ObjName} {defs : List ColDef} {fks : List FkDef} {ine : Bool}
    (hp : Catalog.Plain (.createTable n defs fks ine)) :
    (c.execCreateTable e n defs fks ine).2 = c ∨
    ∃ tab, tab.name = Catalog.text n ∧ (tab.cols.map Col.name).Nodup ∧ look c tab.oid = none ∧ c.getTable (Catalog.text n) = none ∧
      (∀ t, look (c.execCreateTable e n defs fks ine).2 t = if t = tab.oid then some tab else look c t) ∧
      ∀ m, (c.execCreateTable e n defs fks ine).2.getTable m = if m = Catalog.text n then some tab else c.getTable m := by
  obtain ⟨hpn, hdefs, hnd, hq, hr, hfk⟩ := hp
  have hshow := Catalog.show_plain hpn
  obtain ⟨hconv, hplan⟩ := Catalog.planned defs fks hnd hq hr hfk
  rcases c.execCreateTable_cases e n defs fks ine with h | ⟨h, _⟩ | ⟨cols, h1, h⟩
  · exact .inl (by rw [h])
  · exact .inl (by rw [h])
  rw [h]
  rw [hshow]
  have hcols : (cols.map Col.name).Nodup := by
    rw [hplan] at h1
    split at h1
    · cases h1
      unfold Catalog.columns
      rw [List.map_map]
      exact hnd
    · cases h1
  show (c.createTable (Catalog.text n) cols e).2 = c ∨ _
  unfold Cat.createTable
  cases hc : c.current with
  | none => exact .inl rfl
  | some d =>
    have hok := hi.ok _ _ hc
    dsimp only
    cases hd : d.createTable (Catalog.text n) cols (if e.room then some c.page else none) with
    | none => exact .inl rfl
    | some q =>
      obtain ⟨tab, d'⟩ := q
      obtain ⟨k1, k2, k3, k4, k5, _, _, _, k6⟩ := Catalog.Db.createTable_some hok hd
      have htabs := created_tabs hd
      have hcur : ∀ x : Cat, x.dbs = (c.put d').dbs → x.cur = c.cur → x.current = some d' := by
        intro x h1 h2
        unfold Cat.current
        rw [h1, h2]
        simp [Cat.put, AMap.get_set]
      have hrec : ∀ x : Cat, (x.record tab e.kept).dbs = x.dbs ∧ (x.record tab e.kept).cur = x.cur := by
        intro x
        unfold Cat.record
        split <;> exact ⟨rfl, rfl⟩
      have hcur' : (({ c.put d' with page := if e.room then c.page + 1 else c.page } : Cat).record tab e.kept).current = some d' :=
        hcur _ (hrec _).1 (hrec _).2
      refine .inr ⟨tab, by rw [k3], by rw [k3]; exact hcols, ?_, ?_, fun t => ?_, fun m => ?_⟩
      · cases hl : look c tab.oid with
        | none => rfl
        | some x =>
          obtain ⟨g1, g2, _⟩ := hf _ _ hl
          unfold Cat.getTable at g1
          rw [hc] at g1
          have := (hok.tab _ _ (hok.getTable g1).1).1
          rw [g2, k3] at this
          exact absurd this (Nat.lt_irrefl _)
      · unfold Cat.getTable
        rw [hc]
        exact k1
      · unfold look
        dsimp only
        rw [hcur', hc, Option.bind_some, Option.bind_some, htabs, AMap.get_set, k3]
        by_cases ht : d.nextTab = t
        · subst ht; simp
        · rw [if_neg ht, if_neg (fun h => ht h.symm)]
      · unfold Cat.getTable
        dsimp only
        rw [hcur', hc, Option.bind_some, Option.bind_some, k6]

/-! ## Tables that are not there -/

/-- The state of a table that is not there. -/
def blank (v : Server) : St := match v.active with
  | none => .idle []
  | some _ => .busy [] [] False

theorem blank_blank (v : Server) : Blank (blank v) := by
  unfold blank
  cases v.active with
  | none => rfl
  | some _ => exact ⟨rfl, rfl, id⟩

theorem blank_congr {v v' : Server} (h : v'.active.map (·.1) = v.active.map (·.1)) : blank v' = blank v := by
  unfold blank
  cases hv : v.active <;> cases hv' : v'.active <;> rw [hv, hv'] at h <;> first | rfl | cases h

/-- The requests that are the same for all tables. -/
def simple : Req → Option Dml.Req
  | .begin => some .begin
  | .commit => some .commit
  | .rollback => some .rollback
  | _ => none

theorem nextDb_simple {d : Disk} {ext : Value → Nat → Option Value} {cat : Catalog} {ch : Choices} {σ σ' : Tables} {r : Req} {a' : Reply} {r' : Dml.Req} (N : NextDb d ext cat ch σ r a' σ')
    (hr : simple r = some r') : ∃ a, a' = answered a ∧ ∀ t, Next d ext (cat.cols t) (σ t) r' a (σ' t) := by
  cases N with
  | query _ => cases hr
  | select _ => cases hr
  | begin h => cases hr; exact ⟨_, rfl, h⟩
  | commit h => cases hr; exact ⟨_, rfl, h⟩
  | rollback h => cases hr; exact ⟨_, rfl, h⟩

theorem answered_inj {a b : Answer} (h : answered a = answered b) : a = b := by
  cases a <;> cases b <;> simp_all [answered]

theorem simple_next {d : Disk} {ext : Value → Nat → Option Value} {seen : Server → Nat → Seen} {cat : Catalog} {ch : Choices} {v v' : Server} {x : Call} {r' : Dml.Req}
    (S : Server.Step d ext seen cat ch v x v') (hr : simple x.req = some r') :
    ∃ a, x.reply = answered a ∧ (∀ cols, Next d ext cols (blank v) r' a (blank v')) ∧
      ∀ t n trs, v'.active = some (n, trs) → trs t = [] ∨ ∃ trs0, v.active = some (n, trs0) ∧ trs t = trs0 t := by
  cases S with
  | query _ => cases hr
  | select _ _ => cases hr
  | begin h =>
    cases hr
    refine ⟨.ok, rfl, fun cols => ?_, fun t n trs h => by cases h; exact .inl rfl⟩
    simp only [blank, h]
    exact .begin
  | begun h =>
    cases hr
    refine ⟨.error, rfl, fun cols => ?_, fun t n trs h => .inr ⟨_, h, rfl⟩⟩
    simp only [blank, h]
    exact .begun
  | commit h _ =>
    cases hr
    refine ⟨.ok, rfl, fun cols => ?_, fun t n trs h => by cases h⟩
    simp only [blank, h]
    exact .commit
  | rollback h _ =>
    cases hr
    refine ⟨.ok, rfl, fun cols => ?_, fun t n trs h => by cases h⟩
    simp only [blank, h]
    exact .rollback
  | noCommit h =>
    cases hr
    refine ⟨.error, rfl, fun cols => ?_, fun t n trs h => .inr ⟨_, h, rfl⟩⟩
    simp only [blank, h]
    exact .noCommit
  | noRollback h =>
    cases hr
    refine ⟨.error, rfl, fun cols => ?_, fun t n trs h => .inr ⟨_, h, rfl⟩⟩
    simp only [blank, h]
    exact .noRollback

theorem next_det {d : Disk} {ext : Value → Nat → Option Value} {cols cols' : List Column} {st st1 st2 : St} {r : Dml.Req} {a : Answer} (hr : ∀ s, r ≠ .query s)
    (h1 : Next d ext cols st r a st1) (h2 : Next d ext cols' st r a st2) : st1 = st2 := by
  cases h1 with
  | alone _ _ => exact absurd rfl (hr _)
  | within _ => exact absurd rfl (hr _)
  | begin => cases h2; rfl
  | begun => cases h2; rfl
  | commit => cases h2; rfl
  | rollback => cases h2; rfl
  | noCommit => cases h2; rfl
  | noRollback => cases h2; rfl

theorem simple_ne {r : Req} {r' : Dml.Req} (h : simple r = some r') (s : Stmt) : r' ≠ .query s := by
  rintro rfl
  cases r <;> cases h

theorem query_put {d : Disk} {ext : Value → Nat → Option Value} {seen : Server → Nat → Seen} {cat : Catalog} {ch : Choices} {v v' : Server} {x : Call} {t : Nat} {s : Stmt}
    (S : Server.Step d ext seen cat ch v x v') (hr : x.req = .query t s) :
    v'.active.map (·.1) = v.active.map (·.1) ∧ ∀ u, u ≠ t → ∀ n trs, v'.active = some (n, trs) → ∃ trs0, v.active = some (n, trs0) ∧ trs u = trs0 u := by
  cases S with
  | @query t' s' a b c S =>
    cases hr
    have ha := query_active S
    simp only [Server.conn, Option.map_map] at ha
    have ha : c.active.map (·.1) = v.active.map (·.1) := by
      rw [ha]
      rfl
    unfold Server.put
    cases hc : c.active with
    | none =>
      rw [hc] at ha
      cases hv : v.active with
      | none => exact ⟨rfl, fun u _ n trs h => by cases h⟩
      | some b => rw [hv] at ha; cases ha
    | some a =>
      rw [hc] at ha
      cases hv : v.active with
      | none => rw [hv] at ha; cases ha
      | some b =>
        rw [hv] at ha
        refine ⟨ha, fun u hu n trs h => ?_⟩
        cases h
        have : a.1 = b.1 := by simpa using ha
        exact ⟨b.2, by rw [this], by simp [hu]⟩
  | select _ _ => cases hr
  | begin _ => cases hr
  | begun _ => cases hr
  | commit _ _ => cases hr
  | rollback _ _ => cases hr
  | noCommit _ => cases hr
  | noRollback _ => cases hr

/-! ## The invariant -/

/-- The session stands for the database; `τ` are the tables by their numbers. -/
structure Agrees (s : Session) (σ : NDb) (τ : Tables) : Prop where
  inv : s.cat.Inv
  filed : Filed s.cat
  sim : Catalog.Sim s.cat σ.sch
  good : ∀ t, Good (s.srv.conn t) (τ t)
  named : ∀ n tab, s.cat.getTable n = some tab → σ.st n = τ tab.oid
  nameless : ∀ n, s.cat.getTable n = none → σ.st n = blank s.srv
  unused : ∀ t, look s.cat t = none → τ t = blank s.srv
  quiet : ∀ t n trs, look s.cat t = none → s.srv.active = some (n, trs) → trs t = []

theorem Agrees.tab {s : Session} {σ : NDb} {τ : Tables} (A : Agrees s σ τ) (n : Catalog.Name) : σ.tab n = (s.cat.getTable n).map Tab.cols := by
  unfold NDb.tab
  rw [← A.sim.cur, ← A.sim.tab, Cat.getTable_eq]

theorem good_new {v : Server} {t : Nat} {first : Option Nat} (hq : ∀ n trs, v.active = some (n, trs) → trs t = []) (G : Good (v.conn t) (blank v)) :
    Good ⟨.new first, v.next t, v.txn, v.active.map fun a => (a.1, a.2 t)⟩ (blank v) := by
  have hk := good_ne G
  unfold blank at G ⊢
  unfold Server.conn at G hk
  cases ha : v.active with
  | none => exact .idle hk (holds_new _)
  | some a =>
    rw [ha] at G
    dsimp only [Option.map_some] at G ⊢
    rw [hq a.1 a.2 ha]
    obtain ⟨l, T, hl, hc⟩ := holds_new first
    have hnil : ∀ x ∈ l, x.2.info.deleted = true := by
      intro x hx
      cases hd : x.2.info.deleted with
      | true => rfl
      | false =>
        have : x ∈ l ∧ x.2.info.deleted = false := ⟨hx, hd⟩
        exact absurd hl (by
          intro h
          have hm : (x.1, x.2.row) ∈ live l := by
            unfold live
            exact List.mem_filterMap.2 ⟨x, hx, by simp [hd]⟩
          rw [List.map_eq_nil_iff] at h
          rw [h] at hm
          cases hm)
    cases G with
    | busy _ ht _ =>
      refine .busy hk ht ⟨l, T, ?_, ?_⟩
      · unfold tagged
        rw [List.filterMap_eq_nil_iff]
        intro x hx
        simp [hnil x hx]
      · have := Inv.begin (t := a.1) hc
        rw [hl] at this
        exact this

theorem view_cols {decl : Col → Column} {c : Cat} {tab : Tab} {t : Nat} (h : look c t = some tab) : (view decl c).cols t = tab.cols.map decl := by
  unfold view
  dsimp only
  unfold look at h
  rw [h]

theorem view_distinct {decl : Col → Column} (hn : ∀ c, (decl c).name = str c.name) {c : Cat} (hf : Filed c) (t : Nat) : Distinct ((view decl c).cols t) := by
  cases h : look c t with
  | none =>
    have : (view decl c).cols t = [] := by
      unfold view
      dsimp only
      unfold look at h
      rw [h]
    rw [this]
    exact List.nodup_nil
  | some tab =>
    rw [view_cols h]
    unfold Distinct
    rw [List.map_map, show ((fun x : Column => x.name) ∘ decl) = str ∘ Col.name from funext hn, ← List.map_map]
    exact List.Pairwise.map _ (fun a b hab he => hab (by
      unfold str at he
      exact String.ofList_injective he)) (hf t tab h).2.2

theorem lookup_over {s : Session} {σ : NDb} {τ : Tables} (A : Agrees s σ τ) {nf : NFrom} (hp : nf.Plain) :
    nf.lookup s.cat = nf.over σ.tab (fun m => ((s.cat.getTable m).map Tab.oid).getD 0) := by
  induction nf with
  | table n a =>
    obtain ⟨v, rfl, _⟩ := hp
    unfold NFrom.lookup NFrom.over
    rw [A.tab]
    show (s.cat.getTable v).map _ = ((s.cat.getTable v).map Tab.cols).map _
    cases h : s.cat.getTable v with
    | none => rfl
    | some tab =>
      obtain ⟨_, hname⟩ := look_of_name A.inv h
      simp only [Option.map_some, Catalog.text, h, hname, Option.getD_some]
  | join op l r k ihl ihr =>
    rw [NFrom.lookup, NFrom.over, ihl hp.1, ihr hp.2]
    generalize NFrom.over _ _ l = a
    generalize NFrom.over _ _ r = b
    cases a <;> cases b <;> rfl

/-- Whether a FROM can be read does not depend on the numbers of the tables. -/
theorem over_isSome (tab : Catalog.Name → Option (List Col)) (num num' : Catalog.Name → Nat) (nf : NFrom) : (nf.over tab num).isSome = (nf.over tab num').isSome := by
  induction nf with
  | table n a => simp [NFrom.over]
  | join op l r k ihl ihr =>
    rw [NFrom.over, NFrom.over]
    generalize NFrom.over tab num l = a at *
    generalize NFrom.over tab num r = b at *
    generalize NFrom.over tab num' l = a' at *
    generalize NFrom.over tab num' r = b' at *
    cases a <;> cases b <;> cases a' <;> cases b' <;> simp_all

theorem looked_up {decl : Col → Column} (hn : ∀ c, (decl c).name = str c.name) {c : Cat} (hi : c.Inv) {nf : NFrom} {f : From} (hp : nf.Plain) (h : nf.lookup c = some f) :
    LookedUp (view decl c) f := by
  induction nf generalizing f with
  | table n a =>
    obtain ⟨v, rfl, _⟩ := hp
    obtain ⟨tab, ht, rfl⟩ := Option.map_eq_some_iff.1 h
    have hl := (look_of_name hi (show c.getTable v = some tab from ht)).1
    intro T hT
    cases List.mem_singleton.1 hT
    refine ⟨?_, ?_⟩
    · unfold view
      dsimp only
      unfold look at hl
      rw [hl]
      rfl
    · rw [view_cols hl, List.map_map]
      exact (List.map_congr_left fun x _ => (hn x).symm)
  | join op l r k ihl ihr =>
    rw [NFrom.lookup] at h
    split at h
    · next hl hr =>
      cases h
      intro T hT
      rcases List.mem_append.1 hT with hT | hT
      · exact ihl hp.1 hl T hT
      · exact ihr hp.2 hr T hT
    · cases h

theorem target_plain {c : Cat} {n : ObjName} (hp : Catalog.PlainName n) (s : Stmt) : target c n s = c.getTable (Catalog.text n) := by
  obtain ⟨v, rfl, _⟩ := hp
  cases s <;> rfl

theorem tick_active (v : Server) : v.tick.active = v.active := rfl

theorem good_tick {v : Server} {t : Nat} {st : St} (G : Good (v.conn t) st) : Good (v.tick.conn t) st := by
  refine good_txn ?_ G
  have := good_ne G
  simp only [Server.conn] at this
  unfold Server.tick
  dsimp only
  split
  · exact Nat.succ_ne_zero _
  · exact this

theorem Agrees.tick {s : Session} {σ : NDb} {τ : Tables} (A : Agrees s σ τ) : Agrees ⟨s.cat, s.srv.tick⟩ σ τ where
  inv := A.inv
  filed := A.filed
  sim := A.sim
  good t := good_tick (A.good t)
  named := A.named
  nameless := A.nameless
  unused := A.unused
  quiet := A.quiet

theorem creates {d : Disk} {ext : Value → Nat → Option Value} {decl : Col → Column} {ch : Choices} {s : Session} {σ : NDb} {τ : Tables} (A : Agrees s σ τ) {n : ObjName}
    {defs : List ColDef} {fks : List FkDef} {ine : Bool} (hp : Catalog.Plain (.createTable n defs fks ine)) (e : Catalog.Env) {p : Nat} (hpage : s.cat.page ≤ p) :
    ∃ σ', NextN d ext decl ch σ (.create n defs fks ine) (outReply (Cat.execCreateTable { s.cat with page := p } e n defs fks ine).1) σ' ∧
      Agrees ⟨(Cat.execCreateTable { s.cat with page := p } e n defs fks ine).2, s.srv.create s.cat (Cat.execCreateTable { s.cat with page := p } e n defs fks ine).2⟩ σ' τ := by
  have hi : ({ s.cat with page := p } : Cat).Inv := A.inv.same A.inv.cur A.inv.ok (fun _ _ => rfl) hpage
  have hs : Catalog.Sim { s.cat with page := p } σ.sch := ⟨A.sim.cur, A.sim.db, A.sim.tab⟩
  have hf : Filed { s.cat with page := p } := A.filed
  have hl : ∀ t, look { s.cat with page := p } t = look s.cat t := fun _ => rfl
  have hg : ∀ m, Cat.getTable { s.cat with page := p } m = s.cat.getTable m := fun _ => rfl
  obtain ⟨h1, h2⟩ := Catalog.execCreateTable_sim hi hs e hp
  have hI : (Cat.execCreateTable { s.cat with page := p } e n defs fks ine).2.Inv := hi.exec e (.createTable n defs fks ine)
  have hout : (Cat.execCreateTable { s.cat with page := p } e n defs fks ine).1 = .error ∨ (Cat.execCreateTable { s.cat with page := p } e n defs fks ine).1 = .ok true := by
    rcases Cat.execCreateTable_cases { s.cat with page := p } e n defs fks ine with h | ⟨h, _⟩ | ⟨cols, _, h⟩
    · exact .inl (by rw [h])
    · exact .inr (by rw [h])
    · rw [h]
      dsimp only
      cases (Cat.createTable { s.cat with page := p } n.show cols e).1
      · exact .inl rfl
      · exact .inr rfl
  have hc := create_cases hi hf e hp
  generalize Cat.execCreateTable { s.cat with page := p } e n defs fks ine = q at *
  obtain ⟨out, c'⟩ := q
  dsimp only at h1 h2 hI hout hc ⊢
  refine ⟨⟨σ.sch.step (.createTable n defs fks ine), σ.st⟩, ?_, ?_⟩
  · by_cases hcr : σ.sch.creatable (Catalog.text n) defs fks
    · rw [h2.2 (.inl hcr)]
      refine .created hcr ?_
      rw [A.nameless _ ?_]
      · exact blank_blank _
      · have := A.tab (Catalog.text n)
        rw [show σ.tab (Catalog.text n) = none from hcr.1] at this
        exact Option.map_eq_none_iff.1 this.symm
    · have hstep : σ.sch.step (.createTable n defs fks ine) = σ.sch := by
        simp only [Catalog.Spec.step]
        rw [if_neg hcr]
      rw [hstep]
      by_cases hex : (σ.sch.tab σ.sch.cur (Catalog.text n)).isSome = true ∧ ine = true
      · rw [h2.2 (.inr hex)]
        obtain ⟨hex, rfl⟩ := hex
        exact .exists_ hex
      · rcases hout with ho | ho
        · rw [ho]
          exact .refused hcr hex
        · rcases h2.1 ho with h | h
          · exact absurd h hcr
          · exact absurd h hex
  · rcases hc with hc | ⟨tab, t1, t2, t3, t4, t5, t6⟩
    · have hsame : ∀ t, (s.srv.create s.cat c').heap t = s.srv.heap t := by
        intro t
        have : look c' t = look s.cat t := by rw [hc]; rfl
        unfold look at this
        unfold Server.create
        dsimp only
        rw [this]
        cases s.cat.current.bind (·.tabs.get t) <;> rfl
      have hgt : ∀ m, c'.getTable m = s.cat.getTable m := by intro m; rw [hc]; rfl
      have hlk : ∀ t, look c' t = look s.cat t := by intro t; rw [hc]; rfl
      exact {
        inv := hI
        filed := by rw [hc]; exact hf
        sim := h1
        good := fun t => by
          have := A.good t
          unfold Server.conn at this ⊢
          rw [hsame]
          exact this
        named := fun m tab h => A.named m tab (hgt m ▸ h)
        nameless := fun m h => A.nameless m (hgt m ▸ h)
        unused := fun t h => A.unused t (hlk t ▸ h)
        quiet := fun t k trs h => A.quiet t k trs (hlk t ▸ h) }
    · have hheap : ∀ t, (s.srv.create s.cat c').heap t = if t = tab.oid then .new tab.first else s.srv.heap t := by
        intro t
        have h := t5 t
        rw [hl] at h
        unfold Server.create
        dsimp only
        unfold look at h t3
        rw [h]
        by_cases ht : t = tab.oid
        · subst ht
          rw [if_pos rfl, if_pos rfl]
          rw [show s.cat.current.bind (·.tabs.get tab.oid) = none from t3]
        · rw [if_neg ht, if_neg ht]
          cases s.cat.current.bind (·.tabs.get t) <;> rfl
      have hun : look s.cat tab.oid = none := t3
      exact {
        inv := hI
        filed := by
          intro t x hx
          rw [t5] at hx
          by_cases ht : t = tab.oid
          · rw [if_pos ht] at hx
            cases hx
            exact ⟨by rw [t6, if_pos t1], ht.symm, t2⟩
          · rw [if_neg ht] at hx
            obtain ⟨g1, g2, g3⟩ := hf t x hx
            refine ⟨?_, g2, g3⟩
            rw [t6, if_neg, g1]
            intro he
            rw [he, t4] at g1
            cases g1
        sim := h1
        good := fun t => by
          have G := A.good t
          unfold Server.conn at G ⊢
          rw [hheap]
          by_cases ht : t = tab.oid
          · subst ht
            rw [if_pos rfl]
            rw [A.unused _ hun] at G ⊢
            exact good_new (v := s.srv) (fun k trs h => A.quiet _ k trs hun h) G
          · rw [if_neg ht]
            exact G
        named := fun m x h => by
          rw [t6] at h
          by_cases hm : m = Catalog.text n
          · rw [if_pos hm] at h
            cases h
            show σ.st m = _
            rw [A.unused _ hun, hm, A.nameless _ t4]
          · rw [if_neg hm] at h
            exact A.named m x h
        nameless := fun m h => by
          rw [t6] at h
          by_cases hm : m = Catalog.text n
          · rw [if_pos hm] at h
            cases h
          · rw [if_neg hm] at h
            exact A.nameless m h
        unused := fun t h => by
          rw [t5] at h
          split at h
          · cases h
          · exact A.unused t h
        quiet := fun t k trs h => by
          rw [t5] at h
          split at h
          · cases h
          · exact A.quiet t k trs h }

theorem simple_step {d : Disk} {ext : Value → Nat → Option Value} {seen : Cat → Server → Nat → Seen} {decl : Col → Column} {ch : Choices} (hr : Readable d) (hs : Sane d) (hf : Fresh d)
    (hx : TypedExt ext) (hn : ∀ c, (decl c).name = str c.name) (hdr : ∀ l, (ch.drain l).Perm l) {s : Session} {v : Server} {x : Call} {σ : NDb} {τ : Tables} {r' : Dml.Req}
    (hreq : simple x.req = some r') (S : Server.Step d ext (seen s.cat) (view decl s.cat) ch s.srv x v) (hcomp : ∀ t, x.complete t = true)
    (hcov : CoveredDb x.req τ) (A : Agrees s σ τ) :
    ∃ (st : Catalog.Name → St) (τ' : Tables) (a : Answer), x.reply = answered a ∧ (∀ m, Next d ext (((σ.tab m).getD []).map decl) (σ.st m) r' a (st m)) ∧
      Agrees ⟨s.cat, v⟩ ⟨σ.sch, st⟩ τ' := by
  obtain ⟨τ', N, G⟩ := server_step hr hs hf hx (view_distinct hn A.filed) hdr S hcomp hcov A.good
  obtain ⟨a, ha, N⟩ := nextDb_simple N hreq
  obtain ⟨a', ha', B, Q⟩ := simple_next S hreq
  cases answered_inj (ha.symm.trans ha')
  refine ⟨fun m => match s.cat.getTable m with | some tab => τ' tab.oid | none => blank v, τ', a, ha, fun m => ?_, ?_⟩
  · dsimp only
    rw [A.tab]
    cases h : s.cat.getTable m with
    | none =>
      dsimp only
      rw [A.nameless m h]
      exact B _
    | some tab =>
      dsimp only
      have := N tab.oid
      rw [view_cols (look_of_name A.inv h).1, ← A.named m tab h] at this
      exact this
  · exact {
      inv := A.inv
      filed := A.filed
      sim := A.sim
      good := G
      named := fun m tab h => by
        have h : s.cat.getTable m = some tab := h
        show (match s.cat.getTable m with | some tab => τ' tab.oid | none => blank v) = _
        rw [h]
      nameless := fun m h => by
        have h : s.cat.getTable m = none := h
        show (match s.cat.getTable m with | some tab => τ' tab.oid | none => blank v) = _
        rw [h]
      unused := fun t h => by
        have := N t
        rw [A.unused t h] at this
        exact next_det (simple_ne hreq) this (B [])
      quiet := fun t n trs h hv => by
        rcases Q t n trs hv with h' | ⟨trs0, h1, h2⟩
        · exact h'
        · rw [h2]
          exact A.quiet t n trs0 h h1 }

theorem session_step {d : Disk} {ext : Value → Nat → Option Value} {seen : Cat → Server → Nat → Seen} {decl : Col → Column} {ch : Choices} (hr : Readable d) (hs : Sane d) (hf : Fresh d)
    (hx : TypedExt ext) (hn : ∀ c, (decl c).name = str c.name) (hdr : ∀ l, (ch.drain l).Perm l) {s s' : Session} {x : NCall} {σ : NDb} {τ : Tables}
    (S : Session.Step d ext seen decl ch s x s') (hp : x.req.Plain) (hcomp : ∀ t, x.complete t = true) (hcov : CoveredN x.req σ) (A : Agrees s σ τ) :
    ∃ σ' τ', NextN d ext decl ch σ x.req x.reply σ' ∧ Agrees s' σ' τ' := by
  cases S with
  | @create n cols fks ine e p hpage =>
    obtain ⟨σ', h1, h2⟩ := creates A hp e hpage
    exact ⟨σ', τ, h1, h2.tick⟩
  | @query n st t a b v ht S =>
    have hn' : Catalog.PlainName n := hp
    rw [target_plain hn'] at ht
    have hl := (look_of_name A.inv ht).1
    have hst := A.named _ _ ht
    obtain ⟨τ', N, G⟩ := server_step hr hs hf hx (view_distinct hn A.filed) hdr S hcomp (by
      show Covered (.query st) (τ t.oid)
      rw [← hst]
      exact hcov) A.good
    obtain ⟨p1, p2⟩ := query_put S rfl
    obtain ⟨a', st', rfl, N1, rfl⟩ : ∃ a' st', a = answered a' ∧ Next d ext ((view decl s.cat).cols t.oid) (τ t.oid) (.query st) a' st' ∧ τ' = fun u => if u = t.oid then st' else τ u := by
      generalize hreq : (⟨.query t.oid st, a, b⟩ : Call) = y at N
      have h1 : y.req = .query t.oid st := by rw [← hreq]
      have h2 : y.reply = a := by rw [← hreq]
      rw [h1, h2] at N
      cases N with
      | query N => exact ⟨_, _, rfl, N, rfl⟩
    rw [view_cols hl, ← hst] at N1
    refine ⟨_, fun u => if u = t.oid then st' else τ u, .query (by rw [A.tab, ht]; rfl) N1, ?_⟩
    exact {
      inv := A.inv
      filed := A.filed
      sim := A.sim
      good := G
      named := fun m x h => by
        have h : s.cat.getTable m = some x := h
        dsimp only
        by_cases hm : m = Catalog.text n
        · subst hm
          rw [ht] at h
          cases h
          rw [if_pos rfl, if_pos rfl]
        · rw [if_neg hm, if_neg, A.named m x h]
          intro he
          have h1 := look_of_name A.inv h
          rw [he, hl] at h1
          cases h1.1
          exact hm (h1.2.symm.trans (look_of_name A.inv ht).2)
      nameless := fun m h => by
        have h : s.cat.getTable m = none := h
        dsimp only
        rw [if_neg, A.nameless m h]
        · exact (blank_congr p1).symm
        · rintro rfl
          rw [ht] at h
          cases h
      unused := fun u h => by
        have h : look s.cat u = none := h
        dsimp only
        rw [if_neg, A.unused u h]
        · exact (blank_congr p1).symm
        · rintro rfl
          rw [hl] at h
          cases h
      quiet := fun u k trs h hv => by
        have h : look s.cat u = none := h
        obtain ⟨trs0, g1, g2⟩ := p2 u (by rintro rfl; rw [hl] at h; cases h) k trs hv
        rw [g2]
        exact A.quiet u k trs0 h g1 }
  | @noTable n st ht =>
    have hn' : Catalog.PlainName n := hp
    rw [target_plain hn'] at ht
    exact ⟨σ, τ, .noTable (by rw [A.tab, ht]; rfl), A.tick⟩
  | @select nf f q a b v hl S =>
    have hp' : nf.Plain := hp
    cases S with
    | @select _ _ r hlk S =>
      refine ⟨σ, τ, .select (num := fun m => ((s.cat.getTable m).map Tab.oid).getD 0) (rows := τ.rows) ?_ ?_ ?_ (says hdr (fun t => good_scan hr (A.good t)) hlk S), A.tick⟩
      · intro m m' h h' he
        rw [A.tab, Option.isSome_map] at h h'
        obtain ⟨x, hx⟩ := Option.isSome_iff_exists.1 h
        obtain ⟨y, hy⟩ := Option.isSome_iff_exists.1 h'
        rw [hx, hy] at he
        have he : x.oid = y.oid := he
        obtain ⟨g1, g2⟩ := look_of_name A.inv hx
        obtain ⟨k1, k2⟩ := look_of_name A.inv hy
        rw [he, k1] at g1
        cases g1
        exact g2.symm.trans k2
      · intro m h
        rw [A.tab, Option.isSome_map] at h
        obtain ⟨x, hx⟩ := Option.isSome_iff_exists.1 h
        rw [hx]
        show (τ x.oid).rows = _
        rw [A.named m x hx]
      · rw [← lookup_over A hp']
        exact hl
  | @noFrom nf q hl =>
    have hp' : nf.Plain := hp
    refine ⟨σ, τ, .noFrom fun num => ?_, A.tick⟩
    rw [lookup_over A hp'] at hl
    have := over_isSome σ.tab num (fun m => ((s.cat.getTable m).map Tab.oid).getD 0) nf
    rw [hl] at this
    exact Option.isNone_iff_eq_none.1 (by cases h : nf.over σ.tab num <;> simp_all)
  | begin S =>
    obtain ⟨st, τ', a, rfl, N, A'⟩ := simple_step hr hs hf hx hn hdr rfl S hcomp trivial A
    exact ⟨_, τ', .begin N, A'⟩
  | commit S =>
    obtain ⟨st, τ', a, rfl, N, A'⟩ := simple_step hr hs hf hx hn hdr rfl S hcomp trivial A
    exact ⟨_, τ', .commit N, A'⟩
  | rollback S =>
    obtain ⟨st, τ', a, rfl, N, A'⟩ := simple_step hr hs hf hx hn hdr rfl S hcomp (fun t => by
      cases hl : look s.cat t with
      | none =>
        rw [A.unused t hl]
        unfold blank
        cases s.srv.active
        · trivial
        · exact id
      | some tab =>
        obtain ⟨g1, g2, _⟩ := A.filed t tab hl
        have := hcov tab.name
        rw [A.named _ _ g1, g2] at this
        exact this) A
    exact ⟨_, τ', .rollback N, A'⟩

theorem session_run {d : Disk} {ext : Value → Nat → Option Value} {seen : Cat → Server → Nat → Seen} {decl : Col → Column} {ch : Choices} (hr : Readable d) (hs : Sane d) (hf : Fresh d)
    (hx : TypedExt ext) (hn : ∀ c, (decl c).name = str c.name) (hdr : ∀ l, (ch.drain l).Perm l) {s s' : Session} {xs : List NCall} {σ : NDb} {τ : Tables}
    (R : Session.Run d ext seen decl ch s xs s') (hp : ∀ x ∈ xs, x.req.Plain) (hcomp : ∀ x ∈ xs, ∀ t, x.complete t = true)
    (hcov : ∀ pre x post, xs = pre ++ x :: post → ∀ σ', NextsN d ext decl ch σ pre σ' → CoveredN x.req σ') (A : Agrees s σ τ) :
    ∃ σ' τ', NextsN d ext decl ch σ xs σ' ∧ Agrees s' σ' τ' := by
  induction R generalizing σ τ with
  | nil => exact ⟨σ, τ, .nil, A⟩
  | @cons s x s1 xs s2 S _ ih =>
    obtain ⟨σ1, τ1, g1, g2⟩ := session_step hr hs hf hx hn hdr S (hp x List.mem_cons_self) (hcomp x List.mem_cons_self) (hcov [] x xs rfl σ .nil) A
    obtain ⟨σ2, τ2, k1, k2⟩ := ih (fun y hy => hp y (List.mem_cons_of_mem _ hy)) (fun y hy => hcomp y (List.mem_cons_of_mem _ hy))
      (fun pre y post e σ' h => hcov (x :: pre) y post (by rw [e]; rfl) σ' (.cons g1 h)) g2
    exact ⟨σ2, τ2, .cons g1 k1, k2⟩

theorem agrees_new {next : Nat → Int} {txn : Nat} (hne : txn ≠ 0) : Agrees (.new next txn) .new (fun _ => .idle []) := by
  have hlook : ∀ t, look (Session.new next txn).cat t = none := by
    intro t
    show look (Cat.boot none) t = none
    rw [Cat.boot_none]
    rfl
  have hget : ∀ n, (Session.new next txn).cat.getTable n = none := by
    intro n
    show (Cat.boot none).getTable n = none
    rw [Cat.boot_none, Cat.getTable_eq, Cat.new_tab]
  exact {
    inv := Cat.reachable_inv []
    filed := fun t tab h => by rw [hlook] at h; cases h
    sim := by
      show Catalog.Sim (Cat.boot none) _
      rw [Cat.boot_none]
      exact Catalog.sim_new
    good := fun t => .idle hne (holds_new _)
    named := fun n tab h => by rw [hget] at h; cases h
    nameless := fun _ _ => rfl
    unused := fun _ _ => rfl
    quiet := fun _ _ _ _ h => by cases h }

/-- A client starts with an empty database, creates tables and names them in its statements. Every reply is the one the specification gives: a CREATE TABLE makes a table without rows and
with the columns declared, or reports an error and changes nothing; INSERT, UPDATE and DELETE change the table of their name and no other; a SELECT answers from the tables its FROM
names, as the requests before have left them; a statement that names no table is an error and changes nothing. In the end each name leads to a table with the columns declared, and a scan
of it gives its list. Assumed: the names have one part and no quotes (`C99_quoted_fails`); the rest as in `C135_history_partial`. Missing: what is missing in C135; USE, indexes, and that
a CREATE TABLE is taken back by ROLLBACK, which is false (`C84_create_table_stays_fails`). -/
theorem C142_session_partial {d : Disk} {ext : Value → Nat → Option Value} {seen : Cat → Server → Nat → Seen} {decl : Col → Column} {ch : Choices} {next : Nat → Int} {txn : Nat}
    {xs : List NCall} {s : Session} (hr : Readable d) (hs : Sane d) (hf : Fresh d) (hx : TypedExt ext) (hn : ∀ c, (decl c).name = str c.name) (hdr : ∀ l, (ch.drain l).Perm l)
    (hne : txn ≠ 0) (R : Session.Run d ext seen decl ch (.new next txn) xs s) (hp : ∀ x ∈ xs, x.req.Plain) (hcomp : ∀ x ∈ xs, ∀ t, x.complete t = true)
    (hcov : AllCoveredN d ext decl ch xs) :
    ∃ σ, NextsN d ext decl ch .new xs σ ∧ ∀ n, (s.cat.selectTable [⟨n, none⟩]).map Tab.cols = σ.tab n ∧
      ∀ tab, s.cat.selectTable [⟨n, none⟩] = some tab → Yields (seqScan d (s.srv.heap tab.oid)).m (seqScan d (s.srv.heap tab.oid)).s (σ.st n).rows .done := by
  obtain ⟨σ, τ, h1, A⟩ := session_run hr hs hf hx hn hdr R hp hcomp hcov (agrees_new hne)
  refine ⟨σ, h1, fun n => ⟨(A.tab n).symm, fun tab h => ?_⟩⟩
  rw [A.named n tab h]
  exact good_scan hr (A.good tab.oid)

end Verif.Whole
