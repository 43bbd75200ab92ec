import Verif.Whole.TypedEffect
import Verif.Whole.TypedFrom
import Verif.Whole.NamedProps

/-!
# C143: a session in the values of SQL
-/

namespace Verif.Whole

open Verif.Wire Verif.Bytes Verif.Sql Verif.Exec Verif.Dml
open Verif.Catalog (Cat Tab Col ColDef FkDef ObjName)

/-- A table in the two specifications. -/
def Pairs (ts : List Nat) (T : TDb) (n : Catalog.Name) : St → Prop
  | .idle rows => T.before = none ∧ T.now n = rows.map plainRow ∧ RowsIn ts rows
  | .busy base rows again => (∃ b, T.before = some b ∧ b n = base.map reads) ∧ T.now n = rows.map markedRow ∧ RowsIn ts base ∧ RowsIn ts (rows.map (·.1)) ∧ (again → T.again)

/-- What a client is told of a column. -/
def shownCol (c : Col) : Catalog.Name × Nat := (c.name, c.ty)

/-- The two specifications agree. -/
structure Means (σ : NDb) (T : TDb) : Prop where
  tab : ∀ n, T.tab n = (σ.tab n).map (·.map shownCol)
  cols : ∀ n cols, σ.tab n = some cols → (cols.map Col.name).Nodup ∧ cols ≠ []
  st : ∀ n, Pairs (typesOf ((σ.tab n).getD [])) T n (σ.st n)

theorem types_shown (cols : List Col) : types (cols.map shownCol) = typesOf cols := by
  simp [types, typesOf, shownCol]

theorem Pairs.rows {ts : List Nat} {T : TDb} {n : Catalog.Name} {st : St} (h : Pairs ts T n st) : T.rows n = st.rows.map reads ∧ RowsIn ts st.rows := by
  unfold TDb.rows
  cases st with
  | idle rows =>
    obtain ⟨_, h1, h2⟩ := h
    rw [h1]
    exact ⟨by rw [List.map_map]; rfl, h2⟩
  | busy base rows again =>
    obtain ⟨_, h1, _, h2, _⟩ := h
    rw [h1]
    exact ⟨by simp only [St.rows, List.map_map]; rfl, h2⟩

/-- The database may change elsewhere. -/
theorem Pairs.congr {ts : List Nat} {T T' : TDb} {n : Catalog.Name} {st : St} (h : Pairs ts T n st) (h1 : T'.now n = T.now n) (h2 : T'.before = T.before) (h3 : T.again → T'.again) :
    Pairs ts T' n st := by
  cases st with
  | idle rows => exact ⟨by rw [h2]; exact h.1, by rw [h1]; exact h.2.1, h.2.2⟩
  | busy base rows again => exact ⟨by rw [h2]; exact h.1, by rw [h1]; exact h.2.1, h.2.2.1, h.2.2.2.1, fun g => h3 (h.2.2.2.2 g)⟩

theorem means_new : Means .new .new where
  tab _ := rfl
  cols _ _ h := nomatch h
  st _ := ⟨rfl, rfl, nofun⟩

theorem text_plain (n : Catalog.Name) : Catalog.text (plainName n) = n := rfl

section
variable {d : Disk} {ext : Value → Nat → Option Value} {ch : Choices} {σ σ' : NDb} {T : TDb} {a : Reply}

/-- CREATE TABLE. -/
theorem create_means (M : Means σ T) {n : Catalog.Name} {cols : List (Catalog.Name × Nat)} {ine : Bool} (hf : cols ≠ [] ∧ (cols.map (·.1)).Nodup)
    (N : NextN d ext typed ch σ (.create (plainName n) (cols.map fun x => ⟨⟨x.1, none⟩, x.2, none⟩) [] ine) a σ') :
    ∃ T', NextT d T (.create n cols ine) a T' ∧ Means σ' T' := by
  have hcreat : σ.sch.creatable n (cols.map fun x => ⟨⟨x.1, none⟩, x.2, none⟩) [] ↔ σ.tab n = none := by
    refine ⟨fun h => h.1, fun h => ⟨h, nofun, fun c hc r hr => ?_⟩⟩
    unfold Catalog.columns at hc
    rw [List.map_map] at hc
    obtain ⟨x, _, rfl⟩ := List.mem_map.1 hc
    cases hr
  cases N with
  | created h1 h2 =>
    rw [text_plain] at h1 h2
    have htab : ∀ m, (NDb.tab ⟨σ.sch.step (.createTable (plainName n) (cols.map fun x => ⟨⟨x.1, none⟩, x.2, none⟩) [] ine), σ.st⟩ m) =
        if m = n then some (cols.map fun x => ⟨x.1, x.2, none⟩) else σ.tab m := by
      intro m
      unfold NDb.tab Catalog.Spec.step
      dsimp only
      rw [text_plain, if_pos h1]
      dsimp only
      by_cases hm : m = n
      · subst hm
        rw [if_pos ⟨rfl, rfl⟩, if_pos rfl]
        unfold Catalog.columns
        rw [List.map_map]
        rfl
      · rw [if_neg (fun h => hm h.2), if_neg hm]
    have hnone := hcreat.1 h1
    have hst := M.st n
    have hrows : T.now n = [] ∧ ∀ ts T', T'.now n = T.now n → T'.before = T.before → (T.again → T'.again) → Pairs ts T' n (σ.st n) := by
      cases hk : σ.st n with
      | idle rows =>
        rw [hk] at hst h2
        cases (h2 : rows = [])
        exact ⟨hst.2.1, fun ts T' g1 g2 g3 => ⟨by rw [g2]; exact hst.1, by rw [g1]; exact hst.2.1, nofun⟩⟩
      | busy base rows again =>
        rw [hk] at hst h2
        obtain ⟨e1, e2, e3⟩ := h2
        subst e1 e2
        exact ⟨hst.2.1, fun ts T' g1 g2 g3 => ⟨by rw [g2]; exact hst.1, by rw [g1]; exact hst.2.1, nofun, nofun, fun g => absurd g e3⟩⟩
    refine ⟨_, .created (by rw [M.tab, hnone]; rfl) hrows.1, ⟨fun m => ?_, fun m cs h => ?_, fun m => ?_⟩⟩
    · dsimp only
      rw [htab]
      by_cases hm : m = n
      · rw [if_pos hm, if_pos hm, Option.map_some, List.map_map]
        congr 1
        exact (List.map_id _).symm
      · rw [if_neg hm, if_neg hm]
        exact M.tab m
    · rw [htab] at h
      by_cases hm : m = n
      · rw [if_pos hm] at h
        cases h
        refine ⟨?_, by simpa using hf.1⟩
        rw [List.map_map]
        exact hf.2
      · rw [if_neg hm] at h
        exact M.cols m cs h
    · rw [htab]
      by_cases hm : m = n
      · subst hm
        exact hrows.2 _ _ rfl rfl id
      · rw [if_neg hm]
        exact (M.st m).congr rfl rfl id
  | refused h1 h2 =>
    rw [text_plain] at h1
    rw [text_plain] at h2
    have hsome : (σ.tab n).isSome = true := by
      cases h : σ.tab n with
      | none => exact absurd (hcreat.2 h) h1
      | some _ => rfl
    cases ine with
    | true => exact absurd ⟨hsome, rfl⟩ h2
    | false => exact ⟨T, .exists_ (by rw [M.tab, Option.isSome_map]; exact hsome), M⟩
  | exists_ h =>
    rw [text_plain] at h
    exact ⟨T, .known (by rw [M.tab, Option.isSome_map]; exact h), M⟩

/-- A statement on a table. -/
theorem query_means (M : Means σ T) {n : Catalog.Name} {s : TStmt} {q : Stmt} {cols : List Col} (htab : σ.tab n = some cols) (hplan : s.plan cols = .ok q)
    (hok : StmtOk cols s q (σ.st n).rows) (N : NextN d ext typed ch σ (.query (plainName n) q) a σ') : ∃ T', NextT d T (.query n s) a T' ∧ Means σ' T' := by
  have hT : T.tab n = some (cols.map shownCol) := by rw [M.tab, htab]; rfl
  have hfits : s.Fits (typesOf cols) := (plan_fits hok.typed).1 ⟨q, hplan⟩
  have hst := M.st n
  rw [htab] at hst
  cases N with
  | noTable h => rw [text_plain, htab] at h; cases h
  | @query _ _ cs a' st h1 h2 =>
    rw [text_plain] at h1 h2
    rw [htab] at h1
    cases h1
    -- the other tables do not change
    have frame : ∀ T', (∀ m, m ≠ n → T'.now m = T.now m) → T'.tab = T.tab → T'.before = T.before → (T.again → T'.again) → Pairs (typesOf cols) T' n st →
        Means ⟨σ.sch, fun m => if m = n then st else σ.st m⟩ T' := by
      intro T' g1 g2 g3 g4 g5
      refine ⟨fun m => by rw [g2]; exact M.tab m, M.cols, fun m => ?_⟩
      show Pairs _ _ _ (if m = n then st else σ.st m)
      by_cases hm : m = n
      · subst hm
        rw [if_pos rfl]
        show Pairs (typesOf ((σ.tab m).getD [])) _ _ _
        rw [htab]
        exact g5
      · rw [if_neg hm]
        exact (M.st m).congr (g1 m hm) g3 g4
    have hsame : (fun m => if m = n then st else σ.st m) = (fun m => if m = Catalog.text (plainName n) then st else σ.st m) := rfl
    generalize hsn : σ.st n = stn at h2 hst hok
    cases h2 with
    | @alone _ rows r rows' _ E ha =>
      obtain ⟨g1, g2, g3⟩ := hst
      obtain ⟨e1, e2⟩ := effect_typed hok E ha
      rcases e2 with ⟨k, R, rfl, e3, e4⟩ | ⟨rfl, rfl, e3⟩
      · refine ⟨T.put n s R, .done hT (by rw [types_shown]; exact hfits) (by rw [types_shown, g2]; exact e3), frame _ (fun m hm => if_neg hm) rfl rfl .inl ⟨g1, ?_, e1⟩⟩
        show (if n = n then _ else _) = _
        rw [if_pos rfl, g1]
        exact e4
      · exact ⟨T, .failed hT g1 (by rw [types_shown, g2]; exact e3), frame _ (fun _ _ => rfl) rfl rfl id ⟨g1, g2, g3⟩⟩
    | @within base rows again _ _ rows' W =>
      obtain ⟨⟨b, g1, g1'⟩, g2, g3, g4, g5⟩ := hst
      obtain ⟨e1, e2, e3⟩ := within_typed hok W
      have hp : Pairs (typesOf cols) (T.put n s (rows'.map markedRow)) n (.busy base rows' (again ∨ DeletesOwn q rows)) := by
        refine ⟨⟨b, g1, g1'⟩, ?_, g3, e1, ?_⟩
        · show (if n = n then _ else _) = _
          rw [if_pos rfl, g1]
        · rintro (h | h)
          · exact .inl (g5 h)
          · exact .inr ⟨by rw [g1]; rfl, by rw [g2, hT, Option.getD_some, types_shown]; exact e3 h⟩
      rcases e2 with ⟨k, rfl, e4⟩ | ⟨rfl, e4⟩
      · exact ⟨T.put n s (rows'.map markedRow), .done hT (by rw [types_shown]; exact hfits) (by rw [types_shown, g2]; exact e4), frame _ (fun m hm => if_neg hm) rfl rfl .inl hp⟩
      · exact ⟨T.put n s (rows'.map markedRow), .failedWithin hT (by rw [g1]; rfl) (by rw [types_shown, g2]; exact e4), frame _ (fun m hm => if_neg hm) rfl rfl .inl hp⟩

/-- A FROM that is planned: its columns are there, and it stands for rows that read as those of the specification. -/
theorem from_means (M : Means σ T) {c : Cat} (hsel : ∀ n, (c.selectTable (plainName n)).map Tab.cols = σ.tab n) : ∀ (f : TFrom) {cols : List Col} {nf : NFrom},
    f.plan c = .ok (cols, nf) → T.FromFine f → T.cols f = some (cols.map shownCol) ∧ nf.Plain ∧ (cols.map Col.name).Nodup ∧ cols ≠ [] ∧
      ∀ num : Catalog.Name → Nat, ∃ pf, nf.over σ.tab num = some pf ∧
        ∀ rows : Nat → List Row, (∀ m, (σ.tab m).isSome = true → rows (num m) = (σ.st m).rows) → Stands (ch.world rows) cols pf ∧ (pf.rows (ch.world rows)).map reads = T.sees f ∧
          (T.Joins f → pf.Fine (ch.world rows)) := by
  have htable : ∀ {n : Catalog.Name} {t : Tab}, c.selectTable (plainName n) = some t → σ.tab n = some t.cols ∧ T.tab n = some (t.cols.map shownCol) ∧
      ∀ num : Catalog.Name → Nat, (NFrom.table (plainName n) none).over σ.tab num = some (.table ⟨num n, str n, t.cols.map fun x => str x.name, none⟩) ∧
        ∀ rows : Nat → List Row, (∀ m, (σ.tab m).isSome = true → rows (num m) = (σ.st m).rows) →
          Stands (ch.world rows) t.cols (.table ⟨num n, str n, t.cols.map fun x => str x.name, none⟩) ∧ (rows (num n)).map reads = T.rows n ∧
            Plan.From.Fine (ch.world rows) (.table ⟨num n, str n, t.cols.map fun x => str x.name, none⟩) := by
    intro n t ht
    have htab := hsel n
    rw [ht] at htab
    have htab : σ.tab n = some t.cols := htab.symm
    have hst := (M.st n).rows
    rw [htab] at hst
    refine ⟨htab, by rw [M.tab, htab]; rfl, fun num => ⟨?_, fun rows h => ?_⟩⟩
    · unfold NFrom.over
      rw [text_plain, htab]
      rfl
    · have hr := h n (by rw [htab]; rfl)
      have hin : RowsIn (typesOf t.cols) ((ch.world rows).rows (num n)) := by show RowsIn _ (rows (num n)); rw [hr]; exact hst.2
      exact ⟨stands_table hin, by rw [hr]; exact hst.1.symm, stands_fine hin⟩
  intro f
  induction f with
  | table n =>
    intro cols nf hp hf
    unfold TFrom.plan at hp
    split at hp
    · next t ht =>
      cases hp
      obtain ⟨h1, h2, h3⟩ := htable ht
      obtain ⟨hnd, hne⟩ := M.cols n _ h1
      exact ⟨h2, ⟨n, rfl, hf⟩, hnd, hne, fun num => ⟨_, (h3 num).1, fun rows h => ⟨((h3 num).2 rows h).1, ((h3 num).2 rows h).2.1, fun _ => ((h3 num).2 rows h).2.2⟩⟩⟩
    · cases hp
  | join kind l n on more ih =>
    intro cols nf hp hf
    unfold TFrom.plan at hp
    obtain ⟨⟨ls, nl⟩, hl, hp⟩ := bind_ok hp
    dsimp only at hp
    split at hp
    · next t ht =>
      obtain ⟨e, he, hp⟩ := bind_ok hp
      cases hp
      obtain ⟨f1, f2, f3⟩ := hf
      obtain ⟨h1, h2, h3⟩ := htable ht
      obtain ⟨g1, g2, g3, g4, g5⟩ := ih hl f1
      obtain ⟨k1, k2⟩ := f3 _ _ g1 h2
      rw [types_shown, types_shown] at k2
      obtain ⟨o, _⟩ := planOn_ok he
      have hm : ∀ x ∈ on :: more, Alike ls t.cols x := fun x hx => by
        obtain ⟨m, m1, m2⟩ := k2 x hx _ _ (types_at (List.getElem?_eq_getElem (o x hx).1)) (types_at (List.getElem?_eq_getElem (o x hx).2))
        exact ⟨_, _, m, types_at (List.getElem?_eq_getElem (o x hx).1), types_at (List.getElem?_eq_getElem (o x hx).2), m1, m2⟩
      have hnd : ((ls ++ t.cols).map Col.name).Nodup := by
        rw [← List.map_append, List.map_map] at k1
        exact k1
      refine ⟨?_, ⟨g2, n, rfl, f2⟩, hnd, by simp [g4], fun num => ?_⟩
      · unfold TDb.cols
        rw [g1, h2]
        dsimp only
        rw [if_pos (fun p hp => by simpa using o p hp), List.map_append]
      · obtain ⟨pl, p1, p2⟩ := g5 num
        obtain ⟨q1, q2⟩ := h3 num
        refine ⟨.join kind.op pl (.table ⟨num n, str n, t.cols.map fun x => str x.name, none⟩) (.on e), by rw [NFrom.over, p1, q1], fun rows h => ?_⟩
        obtain ⟨a1, a2, a3⟩ := p2 rows h
        obtain ⟨b1, b2, b3⟩ := q2 rows h
        obtain ⟨c1, c2, c3⟩ := stands_join hnd hm he a1 b1 kind
        have hb : (Plan.From.rows (ch.world rows) (.table ⟨num n, str n, t.cols.map fun x => str x.name, none⟩)).map reads = T.rows n := b2
        rw [a2, hb] at c2 c3
        refine ⟨c1, c2.trans ?_, fun hj => c3 (a3 hj.1) b3 hj.2⟩
        show _ = joined kind (on :: more) ((T.cols l).getD []).length ((T.tab n).getD []).length (T.sees l) (T.rows n)
        rw [g1, h2, Option.getD_some, Option.getD_some, List.length_map, List.length_map]
    · cases hp

/-- A FROM that is refused. -/
theorem from_refused (ch : Choices) (M : Means σ T) {c : Cat} (hsel : ∀ n, (c.selectTable (plainName n)).map Tab.cols = σ.tab n) : ∀ (f : TFrom), T.FromFine f →
    (∃ x, f.plan c = .ok x) ∨ f.plan c = .err ∧ T.cols f = none := by
  have hnone : ∀ {n : Catalog.Name}, c.selectTable (plainName n) = none → T.tab n = none := by
    intro n hn
    have := hsel n
    rw [hn] at this
    rw [M.tab, ← this]
    rfl
  intro f
  induction f with
  | table n =>
    intro _
    unfold TFrom.plan
    split
    · exact .inl ⟨_, rfl⟩
    · next h => exact .inr ⟨rfl, hnone h⟩
  | join kind l n on more ih =>
    rintro ⟨f1, f2, f3⟩
    unfold TFrom.plan
    rcases ih f1 with ⟨⟨ls, nl⟩, hx⟩ | ⟨h1, h2⟩
    · rw [hx]
      dsimp only [PR.bind]
      have g1 := (from_means (ch := ch) M hsel l hx f1).1
      cases ht : c.selectTable (plainName n) with
      | none =>
        refine .inr ⟨rfl, ?_⟩
        unfold TDb.cols
        rw [hnone ht]
        cases T.cols l <;> rfl
      | some t =>
        have htab := hsel n
        rw [ht] at htab
        have h2 : T.tab n = some (t.cols.map shownCol) := by rw [M.tab, ← htab]; rfl
        obtain ⟨_, k2⟩ := f3 _ _ g1 h2
        rw [types_shown, types_shown] at k2
        have hm : ∀ x ∈ on :: more, x.1 < ls.length → x.2 < t.cols.length → Alike ls t.cols x := fun x hx o1 o2 => by
          obtain ⟨m, m1, m2⟩ := k2 x hx _ _ (types_at (List.getElem?_eq_getElem o1)) (types_at (List.getElem?_eq_getElem o2))
          exact ⟨_, _, m, types_at (List.getElem?_eq_getElem o1), types_at (List.getElem?_eq_getElem o2), m1, m2⟩
        by_cases hij : ∀ x ∈ on :: more, x.1 < ls.length ∧ x.2 < t.cols.length
        · obtain ⟨e, he⟩ := planOn_some fun x hx => hm x hx (hij x hx).1 (hij x hx).2
          dsimp only
          rw [he]
          exact .inl ⟨_, rfl⟩
        · have he := planOn_err hm hij
          refine .inr ⟨?_, ?_⟩
          · dsimp only
            rw [he]
          · unfold TDb.cols
            rw [g1, h2]
            dsimp only
            rw [if_neg (fun h => hij fun x hx => by simpa using h x hx)]
    · refine .inr ⟨by rw [h1]; rfl, ?_⟩
      unfold TDb.cols
      rw [h2]

/-- A SELECT. -/
theorem select_means (M : Means σ T) {c : Cat} (hsel : ∀ n, (c.selectTable (plainName n)).map Tab.cols = σ.tab n) {f : TFrom} {nf : NFrom} {items : List (Ast × String)} {p : Option Ast} {order : List (Nat × Dir)} {limit offset : Option Nat} {q : Plan.Select} {cols : List Col}
    (hpf : f.plan c = .ok (cols, nf)) (hff : T.FromFine f) (hplan : planSel cols items p order limit offset = .ok q) (hi : items ≠ []) (hwp : WellTyped (typesOf cols) p)
    (hw : ∀ x ∈ items, (∃ f, WT (typesOf cols) x.1 f) ∧ LitItems x.1) (hone : ∀ k ∈ order, OneItem (cols.map shownCol) items k.1)
    (N : NextN d ext typed ch σ (.select nf q) a σ') :
    NextT d T (.select f items p order limit offset) a T ∧ Means σ' T := by
  obtain ⟨hT, _, hnd, hne, hfrom⟩ := from_means (ch := ch) M hsel f hpf hff
  cases N with
  | noFrom h =>
    obtain ⟨pf, h', _⟩ := hfrom fun _ => 0
    rw [h] at h'
    cases h'
  | @select _ pf _ _ num rows h1 h2 h3 h4 =>
    obtain ⟨pf', h3', hrows⟩ := hfrom num
    rw [h3] at h3'
    cases h3'
    obtain ⟨S, hr, hF⟩ := hrows rows h2
    obtain ⟨k1, k2, k3⟩ := (planSel_some hwp hw).1 ⟨q, hplan⟩
    refine ⟨.select hT (by rw [types_shown]; exact k1) (by rw [types_shown]; exact k2) (fun k hk => by rw [List.length_map]; exact k3 k hk) fun hj hs => ?_, M⟩
    rw [types_shown, ← hr] at hs
    rw [← hr, types_shown]
    exact says_select hnd hne S.names rfl (hF hj) hplan h4 S.rows hi hwp hw hone fun row hrow => hs _ (List.mem_map_of_mem hrow)

/-- A SELECT with GROUP BY. -/
theorem group_means (M : Means σ T) {c : Cat} (hsel : ∀ n, (c.selectTable (plainName n)).map Tab.cols = σ.tab n) {f : TFrom} {nf : NFrom} {gs : List Nat} {fs : List TAgg} {p : Option Ast} {order : List (Nat × Dir)} {limit offset : Option Nat} {q : Plan.Select} {cols : List Col}
    (hpf : f.plan c = .ok (cols, nf)) (hff : T.FromFine f) (hplan : planGroup cols gs fs p order limit offset = .ok q) (hg : gs ≠ [] ∨ fs ≠ []) (hgs : gs.Nodup) (hfn : (fs.map fun a => a.fn.name).Nodup)
    (ho : ∀ k ∈ order, k.1 < gs.length) (hwp : WellTyped (typesOf cols) p) (hty : ∀ a ∈ fs, a.Typed (typesOf cols)) (hno : ∀ i ∈ gs, ∀ c, (cols.map shownCol)[i]? = some c → NoAgg c.1)
    (N : NextN d ext typed ch σ (.select nf q) a σ') :
    NextT d T (.group f gs fs p order limit offset) a T ∧ Means σ' T := by
  obtain ⟨hT, _, hnd, hne, hfrom⟩ := from_means (ch := ch) M hsel f hpf hff
  cases N with
  | noFrom h =>
    obtain ⟨pf, h', _⟩ := hfrom fun _ => 0
    rw [h] at h'
    cases h'
  | @select _ pf _ _ num rows h1 h2 h3 h4 =>
    obtain ⟨pf', h3', hrows⟩ := hfrom num
    rw [h3] at h3'
    cases h3'
    obtain ⟨S, hr, hF⟩ := hrows rows h2
    obtain ⟨k1, k2, k3⟩ := (planGroup_some hwp ho).1 ⟨q, hplan⟩
    refine ⟨.group hT (by rw [types_shown]; exact k1) (fun i hi => by rw [List.length_map]; exact k2 i hi) (fun a ha => by rw [List.length_map]; exact k3 a ha) fun hj hs hfit hsum => ?_, M⟩
    rw [types_shown, ← hr] at hs hfit hsum
    rw [← hr, types_shown]
    exact says_group hnd S.names rfl (hF hj) hplan h4 S.rows hg hgs hfn hwp hty (fun i hi c hc => hno i hi (shownCol c) (by rw [List.getElem?_map, hc]; rfl))
      (fun row hrow => hs _ (List.mem_map_of_mem hrow)) hfit hsum

/-- A SELECT DISTINCT. -/
theorem distinct_means (M : Means σ T) {c : Cat} (hsel : ∀ n, (c.selectTable (plainName n)).map Tab.cols = σ.tab n) {f : TFrom} {nf : NFrom} {items : List (Ast × String)} {p : Option Ast} {order : List (Nat × Dir)} {limit offset : Option Nat} {q : Plan.Select} {cols : List Col}
    (hpf : f.plan c = .ok (cols, nf)) (hff : T.FromFine f) (hplan : planDistinct cols items p order limit offset = .ok q) (hi : items ≠ []) (hwp : WellTyped (typesOf cols) p)
    (hw : ∀ x ∈ items, (∃ f, WT (typesOf cols) x.1 f) ∧ LitItems x.1 ∧ exprTy (typesOf cols) x.1 ≠ 1 ∧ exprTy (typesOf cols) x.1 ≠ 2)
    (hone : ∀ k ∈ order, ∃ i s, items[k.1]? = some (.col i, s) ∧ OneItem (cols.map fun c => (c.name, c.ty)) items i)
    (N : NextN d ext typed ch σ (.select nf q) a σ') :
    NextT d T (.distinct f items p order limit offset) a T ∧ Means σ' T := by
  obtain ⟨hT, _, hnd, hne, hfrom⟩ := from_means (ch := ch) M hsel f hpf hff
  cases N with
  | noFrom h =>
    obtain ⟨pf, h', _⟩ := hfrom fun _ => 0
    rw [h] at h'
    cases h'
  | @select _ pf _ _ num rows h1 h2 h3 h4 =>
    obtain ⟨pf', h3', hrows⟩ := hfrom num
    rw [h3] at h3'
    cases h3'
    obtain ⟨S, hr, hF⟩ := hrows rows h2
    have hw' : ∀ x ∈ items, (∃ f, WT (typesOf cols) x.1 f) ∧ LitItems x.1 := fun x hx => ⟨(hw x hx).1, (hw x hx).2.1⟩
    obtain ⟨q', hq', _⟩ := bind_ok hplan
    obtain ⟨k1, k2, _⟩ := (planSel_some hwp hw').1 ⟨q', hq'⟩
    refine ⟨.distinct hT (by rw [types_shown]; exact k1) (by rw [types_shown]; exact k2) fun hj hs hap => ?_, M⟩
    rw [types_shown, ← hr] at hs hap
    rw [← hr, types_shown]
    exact says_distinct hnd hne S.names rfl (hF hj) hplan h4 S.rows hi hwp hw' hone (fun x hx => (hw x hx).2.2) (fun row hrow => hs _ (List.mem_map_of_mem hrow)) hap

theorem begin_means (M : Means σ T) (N : NextN d ext typed ch σ .begin a σ') : ∃ T', NextT d T .begin a T' ∧ Means σ' T' := by
  cases N with
  | @begin st a' h =>
    cases a' with
    | ok =>
      have key : ∀ m, T.before = none ∧ Pairs (typesOf ((σ.tab m).getD [])) { T with before := some T.rows } m (st m) := by
        intro m
        have hm := h m
        have hst := M.st m
        have hrows := hst.rows.1
        generalize st m = st' at hm ⊢
        generalize σ.st m = st0 at hm hst hrows
        cases hm with
        | begin =>
          obtain ⟨g1, g2, g3⟩ := hst
          refine ⟨g1, ⟨_, rfl, hrows⟩, ?_, g3, ?_, False.elim⟩
          · show T.now m = _
            rw [g2, List.map_map]
            rfl
          · rw [List.map_map]
            intro r hr
            obtain ⟨r', h1, rfl⟩ := List.mem_map.1 hr
            exact g3 r' h1
      exact ⟨_, .begin (key []).1, ⟨M.tab, M.cols, fun m => (key m).2⟩⟩
    | error =>
      have key : ∀ m, T.before.isSome = true ∧ st m = σ.st m := by
        intro m
        have hm := h m
        have hst := M.st m
        generalize st m = st' at hm ⊢
        generalize σ.st m = st0 at hm hst ⊢
        cases hm with
        | begun =>
          obtain ⟨⟨b, g1, _⟩, _⟩ := hst
          exact ⟨by rw [g1]; rfl, rfl⟩
      have : st = σ.st := funext fun m => (key m).2
      rw [this]
      exact ⟨T, .begun (key []).1, M⟩
    | count k => have := h []; generalize st [] = s1 at this; generalize σ.st [] = s2 at this; cases this

theorem commit_means (M : Means σ T) (N : NextN d ext typed ch σ .commit a σ') : ∃ T', NextT d T .commit a T' ∧ Means σ' T' := by
  cases N with
  | @commit st a' h =>
    cases a' with
    | ok =>
      have key : ∀ m, T.before.isSome = true ∧ Pairs (typesOf ((σ.tab m).getD [])) ⟨T.tab, fun m => (T.now m).map fun x => (x.1, false), none, False⟩ m (st m) := by
        intro m
        have hm := h m
        have hst := M.st m
        generalize st m = st' at hm ⊢
        generalize σ.st m = st0 at hm hst
        cases hm with
        | commit =>
          obtain ⟨⟨b, g1, _⟩, g2, g3, g4, _⟩ := hst
          refine ⟨by rw [g1]; rfl, rfl, ?_, g4⟩
          show (T.now m).map _ = _
          rw [g2, List.map_map, List.map_map]
          rfl
      exact ⟨_, .commit (key []).1, ⟨M.tab, M.cols, fun m => (key m).2⟩⟩
    | error =>
      have key : ∀ m, T.before = none ∧ st m = σ.st m := by
        intro m
        have hm := h m
        have hst := M.st m
        generalize st m = st' at hm ⊢
        generalize σ.st m = st0 at hm hst ⊢
        cases hm with
        | noCommit => exact ⟨hst.1, rfl⟩
      have : st = σ.st := funext fun m => (key m).2
      rw [this]
      exact ⟨T, .noCommit (key []).1, M⟩
    | count k => have := h []; generalize st [] = s1 at this; generalize σ.st [] = s2 at this; cases this

theorem rollback_means (M : Means σ T) (N : NextN d ext typed ch σ .rollback a σ') : ∃ T', NextT d T .rollback a T' ∧ Means σ' T' := by
  cases N with
  | @rollback st a' h =>
    cases a' with
    | ok =>
      have key : ∀ m, ∃ b, T.before = some b ∧ Pairs (typesOf ((σ.tab m).getD [])) ⟨T.tab, fun m => (b m).map (·, false), none, False⟩ m (st m) := by
        intro m
        have hm := h m
        have hst := M.st m
        generalize st m = st' at hm ⊢
        generalize σ.st m = st0 at hm hst
        cases hm with
        | rollback =>
          obtain ⟨⟨b, g1, g1'⟩, g2, g3, g4, _⟩ := hst
          refine ⟨b, g1, rfl, ?_, g3⟩
          show (b m).map _ = _
          rw [g1', List.map_map]
          rfl
      obtain ⟨b, hb, _⟩ := key []
      refine ⟨_, .rollback hb, ⟨M.tab, M.cols, fun m => ?_⟩⟩
      obtain ⟨b', hb', hp⟩ := key m
      rw [hb] at hb'
      cases hb'
      exact hp
    | error =>
      have key : ∀ m, T.before = none ∧ st m = σ.st m := by
        intro m
        have hm := h m
        have hst := M.st m
        generalize st m = st' at hm ⊢
        generalize σ.st m = st0 at hm hst ⊢
        cases hm with
        | noRollback => exact ⟨hst.1, rfl⟩
      have : st = σ.st := funext fun m => (key m).2
      rw [this]
      exact ⟨T, .noRollback (key []).1, M⟩
    | count k => have := h []; generalize st [] = s1 at this; generalize σ.st [] = s2 at this; cases this

end

theorem stmtOk_of {σ : NDb} {T : TDb} (M : Means σ T) {n : Catalog.Name} {s : TStmt} {q : Stmt} {cols : List Col} (htab : σ.tab n = some cols) (hplan : s.plan cols = .ok q)
    (hf : FineT (.query n s) T) : StmtOk cols s q (σ.st n).rows := by
  have hT : T.tab n = some (cols.map shownCol) := by rw [M.tab, htab]; rfl
  obtain ⟨h1, h2⟩ := hf.2 _ hT
  rw [types_shown] at h1 h2
  have hst := (M.st n).rows
  rw [htab] at hst
  refine ⟨(M.cols n cols htab).1, hplan, h1, fun r hr a ha => h2 _ ?_ a ha, hst.2⟩
  rw [hst.1]
  exact List.mem_map_of_mem hr

theorem typed_step {d : Disk} {ext : Value → Nat → Option Value} {seen : Cat → Server → Nat → Seen} {ch : Choices} (hr : Readable d) (hs : Sane d) (hf : Fresh d)
    (hx : TypedExt ext) (hdr : ∀ l, (ch.drain l).Perm l) {s s' : Session} {x : TCall} {σ : NDb} {τ : Tables} {T : TDb}
    (S : Session.TStep d ext seen ch s x s') (hcomp : ∀ t, x.complete t = true) (hfine : FineT x.req T) (A : Agrees s σ τ) (M : Means σ T) :
    ∃ σ' τ' T', NextT d T x.req x.reply T' ∧ Agrees s' σ' τ' ∧ Means σ' T' := by
  have hsel : ∀ n, (s.cat.selectTable (plainName n)).map Tab.cols = σ.tab n := fun n => (A.tab n).symm
  have hname : ∀ n : Catalog.Name, n ≠ [] → Catalog.PlainName (plainName n) := fun n hn => ⟨n, rfl, hn⟩
  cases S with
  | @refused r hplan =>
    refine ⟨σ, τ, T, ?_, A.tick, M⟩
    cases r with
    | create n cols ine => cases hplan
    | begin => cases hplan
    | commit => cases hplan
    | rollback => cases hplan
    | query n st =>
      have ht := hsel n
      unfold TReq.plan at hplan
      dsimp only at hplan
      cases hc : s.cat.selectTable (plainName n) with
      | none =>
        rw [hc] at ht
        exact .noTable (by rw [M.tab, ← ht]; rfl)
      | some t =>
        rw [hc] at ht hplan
        have hT : T.tab n = some (t.cols.map shownCol) := by rw [M.tab, ← ht]; rfl
        refine .refused hT fun hfit => ?_
        rw [types_shown] at hfit
        have hty := (hfine.2 _ hT).1
        rw [types_shown] at hty
        obtain ⟨q, hq⟩ := (plan_fits hty).2 hfit
        have hplan : ((st.plan t.cols).bind fun q => .ok (.query (plainName n) q) : PR NReq) = .err := hplan
        rw [hq] at hplan
        cases hplan
    | select f items p order limit offset =>
      rcases from_refused ch M hsel f hfine.1 with ⟨⟨cols, nf⟩, hx⟩ | ⟨_, h⟩
      · have hT := (from_means (ch := ch) M hsel f hx hfine.1).1
        refine .selectRefused hT fun hfit => ?_
        rw [types_shown] at hfit
        simp only [List.length_map] at hfit
        obtain ⟨w1, w2, _⟩ := hfine.2.2 _ hT
        rw [types_shown] at w1 w2
        obtain ⟨q, hq⟩ := (planSel_some (order := order) (limit := limit) (offset := offset) w1 w2).2 hfit
        have hplan : ((f.plan s.cat).bind fun x => (planSel x.1 items p order limit offset).bind fun q => .ok (.select x.2 q) : PR NReq) = .err := hplan
        rw [hx] at hplan
        have hplan : ((planSel cols items p order limit offset).bind fun q => .ok (.select nf q) : PR NReq) = .err := hplan
        rw [hq] at hplan
        cases hplan
      · exact .selectNoTable h
    | group f gs fs p order limit offset =>
      rcases from_refused ch M hsel f hfine.1 with ⟨⟨cols, nf⟩, hx⟩ | ⟨_, h⟩
      · have hT := (from_means (ch := ch) M hsel f hx hfine.1).1
        refine .groupRefused hT fun hfit => ?_
        rw [types_shown] at hfit
        simp only [List.length_map] at hfit
        obtain ⟨_, _, _, _, ho, w⟩ := hfine
        obtain ⟨w1, _⟩ := w _ hT
        rw [types_shown] at w1
        obtain ⟨q, hq⟩ := (planGroup_some (limit := limit) (offset := offset) w1 ho).2 hfit
        have hplan : ((f.plan s.cat).bind fun x => (planGroup x.1 gs fs p order limit offset).bind fun q => .ok (.select x.2 q) : PR NReq) = .err := hplan
        rw [hx] at hplan
        have hplan : ((planGroup cols gs fs p order limit offset).bind fun q => .ok (.select nf q) : PR NReq) = .err := hplan
        rw [hq] at hplan
        cases hplan
      · exact .groupNoTable h
    | distinct f items p order limit offset =>
      rcases from_refused ch M hsel f hfine.1 with ⟨⟨cols, nf⟩, hx⟩ | ⟨_, h⟩
      · have hT := (from_means (ch := ch) M hsel f hx hfine.1).1
        refine .distinctRefused hT fun hfit => ?_
        rw [types_shown] at hfit
        obtain ⟨_, _, w⟩ := hfine
        obtain ⟨w1, w2, w3⟩ := w _ hT
        rw [types_shown] at w1 w2
        obtain ⟨q, hq⟩ := (planSel_some (order := []) (limit := limit) (offset := offset) w1 fun x hx => ⟨(w2 x hx).1, (w2 x hx).2.1⟩).2 ⟨hfit.1, hfit.2, nofun⟩
        have hplan : ((f.plan s.cat).bind fun x => (planDistinct x.1 items p order limit offset).bind fun q => .ok (.select x.2 q) : PR NReq) = .err := hplan
        rw [hx] at hplan
        have hplan : ((planDistinct cols items p order limit offset).bind fun q => .ok (.select nf q) : PR NReq) = .err := hplan
        obtain ⟨ks, hks⟩ := (list_some (f := planItemKey cols items)).2 fun k hk => by
          obtain ⟨i, s', h, _⟩ := w3 k hk
          obtain ⟨_, _, h2⟩ := bind_ok hq
          obtain ⟨_, his, _⟩ := bind_ok h2
          refine ⟨keyOn cols (i, k.2), ?_⟩
          unfold planItemKey
          rw [h]
          exact if_pos (item_lt his (List.mem_of_getElem? h) rfl)
        unfold planDistinct at hplan
        rw [hq] at hplan
        have hplan : (((PR.list (planItemKey cols items) order).bind fun ks => .ok { q with distinct := true, orderBy := ks }).bind fun q => .ok (.select nf q) : PR NReq) = .err := hplan
        rw [hks] at hplan
        cases hplan
      · exact .distinctNoTable h
  | @ran r q a b s'' hplan S =>
    have step := fun hp hcov => session_step hr hs hf hx (fun _ => rfl) hdr S hp hcomp hcov A
    cases r with
    | create n cols ine =>
      cases hplan
      obtain ⟨f1, f2, f3⟩ := hfine
      obtain ⟨σ', τ', N, A'⟩ := step ⟨hname n f1, by simpa using f2, by rw [List.map_map]; exact f3, fun d hd => by obtain ⟨y, _, rfl⟩ := List.mem_map.1 hd; rfl,
        fun d hd r hr => (by obtain ⟨y, _, rfl⟩ := List.mem_map.1 hd; cases hr), nofun⟩ trivial
      obtain ⟨T', g1, g2⟩ := create_means M ⟨f2, f3⟩ N
      exact ⟨σ', τ', T', g1, A', g2⟩
    | query n st =>
      have ht := hsel n
      unfold TReq.plan at hplan
      dsimp only at hplan
      cases hc : s.cat.selectTable (plainName n) with
      | none => rw [hc] at hplan; cases hplan
      | some t =>
        rw [hc] at ht hplan
        obtain ⟨q', h1, h2⟩ := bind_ok (show ((st.plan t.cols).bind fun q => .ok (.query (plainName n) q) : PR NReq) = .ok q from hplan)
        cases h2
        have hok := stmtOk_of M ht.symm h1 hfine
        obtain ⟨σ', τ', N, A'⟩ := step (hname n hfine.1) hok.covered
        obtain ⟨T', g1, g2⟩ := query_means M ht.symm h1 hok N
        exact ⟨σ', τ', T', g1, A', g2⟩
    | select f items p order limit offset =>
      obtain ⟨⟨cols, nf⟩, hx, hplan⟩ := bind_ok (show ((f.plan s.cat).bind fun x => (planSel x.1 items p order limit offset).bind fun q => .ok (.select x.2 q) : PR NReq) = .ok q from hplan)
      obtain ⟨q', h1, h2⟩ := bind_ok hplan
      cases h2
      obtain ⟨hT, hpl, _⟩ := from_means (ch := ch) M hsel f hx hfine.1
      obtain ⟨w1, w2, w3⟩ := hfine.2.2 _ hT
      rw [types_shown] at w1 w2
      obtain ⟨σ', τ', N, A'⟩ := step hpl trivial
      obtain ⟨g1, g2⟩ := select_means M hsel hx hfine.1 h1 hfine.2.1 w1 w2 w3 N
      exact ⟨σ', τ', T, g1, A', g2⟩
    | group f gs fs p order limit offset =>
      obtain ⟨⟨cols, nf⟩, hx, hplan⟩ := bind_ok (show ((f.plan s.cat).bind fun x => (planGroup x.1 gs fs p order limit offset).bind fun q => .ok (.select x.2 q) : PR NReq) = .ok q from hplan)
      obtain ⟨q', h1, h2⟩ := bind_ok hplan
      cases h2
      obtain ⟨f1, f2, f3, f4, f5, w⟩ := hfine
      obtain ⟨hT, hpl, _⟩ := from_means (ch := ch) M hsel f hx f1
      obtain ⟨w1, w2, w3⟩ := w _ hT
      rw [types_shown] at w1 w2
      obtain ⟨σ', τ', N, A'⟩ := step hpl trivial
      obtain ⟨g1, g2⟩ := group_means M hsel hx f1 h1 f2 f3 f4 f5 w1 w2 w3 N
      exact ⟨σ', τ', T, g1, A', g2⟩
    | distinct f items p order limit offset =>
      obtain ⟨⟨cols, nf⟩, hx, hplan⟩ := bind_ok (show ((f.plan s.cat).bind fun x => (planDistinct x.1 items p order limit offset).bind fun q => .ok (.select x.2 q) : PR NReq) = .ok q from hplan)
      obtain ⟨q', h1, h2⟩ := bind_ok hplan
      cases h2
      obtain ⟨f1, f2, w⟩ := hfine
      obtain ⟨hT, hpl, _⟩ := from_means (ch := ch) M hsel f hx f1
      obtain ⟨w1, w2, w3⟩ := w _ hT
      rw [types_shown] at w1 w2
      obtain ⟨σ', τ', N, A'⟩ := step hpl trivial
      obtain ⟨g1, g2⟩ := distinct_means M hsel hx f1 h1 f2 w1 w2 w3 N
      exact ⟨σ', τ', T, g1, A', g2⟩
    | begin =>
      cases hplan
      obtain ⟨σ', τ', N, A'⟩ := step trivial trivial
      obtain ⟨T', g1, g2⟩ := begin_means M N
      exact ⟨σ', τ', T', g1, A', g2⟩
    | commit =>
      cases hplan
      obtain ⟨σ', τ', N, A'⟩ := step trivial trivial
      obtain ⟨T', g1, g2⟩ := commit_means M N
      exact ⟨σ', τ', T', g1, A', g2⟩
    | rollback =>
      cases hplan
      obtain ⟨σ', τ', N, A'⟩ := step trivial (fun m => by
        have hst := M.st m
        cases hk : σ.st m with
        | idle rows => trivial
        | busy base rows again =>
          rw [hk] at hst
          exact fun h => hfine (hst.2.2.2.2 h))
      obtain ⟨T', g1, g2⟩ := rollback_means M N
      exact ⟨σ', τ', T', g1, A', g2⟩

theorem typed_run {d : Disk} {ext : Value → Nat → Option Value} {seen : Cat → Server → Nat → Seen} {ch : Choices} (hr : Readable d) (hs : Sane d) (hf : Fresh d)
    (hx : TypedExt ext) (hdr : ∀ l, (ch.drain l).Perm l) {s s' : Session} {xs : List TCall} {σ : NDb} {τ : Tables} {T : TDb}
    (R : Session.TRun d ext seen ch s xs s') (hcomp : ∀ x ∈ xs, ∀ t, x.complete t = true)
    (hfine : ∀ pre x post, xs = pre ++ x :: post → ∀ T', NextsT d T pre T' → FineT x.req T') (A : Agrees s σ τ) (M : Means σ T) :
    ∃ σ' τ' T', NextsT d T xs T' ∧ Agrees s' σ' τ' ∧ Means σ' T' := by
  induction R generalizing σ τ T with
  | nil => exact ⟨σ, τ, T, .nil, A, M⟩
  | @cons s x s1 xs s2 S _ ih =>
    obtain ⟨σ1, τ1, T1, g1, g2, g3⟩ := typed_step hr hs hf hx hdr S (hcomp x List.mem_cons_self) (hfine [] x xs rfl T .nil) A M
    obtain ⟨σ2, τ2, T2, k1, k2, k3⟩ := ih (fun y hy => hcomp y (List.mem_cons_of_mem _ hy))
      (fun pre y post e T' h => hfine (x :: pre) y post (by rw [e]; rfl) T' (.cons g1 h)) g2 g3
    exact ⟨σ2, τ2, T2, .cons g1 k1, k2, k3⟩

/-- A client starts with an empty database, creates tables and sends statements with expressions as SQL has them. Every reply is the one the specification gives in the values of SQL:
a row is inserted with the values of its expressions, or the INSERT is an error and has a value out of the range of its column; DELETE removes the rows on which WHERE is TRUE; UPDATE
gives them the values of the assignments; a SELECT answers the items computed on the rows on which WHERE is TRUE, of a table or of tables joined on equal columns, or their groups, or the different ones; a statement is refused exactly if a table or column is missing, the
number of values is wrong or `Accepted` is false of an expression. In the end each name leads to a table with the columns declared, and a scan of it reads as the list of the
specification. Assumed: `FineT`; the rest as in `C142_session_partial`. Missing: statements that are not well typed, WHERE clauses of UPDATE and DELETE that cannot be computed on a row,
what is missing in C142, other joins, HAVING, and DISTINCT with ORDER BY. -/
theorem C143_session_partial {d : Disk} {ext : Value → Nat → Option Value} {seen : Cat → Server → Nat → Seen} {ch : Choices} {next : Nat → Int} {txn : Nat}
    {xs : List TCall} {s : Session} (hr : Readable d) (hs : Sane d) (hf : Fresh d) (hx : TypedExt ext) (hdr : ∀ l, (ch.drain l).Perm l)
    (hne : txn ≠ 0) (R : Session.TRun d ext seen ch (.new next txn) xs s) (hcomp : ∀ x ∈ xs, ∀ t, x.complete t = true) (hfine : AllFineT d xs) :
    ∃ T, NextsT d .new xs T ∧ ∀ n, ((s.cat.selectTable (plainName n)).map fun t => t.cols.map fun c => (c.name, c.ty)) = T.tab n ∧
      ∀ t, s.cat.selectTable (plainName n) = some t → ∃ out, Yields (seqScan d (s.srv.heap t.oid)).m (seqScan d (s.srv.heap t.oid)).s out .done ∧ out.map reads = T.rows n := by
  obtain ⟨σ, τ, T, h1, A, M⟩ := typed_run hr hs hf hx hdr R hcomp hfine (agrees_new hne) means_new
  refine ⟨T, h1, fun n => ⟨?_, fun t h => ⟨(σ.st n).rows, ?_, (M.st n).rows.1.symm⟩⟩⟩
  · rw [M.tab, A.tab, Option.map_map]
    rfl
  · rw [A.named n t h]
    exact good_scan hr (A.good t.oid)

end Verif.Whole
