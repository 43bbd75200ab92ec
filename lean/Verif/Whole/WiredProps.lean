import Verif.Whole.WiredSpec
import Verif.Whole.TypedProps
import Verif.Net.Props

/-!
# C146: a session over the network
-/

namespace Verif.Whole

open Verif.Wire Verif.Bytes Verif.Sql Verif.Exec Verif.Dml
open Verif.Catalog (Cat Tab Col ColDef FkDef ObjName)

instance (a w : Byte) : Decidable (SameLetter a w) := by unfold SameLetter; infer_instance

theorem lowered_same : ∀ w ∈ deleteFrom, ∀ a : Byte, lowered a = w ↔ SameLetter a w := by decide +kernel

theorem delete_from : ∀ w ∈ deleteWord, w ∈ deleteFrom := by decide +kernel

theorem prefix_iff {word : List Byte} (hw : ∀ w ∈ word, w ∈ deleteFrom) {sql : List Byte} :
    word.isPrefixOf (sql.map lowered) = true ↔ StartsWith word sql := by
  induction word generalizing sql with
  | nil => exact ⟨fun _ => ⟨Nat.zero_le _, fun i a w _ h => by cases h⟩, fun _ => by cases sql <;> rfl⟩
  | cons w ws ih =>
    cases sql with
    | nil => exact ⟨fun h => (by cases h), fun h => (by have := h.1; simp at this)⟩
    | cons a sql =>
      rw [List.map_cons, List.isPrefixOf_cons_cons, Bool.and_eq_true, ih fun x hx => hw x (List.mem_cons_of_mem _ hx), beq_iff_eq]
      have hs := lowered_same w (hw w List.mem_cons_self) a
      constructor
      · rintro ⟨h1, h2, h3⟩
        refine ⟨by simpa using h2, fun i b v hb hv => ?_⟩
        cases i with
        | zero => cases hb; cases hv; exact hs.1 h1.symm
        | succ i => exact h3 i b v (by simpa using hb) (by simpa using hv)
      · rintro ⟨h1, h2⟩
        exact ⟨(hs.2 (h2 0 a w rfl rfl)).symm, by simpa using h1, fun i b v hb hv => h2 (i + 1) b v (by simpa using hb) (by simpa using hv)⟩

theorem prepare_spaced {F : Front} {sql : List Byte} (h : Spaced sql) : F.prepare sql = F.parse sql := by
  have e1 : ascii "delete " = deleteWord := by decide +kernel
  have e2 : ascii "delete from " = deleteFrom := by decide +kernel
  unfold Spaced at h
  rw [e1, e2] at h
  unfold Front.prepare
  rw [if_pos]
  unfold validSyntax
  cases h1 : deleteWord.isPrefixOf (sql.map lowered) with
  | false => rfl
  | true => rw [(prefix_iff fun _ h => h).2 (h ((prefix_iff delete_from).1 h1))]; rfl

/-! ## The names of the columns -/

theorem nameIn_shown (cols : List Col) (i : Nat) : nameIn (cols.map shownCol) i = (nameAt cols i).col := by
  simp only [nameIn, nameAt, List.getElem?_map, Option.map_map]
  rfl

theorem list_names {cols : List Col} {items : List (Ast × String)} {is : List Plan.Item} (h : PR.list (planItem cols) items = .ok is) :
    is.map itemName = items.map fun x => match x.1 with
      | .col i => (((cols.map shownCol)[i]?).map fun c => String.ofList c.1).getD ""
      | _ => x.2 := by
  induction items generalizing is with
  | nil => cases h; rfl
  | cons x xs ih =>
    obtain ⟨y, h1, h⟩ := bind_ok h
    obtain ⟨zs, h2, h⟩ := bind_ok h
    cases h
    obtain ⟨e, _, h1⟩ := bind_ok h1
    cases h1
    rw [List.map_cons, List.map_cons, ih h2]
    congr 1
    obtain ⟨a, text⟩ := x
    cases a <;> first
      | rfl
      | (simp only [itemName, Plan.outName, nameAt, List.getElem?_map, Option.map_map]; rfl)

theorem from_cols {c : Cat} {T : TDb} (h : ∀ n, (c.selectTable (plainName n)).map (fun t => t.cols.map shownCol) = T.tab n) : ∀ (f : TFrom) {x : List Col × NFrom}, f.plan c = .ok x →
    T.cols f = some (x.1.map shownCol) := by
  intro f
  induction f with
  | table n =>
    intro x hp
    unfold TFrom.plan at hp
    split at hp
    · next t ht =>
      cases hp
      show T.tab n = _
      rw [← h, ht]
      rfl
    · cases hp
  | join kind l n on more ih =>
    intro x hp
    unfold TFrom.plan at hp
    obtain ⟨y, hl, hp⟩ := bind_ok hp
    split at hp
    · next t ht =>
      obtain ⟨e, he, hp⟩ := bind_ok hp
      cases hp
      obtain ⟨o, _⟩ := planOn_ok he
      have hn := h n
      rw [ht] at hn
      unfold TDb.cols
      rw [ih hl, ← hn]
      dsimp only [Option.map_some]
      rw [if_pos (fun p hp => by simpa using o p hp), List.map_append]
    · cases hp

theorem header_names {c : Cat} {T : TDb} (h : ∀ n, (c.selectTable (plainName n)).map (fun t => t.cols.map shownCol) = T.tab n) {r : TReq} {q : NReq} (hp : r.plan c = .ok q) :
    r.header c = T.names r := by
  cases r with
  | select f items p k l o =>
    unfold TReq.header TDb.names
    rw [hp]
    unfold TReq.plan at hp
    obtain ⟨t, ht, hp⟩ := bind_ok hp
    have h := from_cols h f ht
    · obtain ⟨z, h1, h2⟩ := bind_ok hp
      cases h2
      obtain ⟨w, _, h1⟩ := bind_ok h1
      obtain ⟨is, h3, h1⟩ := bind_ok h1
      obtain ⟨_, _, h1⟩ := bind_ok h1
      cases h1
      dsimp only
      rw [h]
      exact list_names h3
  | distinct f items p k l o =>
    unfold TReq.header TDb.names
    rw [hp]
    unfold TReq.plan at hp
    obtain ⟨t, ht, hp⟩ := bind_ok hp
    have h := from_cols h f ht
    · obtain ⟨z, h1, h2⟩ := bind_ok hp
      cases h2
      obtain ⟨z', h0, h1⟩ := bind_ok h1
      obtain ⟨_, _, h1⟩ := bind_ok h1
      cases h1
      obtain ⟨w, _, h1⟩ := bind_ok h0
      obtain ⟨is, h3, h1⟩ := bind_ok h1
      obtain ⟨_, _, h1⟩ := bind_ok h1
      cases h1
      dsimp only
      rw [h]
      exact list_names h3
  | group f gs fs p k l o =>
    unfold TReq.header TDb.names
    rw [hp]
    unfold TReq.plan at hp
    obtain ⟨t, ht, hp⟩ := bind_ok hp
    have h := from_cols h f ht
    · obtain ⟨z, h1, h2⟩ := bind_ok hp
      cases h2
      obtain ⟨w, _, h1⟩ := bind_ok h1
      obtain ⟨ns, h3, h1⟩ := bind_ok h1
      obtain ⟨as, h4, h1⟩ := bind_ok h1
      obtain ⟨_, _, h1⟩ := bind_ok h1
      cases h1
      dsimp only
      rw [h]
      dsimp only [Option.map_some]
      rw [(cols_ok h3).1, (aggs_ok h4).1, List.map_append, List.map_map, List.map_map, List.map_map, List.map_map]
      congr 1
      · refine List.map_congr_left fun i _ => ?_
        exact (nameIn_shown t.1 i).symm
      · refine List.map_congr_left fun a _ => ?_
        cases a with
        | countStar => rfl
        | count i => exact congrArg ("COUNT_" ++ ·) (nameIn_shown t.1 i).symm
        | sum i => exact congrArg ("SUM_" ++ ·) (nameIn_shown t.1 i).symm
        | min i => exact congrArg ("MIN_" ++ ·) (nameIn_shown t.1 i).symm
        | max i => exact congrArg ("MAX_" ++ ·) (nameIn_shown t.1 i).symm
  | query n st =>
    unfold TReq.header
    rw [hp]
    unfold TReq.plan at hp
    dsimp only at hp
    split at hp
    · obtain ⟨z, h1, h2⟩ := bind_ok hp
      cases h2
      rfl
    · cases hp
  | create n cols ine => cases hp; unfold TReq.header; rfl
  | begin => rfl
  | commit => rfl
  | rollback => rfl

/-! ## What arrives -/

theorem told_of {F : Front} {names : List String} {a : Reply} {p : Net.Response} (h : Responds F names a p) : Told F names a (.ok p) := by
  cases h with
  | ok => rfl
  | count => rfl
  | rows => rfl
  | error => exact ⟨_, rfl⟩

/-- A request is served. -/
theorem serve_step {d : Disk} {ext : Value → Nat → Option Value} {seen : Cat → Server → Nat → Seen} {ch : Choices} (hr : Readable d) (hs : Sane d) (hf : Fresh d)
    (hx : TypedExt ext) (hdr : ∀ l, (ch.drain l).Perm l) {F : Front} {s s' : Session} {q : Net.Request} {b : Nat → Bool} {p : Net.Response} {σ : NDb} {τ : Tables} {T : TDb}
    (S : Session.Serve d ext seen ch F s q b p s') (hcomp : ∀ t, b t = true) (hsp : ∀ sql, q = .query sql → Spaced sql) (hfine : ∀ r, Asks F q r → FineT r T)
    (A : Agrees s σ τ) (M : Means σ T) : ∃ σ' τ' T', Heard d F T q (.ok p) T' ∧ Agrees s' σ' τ' ∧ Means σ' T' := by
  have tab : ∀ n, (s.cat.selectTable (plainName n)).map (fun t => t.cols.map shownCol) = T.tab n := fun n => by rw [M.tab, A.tab, Option.map_map]; rfl
  have names : ∀ {r a b s'}, Session.TStep d ext seen ch s ⟨r, a, b⟩ s' → Responds F (r.header s.cat) a p → Told F (T.names r) a (.ok p) := by
    intro r a b s' S R
    cases S with
    | ran hp _ => rw [← header_names tab hp]; exact told_of R
    | refused _ => cases R; exact ⟨_, rfl⟩
  cases S with
  | @query sql r a _ _ _ hp S R =>
    rw [prepare_spaced (hsp sql rfl)] at hp
    obtain ⟨σ', τ', T', g1, g2, g3⟩ := typed_step hr hs hf hx hdr S hcomp (hfine r (.query hp)) A M
    exact ⟨σ', τ', T', .done (.query hp) g1 (names S R), g2, g3⟩
  | @garbled sql m hp =>
    rw [prepare_spaced (hsp sql rfl)] at hp
    exact ⟨σ, τ, T, .garbled hp, A.tick, M⟩
  | @begin i a _ _ _ S R =>
    obtain ⟨σ', τ', T', g1, g2, g3⟩ := typed_step hr hs hf hx hdr S hcomp (hfine _ .begin) A M
    exact ⟨σ', τ', T', .done .begin g1 (told_of R), g2, g3⟩
  | @commit a _ _ _ S R =>
    obtain ⟨σ', τ', T', g1, g2, g3⟩ := typed_step hr hs hf hx hdr S hcomp (hfine _ .commit) A M
    exact ⟨σ', τ', T', .done .commit g1 (told_of R), g2, g3⟩
  | @rollback a _ _ _ S R =>
    obtain ⟨σ', τ', T', g1, g2, g3⟩ := typed_step hr hs hf hx hdr S hcomp (hfine _ .rollback) A M
    exact ⟨σ', τ', T', .done .rollback g1 (told_of R), g2, g3⟩

theorem cut_one {n : Nat} {bs c : List Byte} (h : Net.Cut n bs [c]) : c = bs := by
  have := h.join
  simpa using this

theorem talk_run {d : Disk} {ext : Value → Nat → Option Value} {seen : Cat → Server → Nat → Seen} {ch : Choices} (hr : Readable d) (hs : Sane d) (hf : Fresh d)
    (hx : TypedExt ext) (hdr : ∀ l, (ch.drain l).Perm l) {F : Front} {s s' : Session} {xs : List Exchange} {σ : NDb} {τ : Tables} {T : TDb}
    (R : Session.Talk d ext seen ch F s xs s') (hcomp : ∀ x ∈ xs, ∀ t, x.complete t = true) (hok : ∀ x ∈ xs, x.asked.ok ∧ x.sent.ok ∧ (Net.encResponse x.sent).length ≤ 4096)
    (hfine : ∀ pre x post, xs = pre ++ x :: post → (∀ sql, x.asked = .query sql → Spaced sql) ∧ ∀ T', Hears d F T (said pre) T' → ∀ r, Asks F x.asked r → FineT r T')
    (A : Agrees s σ τ) (M : Means σ T) : ∃ σ' τ' T', Hears d F T (said xs) T' ∧ Agrees s' σ' τ' ∧ Means σ' T' := by
  induction R generalizing σ τ T with
  | nil => exact ⟨σ, τ, T, .nil, A, M⟩
  | @cons s x bs s1 xs s2 hc S hcut _ ih =>
    obtain ⟨o1, o2, o3⟩ := hok x List.mem_cons_self
    obtain ⟨f1, f2⟩ := hfine [] x xs rfl
    have hdec : Net.fromBytes Net.decRequest bs = some x.asked := by
      rw [cut_one hc]
      have := Net.fromBytes_request o1 []
      rwa [List.append_nil] at this
    have hgot : x.got = .ok x.sent := Net.C83_response_partial o2 o3 hcut
    have H : ∃ σ1 τ1 T1, Heard d F T x.asked (.ok x.sent) T1 ∧ Agrees s1 σ1 τ1 ∧ Means σ1 T1 := by
      generalize x.sent = p, hb : x.complete = b at S
      cases S with
      | request h S =>
        rw [hdec] at h
        cases h
        exact serve_step hr hs hf hx hdr S (hb ▸ hcomp x List.mem_cons_self) f1 (f2 T .nil) A M
      | undecoded h => rw [hdec] at h; cases h
    obtain ⟨σ1, τ1, T1, g1, g2, g3⟩ := H
    rw [← hgot] at g1
    obtain ⟨σ2, τ2, T2, k1, k2, k3⟩ := ih (fun y hy => hcomp y (List.mem_cons_of_mem _ hy)) (fun y hy => hok y (List.mem_cons_of_mem _ hy))
      (fun pre y post e => ⟨(hfine (x :: pre) y post (by rw [e]; rfl)).1, fun T' h => (hfine (x :: pre) y post (by rw [e]; rfl)).2 T' (.cons g1 h)⟩) g2 g3
    exact ⟨σ2, τ2, T2, .cons g1 k1, k2, k3⟩

/-- A client connects to an empty database, and sends requests one after another as bytes; it waits for each response, which comes back in pieces. What it hears each time is what the
specification says: the names and rows of a SELECT, an error, or that there was none. In the end each name leads to a table with the columns declared, and a scan of it reads as the list of
the specification. Assumed: a request comes in one read (so it has at most 1024 bytes), a response has at most 4096 bytes, and the numbers in both fit their types; `AllFineN`; the rest as
in `C143_session_partial`. Missing: longer requests and responses, prepared statements, and what is missing in C143. -/
theorem C146_network_partial {d : Disk} {ext : Value → Nat → Option Value} {seen : Cat → Server → Nat → Seen} {ch : Choices} {next : Nat → Int} {txn : Nat} {F : Front}
    {xs : List Exchange} {s : Session} (hr : Readable d) (hs : Sane d) (hf : Fresh d) (hx : TypedExt ext) (hdr : ∀ l, (ch.drain l).Perm l)
    (hne : txn ≠ 0) (R : Session.Talk d ext seen ch F (.new next txn) xs s) (hcomp : ∀ x ∈ xs, ∀ t, x.complete t = true)
    (hok : ∀ x ∈ xs, x.asked.ok ∧ x.sent.ok ∧ (Net.encResponse x.sent).length ≤ 4096) (hfine : AllFineN d F xs) :
    ∃ T, Hears d F .new (said xs) T ∧ ∀ n, ((s.cat.selectTable (plainName n)).map fun t => t.cols.map fun c => (c.name, c.ty)) = T.tab n ∧
      ∀ t, s.cat.selectTable (plainName n) = some t → ∃ out, Yields (seqScan d (s.srv.heap t.oid)).m (seqScan d (s.srv.heap t.oid)).s out .done ∧ out.map reads = T.rows n := by
  obtain ⟨σ, τ, T, h1, A, M⟩ := talk_run hr hs hf hx hdr R hcomp hok hfine (agrees_new hne) means_new
  refine ⟨T, h1, fun n => ⟨?_, fun t h => ⟨(σ.st n).rows, ?_, (M.st n).rows.1.symm⟩⟩⟩
  · rw [M.tab, A.tab, Option.map_map]
    rfl
  · rw [A.named n t h]
    exact good_scan hr (A.good t.oid)

/-! ## What goes wrong -/

/-- Whatever is sent for one successful statement is sent for every other: a client cannot tell an UPDATE of no row from one of all rows. -/
theorem C146_count_fails {F : Front} {names names' : List String} {n m : Nat} {p p' : Net.Response} (h : Responds F names (.count n) p) (h' : Responds F names' (.count m) p') :
    Net.encResponse p = Net.encResponse p' := by
  cases h; cases h'; rfl

/-- A DELETE with more than one space before FROM is refused, whatever the parser says to it. -/
theorem C146_spaces_fails {d : Disk} {ext : Value → Nat → Option Value} {seen : Cat → Server → Nat → Seen} {ch : Choices} {F : Front} {s s' : Session} {b : Nat → Bool} {p : Net.Response}
    {rest : List Byte} (S : Session.Serve d ext seen ch F s (.query (deleteWord ++ 32 :: rest)) b p s') : (∃ m, p = .error m) ∧ s'.cat = s.cat ∧ s'.srv.heap = s.srv.heap := by
  have : F.prepare (deleteWord ++ 32 :: rest) = none := by
    unfold Front.prepare
    rw [if_neg]
    rw [Bool.not_eq_true]
    rfl
  cases S with
  | query h => rw [this] at h; cases h
  | garbled _ => exact ⟨⟨_, rfl⟩, rfl, rfl⟩

theorem receive_whole {p : Net.Response} (h : p.ok) (hl : (Net.encResponse p).length ≤ 4096) (rest : List (List Byte)) (n : Nat) :
    receives (n + 1) (Net.encResponse p :: rest) = .ok p :: receives n rest := by
  have hd : Net.fromBytes Net.decResponse (Net.encResponse p) = some p := by
    unfold Net.fromBytes
    have := Net.decResponse_enc h []
    rw [List.append_nil] at this
    rw [this]
    rfl
  simp only [receives, receives.used, Net.receive, List.nil_append, hd, List.drop_one, List.tail_cons]

/-- A request `q` comes in two reads, because it has more than 1024 bytes or the network has cut it, and the second part is no request. The server answers both parts with an error; the
client hears the first for `q`, and the second for its next request `r`, whatever the server has done for `r` and has answered: it may be told that a COMMIT has failed that has not. The
answer to `r` it hears for the request after that. -/
theorem C146_behind_fails {d : Disk} {ext : Value → Nat → Option Value} {seen : Cat → Server → Nat → Seen} {ch : Choices} {F : Front} {s s' : Session} {q r : Net.Request}
    {b1 b2 : List Byte} {c1 c2 c3 : Nat → Bool} {p1 p2 p3 : Net.Response} (hq : q.ok) (hc : Net.Cut 1024 (Net.encRequest q) [b1, b2]) (h2 : Net.fromBytes Net.decRequest b2 = none)
    (S : Session.TakeAll d ext seen ch F s [b1, b2, Net.encRequest r] [(c1, p1), (c2, p2), (c3, p3)] s')
    (hp : ∀ p ∈ [p1, p2, p3], p.ok ∧ (Net.encResponse p).length ≤ 4096) :
    ∃ m1 m2, receives 3 [Net.encResponse p1, Net.encResponse p2, Net.encResponse p3] = [.ok (.error m1), .ok (.error m2), .ok p3] ∧
      Session.Take d ext seen ch F s (Net.encRequest r) c3 p3 s' := by
  have h1 : Net.fromBytes Net.decRequest b1 = none := by
    have := Net.C82_split_fails hq hc (by simp)
    simpa [Net.serve] using this
  rw [receive_whole (hp p1 (by simp)).1 (hp p1 (by simp)).2, receive_whole (hp p2 (by simp)).1 (hp p2 (by simp)).2, receive_whole (hp p3 (by simp)).1 (hp p3 (by simp)).2]
  cases S with
  | cons S1 S =>
    cases S1 with
    | request h _ => rw [h1] at h; cases h
    | @undecoded m1 _ =>
      cases S with
      | cons S2 S =>
        cases S2 with
        | request h _ => rw [h2] at h; cases h
        | @undecoded m2 _ =>
          cases S with
          | cons S3 S =>
            cases S
            exact ⟨m1, m2, rfl, S3⟩

end Verif.Whole
