import Verif.Net.Lemmas

/-!
# C82, C83: requests and responses arrive as they were sent
-/

namespace Verif.Net

open Verif.Wire
open Verif.Bytes (Byte)

/-- The numbers in a request fit their Rust types. -/
def Request.ok : Request → Prop
  | .query s | .prepare s => s.length < 2 ^ 64
  | .begin i => i < 5
  | .commit | .rollback => True
  | .execute n ps => n < 2 ^ 64 ∧ TupleOk ps
  | .close n => n < 2 ^ 64

/-- The numbers in a response fit their Rust types. -/
def Response.ok : Response → Prop
  | .results ns rs ms => (ns.length < 2 ^ 64 ∧ ∀ s ∈ ns, s.length < 2 ^ 64) ∧ (rs.length < 2 ^ 64 ∧ ∀ r ∈ rs, TupleOk r) ∧ ms.length < 2 ^ 64 ∧ ∀ s ∈ ms, s.length < 2 ^ 64
  | .prepareOk n ts => n < 2 ^ 64 ∧ ts.length < 2 ^ 64 ∧ ∀ t ∈ ts, t < 22
  | .error s => s.length < 2 ^ 64

theorem decU32_tag {n : Nat} (h : n < 128) (rest : List Byte) : decU32 (encU32 n ++ rest) = some (n, rest) := decU32_encU32 (by omega) rest

theorem decRequest_enc {r : Request} (h : r.ok) (rest : List Byte) : decRequest (encRequest r ++ rest) = some (r, rest) := by
  cases r with
  | query s => simp only [decRequest, encRequest, List.append_assoc, decU32_tag (show 0 < 128 by decide), Option.bind_some]; rw [decBytes_encBytes h]; rfl
  | begin i =>
    have hi : i < 5 := h
    simp only [decRequest, encRequest, List.append_assoc, decU32_tag (show 1 < 128 by decide), Option.bind_some, decIso, decU32_tag (show i < 128 by omega)]
    simp [hi]
  | commit => simp only [decRequest, encRequest, decU32_tag (show 2 < 128 by decide), Option.bind_some]
  | rollback => simp only [decRequest, encRequest, decU32_tag (show 3 < 128 by decide), Option.bind_some]
  | prepare s => simp only [decRequest, encRequest, List.append_assoc, decU32_tag (show 4 < 128 by decide), Option.bind_some]; rw [decBytes_encBytes h]; rfl
  | execute n ps =>
    simp only [decRequest, encRequest, List.append_assoc, decU32_tag (show 5 < 128 by decide), Option.bind_some, decU64_encU64 h.1]
    rw [decTuple_encTuple h.2]
    rfl
  | close n => simp only [decRequest, encRequest, List.append_assoc, decU32_tag (show 6 < 128 by decide), Option.bind_some]; rw [decU64_encU64 h]; rfl

theorem decTypeId_enc {t : Nat} (h : t < 22) (rest : List Byte) : decTypeId (encU32 t ++ rest) = some (t, rest) := by
  simp [decTypeId, decU32_tag (show t < 128 by omega), h]

theorem decResponse_enc {r : Response} (h : r.ok) (rest : List Byte) : decResponse (encResponse r ++ rest) = some (r, rest) := by
  cases r with
  | results ns rs ms =>
    obtain ⟨⟨h1, h2⟩, ⟨h3, h4⟩, h5, h6⟩ := h
    simp only [decResponse, encResponse, List.append_assoc, decU32_tag (show 0 < 128 by decide), Option.bind_some]
    rw [decSeq_encSeq (ok := fun s => s.length < 2 ^ 64) (fun _ _ h => decBytes_encBytes h _) h2 h1]
    simp only [Option.bind_some]
    rw [decSeq_encSeq (ok := TupleOk) (fun _ _ h => decTuple_encTuple h _) h4 h3]
    simp only [Option.bind_some]
    rw [decSeq_encSeq (ok := fun s => s.length < 2 ^ 64) (fun _ _ h => decBytes_encBytes h _) h6 h5]
    rfl
  | prepareOk n ts =>
    obtain ⟨h1, h2, h3⟩ := h
    simp only [decResponse, encResponse, List.append_assoc, decU32_tag (show 1 < 128 by decide), Option.bind_some, decU64_encU64 h1]
    rw [decSeq_encSeq (ok := fun t => t < 22) (fun _ _ h => decTypeId_enc h _) h3 h2]
    rfl
  | error s => simp only [decResponse, encResponse, List.append_assoc, decU32_tag (show 2 < 128 by decide), Option.bind_some]; rw [decBytes_encBytes h]; rfl

theorem fromBytes_request {r : Request} (h : r.ok) (rest : List Byte) : fromBytes decRequest (encRequest r ++ rest) = some r := by
  simp [fromBytes, decRequest_enc h]

/-- Two different requests never have the same bytes, nor one the beginning of the other's. -/
theorem C82_prefix_free {r r' : Request} {x : List Byte} (h : r.ok) (h' : r'.ok) (e : encRequest r' = encRequest r ++ x) : r' = r ∧ x = [] := by
  have h1 := decRequest_enc h x
  have h2 := decRequest_enc h' []
  rw [List.append_nil, e, h1] at h2
  simp only [Option.some.injEq, Prod.mk.injEq] at h2
  exact ⟨h2.1.symm, h2.2⟩

/-! ## What the server sees -/

/-- When every read of the server gives exactly one request, it handles the requests that were sent, in their order.
Missing from the full property: reads that end elsewhere (`C82_split_fails`, `C82_long_fails`, `C82_pipelined_fails`). -/
theorem C82_requests_partial {rs : List Request} (h : ∀ r ∈ rs, r.ok) : serve (rs.map encRequest) = rs.map some := by
  induction rs with
  | nil => rfl
  | cons r rs ih =>
    have h1 := fromBytes_request (h r List.mem_cons_self) []
    rw [List.append_nil] at h1
    simp only [serve, List.map_cons, h1] at ih ⊢
    rw [ih fun x hx => h x (List.mem_cons_of_mem _ hx)]

theorem request_nonempty (r : Request) : 0 < (encRequest r).length := by
  cases r <;> simp only [encRequest, List.length_append] <;> first
    | exact Nat.lt_of_lt_of_le (encVar_pos (k := 5) (by decide)) (Nat.le_add_right _ _)
    | exact encVar_pos (k := 5) (by decide)

/-- A request that does not come in one read is answered with an error, whatever it is and wherever it is cut. -/
theorem C82_split_fails {r : Request} (h : r.ok) {n : Nat} {reads : List (List Byte)} (hc : Cut n (encRequest r) reads) (h2 : 2 ≤ reads.length) : (serve reads).head? = some none := by
  obtain ⟨a, b, cs, rfl⟩ : ∃ a b cs, reads = a :: b :: cs := by
    match reads, h2 with
    | a :: b :: cs, _ => exact ⟨a, b, cs, rfl⟩
  have hj := hc.join
  simp only [List.flatten_cons] at hj
  have h1 := decRequest_enc h []
  rw [List.append_nil, ← hj] at h1
  have hb := hc.pos b (by simp)
  have := mono_request.prefix h1 (by intro e; rw [List.append_eq_nil_iff] at e; rw [e.1] at hb; exact absurd hb (by decide))
  simp [serve, fromBytes, this]

/-- So is every request of more than 1024 bytes, however the network delivers it. -/
theorem C82_long_fails {r : Request} (h : r.ok) (hl : 1024 < (encRequest r).length) {reads : List (List Byte)} (hc : Cut 1024 (encRequest r) reads) : (serve reads).head? = some none := by
  refine C82_split_fails h hc ?_
  match reads, hc with
  | [], hc => have := hc.join; rw [← this] at hl; simp at hl
  | [a], hc =>
    have := hc.join
    have h3 := hc.fits a (by simp)
    rw [← this] at hl
    simp at hl
    omega
  | _ :: _ :: _, _ => simp

/-- Of requests that come in one read only the first is handled. -/
theorem C82_pipelined_fails {r r' : Request} (h : r.ok) : serve [encRequest r ++ encRequest r'] = [some r] := by
  simp [serve, fromBytes_request h]

/-- What stands in the text of a query behind the first 1024 bytes of the message is taken for a request of its own: with any text of 1021 bytes before it, any request `r` is handled,
so a string inside a query can carry a request. -/
theorem C82_injection_fails {r : Request} (h : r.ok) (fill : List Byte) (hf : fill.length = 1021) (hs : (encRequest r).length < 1024) :
    ∃ reads, Cut 1024 (encRequest (.query (fill ++ encRequest r))) reads ∧ serve reads = [none, some r] := by
  have hp := request_nonempty r
  have hq : Request.ok (.query (fill ++ encRequest r)) := by
    show (fill ++ encRequest r).length < 2 ^ 64
    simp only [List.length_append, hf]
    omega
  have hlen : (encU64 (fill ++ encRequest r).length).length = 2 := by
    simp only [List.length_append, hf]
    have h1 : ¬ 1021 + (encRequest r).length < 128 := by omega
    have h2 : (1021 + (encRequest r).length) / 128 < 128 := by omega
    simp [encU64, encVar, h1, h2]
  have henc : encRequest (.query (fill ++ encRequest r)) = (encU32 0 ++ encU64 (fill ++ encRequest r).length ++ fill) ++ encRequest r := by
    simp [encRequest, encBytes, encSeq]
  have ha : (encU32 0 ++ encU64 (fill ++ encRequest r).length ++ fill).length = 1024 := by
    rw [List.length_append, List.length_append, hlen, hf]
    rfl
  have hcut : Cut 1024 (encRequest (.query (fill ++ encRequest r))) [encU32 0 ++ encU64 (fill ++ encRequest r).length ++ fill, encRequest r] := by
    refine ⟨by rw [henc]; simp, fun c hc => ?_, fun c hc => ?_⟩ <;> simp only [List.mem_cons, List.not_mem_nil, or_false] at hc <;> rcases hc with rfl | rfl <;> omega
  refine ⟨_, hcut, ?_⟩
  have h1 := C82_split_fails hq hcut (by simp)
  simp only [serve, List.map_cons, List.map_nil, List.head?_cons, Option.some.injEq] at h1 ⊢
  have h2 := fromBytes_request h []
  rw [List.append_nil] at h2
  rw [h1, h2]

/-! ## What the client sees -/

/-- A response of at most 4096 bytes reaches the client as it was sent, however the network cuts it.
Missing from the full property: longer responses (`C83_long_fails`). -/
theorem C83_response_partial {r : Response} (h : r.ok) (hl : (encResponse r).length ≤ 4096) {reads : List (List Byte)} (hc : Cut 4096 (encResponse r) reads) :
    receive [] reads = .ok r := by
  have hd := decResponse_enc h []
  rw [List.append_nil] at hd
  have key : ∀ (buf : List Byte) (reads : List (List Byte)), buf ++ reads.flatten = encResponse r → (∀ c ∈ reads, 0 < c.length) → reads ≠ [] → receive buf reads = .ok r := by
    intro buf reads hj hp hne
    induction reads generalizing buf with
    | nil => exact absurd rfl hne
    | cons c cs ih =>
      simp only [receive]
      cases cs with
      | nil =>
        simp only [List.flatten_cons, List.flatten_nil, List.append_nil] at hj
        rw [hj, fromBytes, hd]
        rfl
      | cons b cs =>
        have hj' : (buf ++ c) ++ (b :: cs).flatten = encResponse r := by simpa using hj
        have hb := hp b (by simp)
        have hne' : (b :: cs).flatten ≠ [] := by
          simp only [List.flatten_cons, ne_eq, List.append_eq_nil_iff, not_and]
          intro e; rw [e] at hb; exact absurd hb (by decide)
        have hn : fromBytes decResponse (buf ++ c) = none := by
          rw [fromBytes, mono_response.prefix (by rw [hj']; exact hd) hne']
          rfl
        have hlt : (buf ++ c).length < 4096 := by
          have := congrArg List.length hj'
          simp only [List.length_append, List.flatten_cons] at this hl ⊢
          omega
        rw [hn]
        simp only [hlt, if_true]
        exact ih (buf ++ c) hj' (fun x hx => hp x (List.mem_cons_of_mem _ hx)) (by simp)
  refine key [] reads (by simpa using hc.join) hc.pos ?_
  intro e
  have := hc.join
  rw [e] at this
  rw [← this] at hd
  cases hd

/-- The client reports an error when 4096 bytes or more of a response have come, but not all of it, although the server has done the work. -/
theorem C83_cut_fails {r : Response} (h : r.ok) {reads : List (List Byte)} (hc : Cut 4096 (encResponse r) reads)
    (hfull : ∃ pre post, reads = pre ++ post ∧ 4096 ≤ pre.flatten.length ∧ pre.flatten.length < (encResponse r).length) : receive [] reads = .err := by
  have hd := decResponse_enc h []
  rw [List.append_nil] at hd
  obtain ⟨pre, post, rfl, h1, h2⟩ := hfull
  have key : ∀ (buf : List Byte) (pre : List (List Byte)), buf ++ (pre.flatten ++ post.flatten) = encResponse r → buf.length < 4096 → 4096 ≤ (buf ++ pre.flatten).length →
      (buf ++ pre.flatten).length < (encResponse r).length → receive buf (pre ++ post) = .err := by
    intro buf pre hj hb hp hlt
    induction pre generalizing buf with
    | nil => simp at hp; omega
    | cons c cs ih =>
      simp only [List.cons_append, receive]
      have hj' : (buf ++ c) ++ (cs.flatten ++ post.flatten) = encResponse r := by simpa using hj
      have hne : cs.flatten ++ post.flatten ≠ [] := by
        intro e
        have := congrArg List.length hj'
        rw [e] at this
        simp only [List.append_nil, List.length_append, List.flatten_cons] at this hlt
        omega
      have hn : fromBytes decResponse (buf ++ c) = none := by
        rw [fromBytes, mono_response.prefix (by rw [hj']; exact hd) hne]
        rfl
      rw [hn]
      simp only
      split
      · rename_i hlt'
        exact ih (buf ++ c) hj' hlt' (by simpa using hp) (by simpa using hlt)
      · rfl
  refine key [] pre ?_ (by decide) (by simpa using h1) (by simpa using h2)
  simpa using hc.join

theorem reach (n m : Nat) (reads : List (List Byte)) (hf : ∀ c ∈ reads, c.length ≤ n) (hl : m ≤ reads.flatten.length) :
    ∃ pre post, reads = pre ++ post ∧ m ≤ pre.flatten.length ∧ pre.flatten.length < m + n + 1 := by
  induction reads generalizing m with
  | nil => exact ⟨[], [], rfl, hl, by simp⟩
  | cons c cs ih =>
    have hcn := hf c List.mem_cons_self
    by_cases hm : m ≤ c.length
    · exact ⟨[c], cs, rfl, by simpa using hm, by simp; omega⟩
    · obtain ⟨pre, post, rfl, h1, h2⟩ := ih (m - c.length) (fun x hx => hf x (List.mem_cons_of_mem _ hx)) (by simp only [List.flatten_cons, List.length_append] at hl; omega)
      exact ⟨c :: pre, post, rfl, by simp only [List.flatten_cons, List.length_append]; omega, by simp only [List.flatten_cons, List.length_append]; omega⟩

/-- A response of more than 8192 bytes is an error for the client however the network cuts it. -/
theorem C83_long_fails {r : Response} (h : r.ok) (hl : 8192 < (encResponse r).length) {reads : List (List Byte)} (hc : Cut 4096 (encResponse r) reads) : receive [] reads = .err := by
  refine C83_cut_fails h hc ?_
  obtain ⟨pre, post, h1, h2, h3⟩ := reach 4096 4096 reads hc.fits (by rw [hc.join]; omega)
  exact ⟨pre, post, h1, h2, by omega⟩

/-! ## Cases -/

def exQuery : Request := .query [83, 69, 76]
def exResp : Response := .results [[97]] [[.mk (.integer 5) (.length 4) false 3 none]] []

theorem exResp_ok : exResp.ok := by
  refine ⟨⟨by decide, by simp⟩, ⟨by decide, ?_⟩, by decide, by simp⟩
  intro r hr
  simp only [List.mem_cons, List.not_mem_nil, or_false] at hr
  subst hr
  exact ⟨by decide, by simp [Values.ok, Value.ok, Val.ok]; decide⟩

example : serve [encRequest exQuery, encRequest (.begin 3), encRequest .commit] = [some exQuery, some (.begin 3), some .commit] :=
  C82_requests_partial (rs := [exQuery, .begin 3, .commit]) (by
    intro r hr
    simp only [List.mem_cons, List.not_mem_nil, or_false] at hr
    rcases hr with rfl | rfl | rfl
    · show 3 < 2 ^ 64; decide
    · show 3 < 5; decide
    · trivial)

/-- A query with a COMMIT inside. -/
example : ∃ reads, Cut 1024 (encRequest (.query (List.replicate 1021 65 ++ encRequest .commit))) reads ∧ serve reads = [none, some .commit] :=
  C82_injection_fails (r := .commit) trivial _ List.length_replicate (by decide)

example : receive [] ((encResponse exResp).map ([·])) = .ok exResp :=
  C83_response_partial exResp_ok (by decide) ⟨by decide, by decide, by decide⟩

/-- A long message of an error. -/
example (n : Nat) (hn : 8200 < n) (hn' : n < 2 ^ 64) (reads : List (List Byte)) (hc : Cut 4096 (encResponse (.error (List.replicate n 65))) reads) : receive [] reads = .err := by
  refine C83_long_fails (r := .error (List.replicate n 65)) (by show (List.replicate n _).length < 2 ^ 64; simpa using hn') ?_ hc
  simp only [encResponse, encBytes, encSeq, List.length_append, List.length_flatMap]
  simp
  omega

end Verif.Net
