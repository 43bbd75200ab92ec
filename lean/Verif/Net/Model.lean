import Verif.Wire.Value

/-!
# The network protocol (`src/server/protocol.rs`, `src/server/connection.rs`, `src/client/client_impl.rs`)

Messages in postcard's wire format, how the server and the client find them in the stream of bytes. A read of the stream gives the next bytes in pieces of any size (`Cut`), at most
as many as the buffer holds.
-/

namespace Verif.Net

open Verif.Wire
open Verif.Bytes (Byte)

/-- `DatabaseRequest` (protocol.rs:223-274); an isolation level is its number (transaction.rs:212-224), a string its bytes. -/
inductive Request where
  | query (sql : List Byte)
  | begin (iso : Nat)
  | commit
  | rollback
  | prepare (sql : List Byte)
  | execute (stmt : Nat) (params : List Value)
  | close (stmt : Nat)

/-- `DatabaseResponse` and `QueryResults` (protocol.rs:280-307, 326-344). -/
inductive Response where
  | results (names : List (List Byte)) (rows : List (List Value)) (messages : List (List Byte))
  | prepareOk (stmt : Nat) (types : List Nat)
  | error (message : List Byte)

/-- The derived `Serialize` of `DatabaseRequest`. -/
def encRequest : Request → List Byte
  | .query s => encU32 0 ++ encBytes s
  | .begin i => encU32 1 ++ encU32 i
  | .commit => encU32 2
  | .rollback => encU32 3
  | .prepare s => encU32 4 ++ encBytes s
  | .execute n ps => encU32 5 ++ (encU64 n ++ encTuple ps)
  | .close n => encU32 6 ++ encU64 n

/-- `IsolationLevel` has five variants. -/
def decIso : Dec Nat := fun bs => (decU32 bs).bind fun r => if r.1 < 5 then some r else none

/-- The derived `Deserialize` of `DatabaseRequest`. -/
def decRequest : Dec Request := fun bs => (decU32 bs).bind fun r => match r.1 with
  | 0 => (decBytes r.2).map fun r => (.query r.1, r.2)
  | 1 => (decIso r.2).map fun r => (.begin r.1, r.2)
  | 2 => some (.commit, r.2)
  | 3 => some (.rollback, r.2)
  | 4 => (decBytes r.2).map fun r => (.prepare r.1, r.2)
  | 5 => (decU64 r.2).bind fun n => (decTuple n.2).map fun r => (.execute n.1 r.1, r.2)
  | 6 => (decU64 r.2).map fun r => (.close r.1, r.2)
  | _ => none

/-- The derived `Serialize` of `DatabaseResponse`. -/
def encResponse : Response → List Byte
  | .results ns rs ms => encU32 0 ++ (encSeq encBytes ns ++ (encSeq encTuple rs ++ encSeq encBytes ms))
  | .prepareOk n ts => encU32 1 ++ (encU64 n ++ encSeq encU32 ts)
  | .error s => encU32 2 ++ encBytes s

/-- The derived `Deserialize` of `DatabaseResponse`. -/
def decResponse : Dec Response := fun bs => (decU32 bs).bind fun r => match r.1 with
  | 0 => (decSeq decBytes r.2).bind fun ns => (decSeq decTuple ns.2).bind fun rs => (decSeq decBytes rs.2).map fun ms => (.results ns.1 rs.1 ms.1, ms.2)
  | 1 => (decU64 r.2).bind fun n => (decSeq decTypeId n.2).map fun ts => (.prepareOk n.1 ts.1, ts.2)
  | 2 => (decBytes r.2).map fun r => (.error r.1, r.2)
  | _ => none

/-- `postcard::from_bytes`: bytes behind the message are ignored. -/
def fromBytes {α : Type} (d : Dec α) (bs : List Byte) : Option α := (d bs).map (·.1)

/-- What the server takes from each read (connection.rs:365-402, 464-470): the bytes of one read are one request; `none` is answered with an error. -/
def serve (reads : List (List Byte)) : List (Option Request) := reads.map (fromBytes decRequest)

/-- What `receive_response` gives: a response, an error, or it waits for more bytes. -/
inductive Received where
  | ok (r : Response)
  | err
  | waiting

/-- `receive_response` (client_impl.rs:444-489) on the reads to come, having read `buf`. The end of the stream is left out. -/
def receive (buf : List Byte) : List (List Byte) → Received
  | [] => .waiting
  | c :: cs => match fromBytes decResponse (buf ++ c) with
    | some r => .ok r
    | none => if (buf ++ c).length < 4096 then receive (buf ++ c) cs else .err

/-- The reads of a stream of bytes with a buffer of `n` bytes: pieces that are not empty and not longer than the buffer. -/
structure Cut (n : Nat) (bs : List Byte) (reads : List (List Byte)) : Prop where
  join : reads.flatten = bs
  pos : ∀ c ∈ reads, 0 < c.length
  fits : ∀ c ∈ reads, c.length ≤ n

end Verif.Net
