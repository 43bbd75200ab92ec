import Verif.Whole.Typed
import Verif.Net.Model

/-!
# A session over the network

The requests of `Verif.Whole.Typed` as a client sends them: bytes, which the server decodes to a request, and a text of SQL in it, which the crate `sqlparser` turns into a syntax tree
(here a parameter). The reply goes back as the bytes of a response. Prepared statements are left out, and the isolation level of a transaction: there is one client.
-/

namespace Verif.Whole

open Verif.Wire Verif.Bytes Verif.Sql Verif.Exec Verif.Dml
open Verif.Catalog (Cat Tab Col ColDef FkDef ObjName)

/-- A statement, not the begin or end of a transaction. -/
def TReq.isStmt : TReq → Bool
  | .create .. | .query .. | .select .. | .group .. | .distinct .. => true
  | _ => false

/-- What the crates decide: `Parser::parse_sql` on a text (`none` is an error; execution_engine.rs:330-352), and the bytes of a text. -/
structure Front where
  parse : List Byte → Option TReq
  utf8 : String → List Byte
  stmt : ∀ sql r, parse sql = some r → r.isStmt = true

/-- A small letter for a capital one. -/
def lowered (b : Byte) : Byte := if 65 ≤ b.val ∧ b.val ≤ 90 then b + 32 else b

/-- `delete `. -/
def deleteWord : List Byte := [100, 101, 108, 101, 116, 101, 32]
/-- `delete from `. -/
def deleteFrom : List Byte := [100, 101, 108, 101, 116, 101, 32, 102, 114, 111, 109, 32]

/-- `validate_sql_syntax` (execution_engine.rs:313-325). Letters that are not ASCII do not matter: none has one of `delete from` for its small letter. -/
def validSyntax (sql : List Byte) : Bool := !(deleteWord.isPrefixOf (sql.map lowered) && !deleteFrom.isPrefixOf (sql.map lowered))

/-- `prepare_sql` (execution_engine.rs:345-366) up to the syntax tree. -/
def Front.prepare (F : Front) (sql : List Byte) : Option TReq := if validSyntax sql then F.parse sql else none

/-- The name of the output column of a SELECT item. -/
def itemName : Plan.Item → String
  | .star => ""
  | .expr e a => (Plan.outName e a).col

/-- The names the engine writes before the rows of a SELECT (execution_engine.rs:644-654): those of the output schema. -/
def TReq.header (c : Cat) (r : TReq) : List String := match r.plan c with
  | .ok (.select _ q) => q.items.map itemName
  | _ => []

/-- `NetworkResultWriter` (result_writer.rs:241-282, 374-395) and `handle_network_query` (db_instance.rs:853-967, 1010-1075) with `format_client_error` (connection.rs:424-448): only a
SELECT writes names and rows; nothing is written for a number of rows, so that an INSERT, UPDATE or DELETE is answered like a COMMIT. The texts of errors are left open. -/
inductive Responds (F : Front) (names : List String) : Reply → Net.Response → Prop where
  | ok : Responds F names .ok (.results [] [] [])
  | count {n} : Responds F names (.count n) (.results [] [] [])
  | rows {out} : Responds F names (.rows out) (.results (names.map F.utf8) out [])
  | error {m} : Responds F names .error (.error m)

/-- `handle_network_query`. A text that is no SQL is an error; outside a transaction one has been started for it by then. -/
inductive Session.Serve (d : Disk) (ext : Value → Nat → Option Value) (seen : Cat → Server → Nat → Seen) (ch : Choices) (F : Front) (s : Session) :
    Net.Request → (Nat → Bool) → Net.Response → Session → Prop where
  | query {sql r a b p s'} : F.prepare sql = some r → Session.TStep d ext seen ch s ⟨r, a, b⟩ s' → Responds F (r.header s.cat) a p → Session.Serve d ext seen ch F s (.query sql) b p s'
  | garbled {sql m} : F.prepare sql = none → Session.Serve d ext seen ch F s (.query sql) (fun _ => true) (.error m) ⟨s.cat, s.srv.tick⟩
  | begin {i a b p s'} : Session.TStep d ext seen ch s ⟨.begin, a, b⟩ s' → Responds F [] a p → Session.Serve d ext seen ch F s (.begin i) b p s'
  | commit {a b p s'} : Session.TStep d ext seen ch s ⟨.commit, a, b⟩ s' → Responds F [] a p → Session.Serve d ext seen ch F s .commit b p s'
  | rollback {a b p s'} : Session.TStep d ext seen ch s ⟨.rollback, a, b⟩ s' → Responds F [] a p → Session.Serve d ext seen ch F s .rollback b p s'

/-- `handle_client_request` (connection.rs:464-495) on the bytes of one read. -/
inductive Session.Take (d : Disk) (ext : Value → Nat → Option Value) (seen : Cat → Server → Nat → Seen) (ch : Choices) (F : Front) (s : Session) :
    List Byte → (Nat → Bool) → Net.Response → Session → Prop where
  | request {bs r b p s'} : Net.fromBytes Net.decRequest bs = some r → Session.Serve d ext seen ch F s r b p s' → Session.Take d ext seen ch F s bs b p s'
  | undecoded {bs m} : Net.fromBytes Net.decRequest bs = none → Session.Take d ext seen ch F s bs (fun _ => true) (.error m) s

/-- `handle_client_connection` (connection.rs:360-402): each read of at most 1024 bytes is answered with a response. -/
inductive Session.TakeAll (d : Disk) (ext : Value → Nat → Option Value) (seen : Cat → Server → Nat → Seen) (ch : Choices) (F : Front) :
    Session → List (List Byte) → List ((Nat → Bool) × Net.Response) → Session → Prop where
  | nil {s} : Session.TakeAll d ext seen ch F s [] [] s
  | cons {s bs b p s' bss ps s''} : Session.Take d ext seen ch F s bs b p s' → Session.TakeAll d ext seen ch F s' bss ps s'' →
    Session.TakeAll d ext seen ch F s (bs :: bss) ((b, p) :: ps) s''

/-- A request, the response sent for it, and the reads of its bytes by the client. -/
structure Exchange where
  asked : Net.Request
  sent : Net.Response
  reads : List (List Byte)
  complete : Nat → Bool

/-- What the client takes from them (`receive_response`, client_impl.rs:444-489). -/
def Exchange.got (x : Exchange) : Net.Received := Net.receive [] x.reads

/-- A client that waits for each response (`send_request` and `receive_response`, client_impl.rs:405-489). A request reaches the server in one read, see C82; its response comes back in pieces. -/
inductive Session.Talk (d : Disk) (ext : Value → Nat → Option Value) (seen : Cat → Server → Nat → Seen) (ch : Choices) (F : Front) : Session → List Exchange → Session → Prop where
  | nil {s} : Session.Talk d ext seen ch F s [] s
  | cons {s x bs s' xs s''} : Net.Cut 1024 (Net.encRequest x.asked) [bs] → Session.Take d ext seen ch F s bs x.complete x.sent s' → Net.Cut 4096 (Net.encResponse x.sent) x.reads →
    Session.Talk d ext seen ch F s' xs s'' → Session.Talk d ext seen ch F s (x :: xs) s''

/-- The client calls `receive_response` again and again on the reads to come: each call takes the reads it needs. -/
def receives : Nat → List (List Byte) → List Net.Received
  | 0, _ => []
  | n + 1, reads => Net.receive [] reads :: receives n (reads.drop (used [] reads))
where
  /-- How many reads `Net.receive` takes. -/
  used (buf : List Byte) : List (List Byte) → Nat
    | [] => 0
    | c :: cs => match Net.fromBytes Net.decResponse (buf ++ c) with
      | some _ => 1
      | none => if (buf ++ c).length < 4096 then 1 + used (buf ++ c) cs else 1

end Verif.Whole
