import Verif.Io.Model

/-!
# What the I/O engine should do

Files as functions from positions to bytes; calls take effect at one moment each; a history of calls and answers is explained by such moments. Of the model only `Kind`, `Res`, `Id` and `Lab` are used,
and `Files` as a record of two byte strings.
-/

namespace Verif.Io.Spec

open Verif.Io

/-- `g` is `f` after `d` was written at `off`: everything else as before, a gap behind the end of `f` filled with zeros. -/
def Written (f : Data) (off : Nat) (d : Data) (g : Data) : Prop :=
  (g.length = if d = [] then f.length else max f.length (off + d.length)) ∧
  ∀ i, i < g.length → g[i]? = if off ≤ i ∧ i < off + d.length then d[i - off]? else if i < f.length then f[i]? else some 0

/-- `d` are the `n` bytes of `f` at `off`. -/
def Has (f : Data) (off n : Nat) (d : Data) : Prop :=
  off + n ≤ f.length ∧ d.length = n ∧ ∀ i, i < n → d[i]? = f[off + i]?

/-- What one call may do to the database and the log and what it may return. An error means that nothing happened, or a beginning of what was to be written was. -/
def Act (k : Kind) (db log : Data) (r : Res) (db' log' : Data) : Prop :=
  match k, r with
  | .readPage p, .ok d => Has db (p * 4096) 4096 d ∧ db' = db ∧ log' = log
  | .writePage p d, .ok _ => d.length = 4096 ∧ Written db (p * 4096) d db' ∧ log' = log
  | .writePage p d, .err => log' = log ∧ ∃ n, Written db (p * 4096) (d.take n) db'
  | .readLog off n, .ok d => (n ≠ 0 → Has log off n d) ∧ d.length = n ∧ db' = db ∧ log' = log
  | .writeLog d off, .ok _ => Written log off d log' ∧ db' = db
  | .writeLog d off, .err => db' = db ∧ ∃ n, Written log off (d.take n) log'
  | .appendLog d, .ok o => db' = db ∧ log' = log ++ d ∧ (log.length < 2 ^ 64 → o.length = 8 ∧ Bytes.ofLE o = log.length)
  | .appendLog d, .err => db' = db ∧ ∃ n, log' = log ++ d.take n
  | _, _ => db' = db ∧ log' = log

/-- The actions of a history, one after the other, lead from one pair of files to another. -/
inductive Acts : Data → Data → List Lab → Data → Data → Prop where
  | nil (db log) : Acts db log [] db log
  | call {db log l db' log'} (i k) : Acts db log l db' log' → Acts db log (.call i k :: l) db' log'
  | ret {db log l db' log'} (i r) : Acts db log l db' log' → Acts db log (.ret i r :: l) db' log'
  | act {db log db1 log1 l db' log'} (i k r) : Act k db log r db1 log1 → Acts db1 log1 l db' log' → Acts db log (.act i k r :: l) db' log'

/-- What must have come before a label. -/
def After (pre : List Lab) : Lab → Prop
  /- a call is new -/
  | .call i _ => ∀ x ∈ pre, (∀ k, x ≠ .call i k) ∧ (∀ k r, x ≠ .act i k r) ∧ ∀ r, x ≠ .ret i r
  /- it takes effect once, after it began -/
  | .act i k _ => .call i k ∈ pre ∧ ∀ k r, Lab.act i k r ∉ pre
  /- it is answered once, after it began; when it is answered with a result, it had taken effect with that result -/
  | .ret i r => (∃ k, .call i k ∈ pre) ∧ (∀ r, Lab.ret i r ∉ pre) ∧ ∀ d, r = .ok d → ∃ k, Lab.act i k (.ok d) ∈ pre

/-- Every label of a history comes after what it needs. -/
def Placed (h : List Lab) : Prop := ∀ pre x post, h = pre ++ x :: post → After pre x

/-- What callers see of a history. -/
def seen (h : List Lab) : List Lab := h.filter fun | .act .. => false | _ => true

/-- Calls and answers that can be explained by letting each successful call take effect at one moment between call and answer (and failed ones at one moment after the call, if at all),
starting from the files `db` and `log` and ending with `db'` and `log'`. -/
def Linearizable (db log : Data) (obs : List Lab) (db' log' : Data) : Prop :=
  ∃ h, seen h = obs ∧ Placed h ∧ Acts db log h db' log'

/-- A call that has been answered has no effect afterwards. -/
def NoLateEffect (h : List Lab) : Prop :=
  ∀ pre i r post, h = pre ++ Lab.ret i r :: post → ∀ k r', Lab.act i k r' ∉ post

/-- What a crash may leave of a file whose content was `safe` at the last sync, when the ranges `since` have been written after that: the bytes outside of those ranges. -/
def Survives (safe : Data) (since : List (Nat × Nat)) (left : Data) : Prop :=
  ∀ i, i < safe.length → (∀ w ∈ since, i < w.1 ∨ w.1 + w.2 ≤ i) → left[i]? = safe[i]?

/-- Page numbers whose position in the file is a 64-bit number. -/
def Small : Kind → Prop
  | .readPage p => p < 2 ^ 52
  | .writePage p _ => p < 2 ^ 52
  | _ => True

/-- What is done with no new calls and no cancellations: queueing, and the work of the workers and of direct calls. -/
def Work : Ev → Prop
  | .enqueue _ | .take _ _ | .check _ | .permit _ | .exec _ _ | .finish _ | .directExec _ _ => True
  | _ => False

/-- Nothing has been cleared from the queue and no worker told to stop, or stopped. -/
def Normal : Ev → Prop
  | .drain | .signal | .abort _ => False
  | _ => True

end Verif.Io.Spec
