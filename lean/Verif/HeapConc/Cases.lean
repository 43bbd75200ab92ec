import Verif.HeapConc.Props
import Verif.Dml.Witness

/-!
# Cases of C138, and where it fails
-/

namespace Verif.HeapConc

open Verif.Wire Verif.Bytes Verif.Sql Verif.Exec Verif.Dml

/-- A schedule: who calls, who makes the next step. -/
inductive Cmd where
  | call (t : Nat) (op : Op)
  | step (t : Nat)

/-- The run of a schedule, newest first. -/
def play (d : Disk) : Sys → List Cmd → Option (List (Label × Sys) × Sys)
  | σ, [] => some ([], σ)
  | σ, .call t op :: cs => if (σ.pc t).free then (play d (σ.goto t op.entry) cs).map fun x => ((.call t op, σ.goto t op.entry) :: x.1, x.2) else none
  | σ, .step t :: cs => match σ.step d t with
    | none => none
    | some (e, σ') => (play d σ' cs).map fun x => ((e, σ') :: x.1, x.2)

theorem run_cons {d : Disk} {σ σ1 σ2 : Sys} {e : Label} {l : List (Label × Sys)} (st : Step d σ e σ1) (h : Run d σ1 l σ2) : Run d σ ((e, σ1) :: l) σ2 :=
  run_append (l := [(e, σ1)]) (.snoc (.nil σ) st) h

theorem play_run {d : Disk} : ∀ {cs : List Cmd} {σ σ' : Sys} {l : List (Label × Sys)}, play d σ cs = some (l, σ') → Run d σ l σ'
  | [], σ, σ', l, h => by
    cases h
    exact .nil _
  | .call t op :: cs, σ, σ', l, h => by
    simp only [play] at h
    split at h
    · rename_i hfree
      obtain ⟨x, hx, he⟩ := Option.map_eq_some_iff.1 h
      cases he
      exact run_cons (.call op hfree) (play_run hx)
    · cases h
  | .step t :: cs, σ, σ', l, h => by
    simp only [play] at h
    split at h
    · cases h
    · rename_i e σ1 hst
      obtain ⟨x, hx, he⟩ := Option.map_eq_some_iff.1 h
      cases he
      exact run_cons (.step hst) (play_run hx)

/-- The table of `exHeap`, unused: a deleted row and a row on the first page, a row on the second. -/
def exSys : Sys := ⟨exHeap, none, [], fun _ => .idle⟩

theorem exSys_ready : Ready exSys exSlots := by
  refine ⟨exTable, fun r s h => ?_, rfl, rfl, fun _ => rfl⟩
  obtain ⟨p, i⟩ := r
  match p, i, h with
  | 0, 0, h => cases h; simp [exSlots]
  | 0, 1, h => cases h; simp [exSlots]
  | 0, i + 2, h => simp [exSys, Heap.slot?, exHeap] at h
  | 1, 0, h => cases h; simp [exSlots]
  | 1, i + 1, h => simp [exSys, Heap.slot?, exHeap] at h
  | p + 2, i, h => simp [exSys, Heap.slot?, exHeap] at h

def exX : Slot := ⟨⟨7, false, false⟩, [i32 7, i32 70]⟩
def exY : Slot := ⟨⟨8, false, false⟩, [i32 8, i32 80]⟩

def steps (t n : Nat) : List Cmd := List.replicate n (.step t)

/-- Thread 1 scans up to the second page. Threads 2 and 3 insert: thread 2 finds space in the last page; thread 3 does not, makes a new page and links it. Thread 1 reads the row on
the second page in between, and goes on when the latch is free. -/
def exSchedule : List Cmd := steps 1 9 ++ [.call 2 (.insert exX), .call 3 (.insert exY)] ++ steps 2 2 ++ steps 3 4 ++ steps 1 1 ++ steps 3 2 ++ steps 1 5

/-- The threads are told the record ids of their rows, and the scan returns four rows. -/
example : (play exDisk exSys (.call 1 .scan :: exSchedule)).map (fun x => (placed x.1, match x.2.pc 1 with | .done (.rows out) => some (out.map (·.1)) | _ => none)) =
  some ([⟨1, 1⟩, ⟨2, 0⟩], some [⟨0, 1⟩, ⟨1, 0⟩, ⟨1, 1⟩, ⟨2, 0⟩]) := by decide +kernel

/-- The case meets the hypotheses of the theorems about histories and insertions. -/
example {l : List (Label × Sys)} {σ : Sys} (h : play exDisk exSys (.call 1 .scan :: exSchedule) = some (l, σ)) :=
  And.intro (C138_history_partial exDisk_fresh exSys_ready (play_run h)) (C138_inserts_partial exDisk_fresh exSys_ready (play_run h))

/-- At every moment of a run the rows are those of a chain of pages. -/
theorem run_sound {d : Disk} (hf : Fresh d) {σ σ' : Sys} {S : Sheet} {ids : List Nat} {l : List (Label × Sys)} (hI : Rel σ S ids) (hr : Run d σ l σ') :
    (∃ S' ids', Rel σ' S' ids') ∧ ∀ m ∈ moments σ l, ∃ ids', Sound m.heap ids' := by
  induction hr with
  | nil => exact ⟨⟨S, ids, hI⟩, fun m hm => by
      have : m = σ := by simpa [moments] using hm
      exact ⟨ids, this ▸ hI.inv.sound⟩⟩
  | @snoc σ1 σ2 l e _ st ih =>
    obtain ⟨⟨S1, ids1, hI1⟩, hm1⟩ := ih
    obtain ⟨S2, ids2, _, hI2, _⟩ := hI1.step hf st
    refine ⟨⟨S2, ids2, hI2⟩, fun m hm => ?_⟩
    rw [show moments σ (l ++ [(e, σ2)]) = moments σ l ++ [σ2] by simp [moments]] at hm
    rcases List.mem_append.1 hm with h | h
    · exact hm1 m h
    · rw [List.mem_singleton.1 h]; exact ⟨ids2, hI2.inv.sound⟩

theorem live_of {σ : Sys} {ids : List Nat} (hs : Sound σ.heap ids) {r : Rid} (h : (match σ.heap.slot? r with | some s => !s.info.deleted | none => false) = true) : Live σ r := by
  split at h
  · rename_i s hsl
    exact ⟨_, s, ⟨ids, hs.chain, hs.nodup, rfl⟩, (mem_rows hs).2 hsl, by simpa using h⟩
  · cases h

/-- Thread 1 has called. -/
def exCalled : Sys := exSys.goto 1 .scanFirst

/-- Up to the last step of the scan. -/
def exPart : Option (List (Label × Sys) × Sys) := play exDisk exCalled exSchedule.dropLast

def exMid : List (Label × Sys) × Sys := exPart.getD ([], exCalled)

theorem exPart_mid : exPart = some exMid := by
  have : exPart.isSome = true := by decide +kernel
  obtain ⟨x, hx⟩ := Option.isSome_iff_exists.1 this
  simp [exMid, hx]

/-- What the scan is told. -/
def exOut : List (Rid × Slot) := (exMid.2.pc 1).out

def exEnd : Sys := exMid.2.goto 1 (.done (.rows exOut))

theorem exLast : exMid.2.step exDisk 1 = some (.answer 1 (.rows exOut), exEnd) := rfl

theorem exScan_run : Run exDisk exCalled (exMid.1 ++ [(.answer 1 (.rows exOut), exEnd)]) exEnd := .snoc (play_run exPart_mid) (.step exLast)

theorem exScan_called : Run exDisk exSys ([] ++ [(.call 1 .scan, exCalled)]) exCalled := .snoc (.nil _) (.call .scan rfl)

theorem exScan_scanned : Scanned exCalled (exMid.1 ++ [(.answer 1 (.rows exOut), exEnd)]) exEnd exOut := by
  refine C138_scan_partial exDisk_fresh (fun _ => rfl) exSys_ready exScan_called exScan_run fun x hx op he => ?_
  have : exMid.1.all (fun x => match x.1 with | .call 1 _ => false | _ => true) = true := by decide +kernel
  have := List.all_eq_true.1 this x hx
  rw [he] at this
  cases this

/-- Row (0, 1) was there throughout, so the scan returns it. -/
example : (⟨0, 1⟩ : Rid) ∈ exOut.map (·.1) := by
  obtain ⟨S, ids, _, hI⟩ := run_rel exDisk_fresh exSys_ready exScan_called
  refine exScan_scanned.whole _ fun m hm => ?_
  obtain ⟨ids', hs⟩ := (run_sound exDisk_fresh hI exScan_run).2 m hm
  refine live_of hs ?_
  have : (moments exCalled (exMid.1 ++ [(.answer 1 (.rows exOut), exEnd)])).all (fun m => match m.heap.slot? ⟨0, 1⟩ with | some s => !s.info.deleted | none => false) = true := by
    decide +kernel
  exact List.all_eq_true.1 this m hm

/-! ## Where it fails -/

/-- Transactions 5 and 6 delete the same row. Both read it while it is committed; then both write. -/
def exRace : List Cmd := [.call 1 (.change 5 ⟨0, 1⟩ .delete), .call 2 (.change 6 ⟨0, 1⟩ .delete)] ++ steps 1 1 ++ steps 2 1 ++ steps 1 2 ++ steps 2 1

def exRaced : List (Label × Sys) × Sys := (play exDisk exSys exRace).getD ([], exSys)

/-- **C138** (full claim false): a change need not be allowed on the row as it stands when it is made. `delete_tuple` checks the row under the lock of its page, gives the lock up, and
writes later under the latch without looking again: here transaction 6 overwrites the deletion of transaction 5, which has not committed, and both are told that they succeeded. -/
theorem C138_checked_write_fails : ¬ ∀ (d : Disk) (σ₀ σ σ' : Sys) (c : List (Rid × Slot)) (l : List (Label × Sys)) (t txn : Nat) (r : Rid) (s : Slot),
    Ready σ₀ c → Run d σ₀ l σ → (∃ x ∈ l, x.1 = .call t (.change txn r .delete)) → Step d σ (.answer t .changed) σ' → σ.heap.slot? r = some s → Allowed txn .delete s := by
  intro h
  have hp : play exDisk exSys exRace = some exRaced := by
    have : (play exDisk exSys exRace).isSome = true := by decide +kernel
    obtain ⟨x, hx⟩ := Option.isSome_iff_exists.1 this
    simp [exRaced, hx]
  have := h exDisk exSys exRaced.2 _ exSlots exRaced.1 2 6 ⟨0, 1⟩ ⟨⟨5, false, true⟩, [i32 1, i32 10]⟩ exSys_ready (play_run hp)
    ⟨(.call 2 (.change 6 ⟨0, 1⟩ .delete), (exSys.goto 1 (.chgRead 5 ⟨0, 1⟩ .delete)).goto 2 (.chgRead 6 ⟨0, 1⟩ .delete)), by exact .tail _ (.head _), rfl⟩
    (.step (t := 2) (σ' := ({ exRaced.2 with heap := (exRaced.2.heap.write exDisk ⟨0, 1⟩ ⟨⟨6, false, true⟩, [i32 1, i32 10]⟩).getD exHeap, writer := none } : Sys).goto 2 (.done .changed)) rfl) rfl
  simp [Allowed] at this

/-- A scan reads row (0, 1); then both rows are updated by transaction 5; then it reads row (1, 0). -/
def exTorn : List Cmd := steps 1 9 ++ [.call 2 (.change 5 ⟨0, 1⟩ (.update 0 [i32 1, i32 11]))] ++ steps 2 3 ++ [.call 2 (.change 5 ⟨1, 0⟩ (.update 0 [i32 2, i32 21]))] ++ steps 2 3 ++
  steps 1 1

def exTornMid : List (Label × Sys) × Sys := (play exDisk exCalled exTorn).getD ([], exCalled)

def exTornOut : List (Rid × Slot) := (exTornMid.2.pc 1).out

def exTornEnd : Sys := exTornMid.2.goto 1 (.done (.rows exTornOut))

theorem exTorn_out : exTornOut = [(⟨0, 1⟩, old [i32 1, i32 10]), (⟨1, 0⟩, ⟨⟨5, false, false⟩, [i32 2, i32 21]⟩)] := rfl

/-- **C138** (full claim false): what a scan returns need not be what the table held at any one moment: here it returns one row from before two updates and one from after both. -/
theorem C138_snapshot_fails : ¬ ∀ (d : Disk) (σ₀ σ σ' : Sys) (c : List (Rid × Slot)) (l₀ l : List (Label × Sys)) (t : Nat) (out : List (Rid × Slot)), Fresh d → (∀ p, d.readable p = true) →
    Ready σ₀ c → Run d σ₀ (l₀ ++ [(.call t .scan, σ)]) σ → Run d σ (l ++ [(.answer t (.rows out), σ')]) σ' → (∀ x ∈ l, ∀ op, x.1 ≠ .call t op) →
    ∃ m ∈ moments σ (l ++ [(.answer t (.rows out), σ')]), ∃ c', Contents m c' ∧ ∀ x ∈ out, x ∈ c' := by
  intro h
  have hp : play exDisk exCalled exTorn = some exTornMid := by
    have : (play exDisk exCalled exTorn).isSome = true := by decide +kernel
    obtain ⟨x, hx⟩ := Option.isSome_iff_exists.1 this
    simp [exTornMid, hx]
  have hr : Run exDisk exCalled (exTornMid.1 ++ [(.answer 1 (.rows exTornOut), exTornEnd)]) exTornEnd := .snoc (play_run hp) (.step (t := 1) rfl)
  obtain ⟨m, hm, c', hc, hall⟩ := h exDisk exSys exCalled exTornEnd exSlots [] exTornMid.1 1 exTornOut exDisk_fresh (fun _ => rfl) exSys_ready exScan_called hr fun x hx op he => by
    have : exTornMid.1.all (fun x => match x.1 with | .call 1 _ => false | _ => true) = true := by decide +kernel
    have := List.all_eq_true.1 this x hx
    rw [he] at this
    cases this
  have hn : (moments exCalled (exTornMid.1 ++ [(.answer 1 (.rows exTornOut), exTornEnd)])).all (fun m =>
      !((m.heap.slot? ⟨0, 1⟩).map (·.info.creator) == some 1 && (m.heap.slot? ⟨1, 0⟩).map (·.info.creator) == some 5)) = true := by decide +kernel
  have hn := List.all_eq_true.1 hn m hm
  obtain ⟨ids, h1, h2, rfl⟩ := hc
  rw [exTorn_out] at hall
  have slot : ∀ x ∈ slotsOf m.heap.page ids, m.heap.slot? x.1 = some x.2 := fun x hx => by
    obtain ⟨_, pg, a, b⟩ := mem_slotsOf.1 hx
    simp only [Heap.slot?, a, b]
  have s1 := slot _ (hall _ (.head _))
  have s2 := slot _ (hall _ (.tail _ (.head _)))
  simp only at s1 s2
  rw [s1, s2] at hn
  cases hn

end Verif.HeapConc
