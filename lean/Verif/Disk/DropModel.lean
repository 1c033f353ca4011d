import Verif.Disk.WriterModel
import Mathlib.Data.List.Count

/-!
# Dropping the disk manager (`dattri/algorithm/block_projected_if/offload/disk_io/manager.py`)

Who keeps the manager alive, when its finaliser runs, and what the finaliser and the writers do at the same time. Simplified: a chunk of
rows is one value `τ`, both in its buffer and in the write queue; what is in the buffers and how it is laid out is in `WriterModel`. A
statement on shared state is one step.
-/

namespace Verif.Disk.Drop

open Verif

variable {τ : Type}

/-- Where a writer is (manager.py:341-377): before the test of `_shutdown`, before taking from the queue, writing a chunk, returned. -/
inductive WPc (τ : Type) where
  | check
  | get
  | write (t : τ)
  | exited
deriving DecidableEq

/-- Where the finaliser is (manager.py:995-1030): not called, putting the given number of stop signals, joining the given number of
threads, writing the open buffers, returned. -/
inductive MPc where
  | live
  | put (n : ℕ)
  | join (n : ℕ)
  | flush
  | done
deriving DecidableEq

/-- `userRef`: some code outside the manager still refers to it. -/
structure DSt (τ : Type) where
  userRef : Bool
  shutdown : Bool
  queue : List (Option τ)
  workers : List (WPc τ)
  bufs : List τ
  disk : List τ
  pc : MPc

/-- The constructor (manager.py:162-206) with `num_write_workers` threads. -/
def DSt.init (τ : Type) (numWorkers : ℕ) : DSt τ :=
  ⟨true, false, [], List.replicate numWorkers .check, [], [], .live⟩

/-- `queue.Queue(maxsize)` takes another entry (manager.py:190); a size of zero means no limit. -/
def room (cap : ℕ) (q : List (Option τ)) : Bool := decide (cap = 0) || decide (q.length < cap)

/-- What can happen. The Boolean says whether the write succeeds. -/
inductive DAct (τ : Type) where
  | store (t : τ)
  | hand (t : τ)
  | drop
  | callDel
  | collect
  | del (ok : Bool)
  | work (i : ℕ) (ok : Bool)
deriving DecidableEq

/-- The finaliser starts: `_shutdown = True`, then one stop signal per worker (manager.py:997-1003). -/
def startDel (s : DSt τ) : DSt τ := { s with shutdown := true, pc := .put s.workers.length }

/-- One step of the finaliser (manager.py:999-1030): a blocking `put(None)`, a `join` that also returns after its timeout, writing the
next open buffer, where the first exception ends the loop. `wait_for_async_operations` returns at once because `_shutdown` is set
(manager.py:931-932); the executor has no tasks. -/
def delStep (cap : ℕ) (s : DSt τ) (ok : Bool) : Option (DSt τ) :=
  match s.pc with
  | .live => none
  | .put 0 => some { s with pc := .join s.workers.length }
  | .put (n + 1) => if room cap s.queue then some { s with queue := s.queue ++ [none], pc := .put n } else none
  | .join 0 => some { s with pc := .flush }
  | .join (n + 1) => some { s with pc := .join n }
  | .flush =>
    match s.bufs with
    | [] => some { s with pc := .done }
    | t :: r => if ok then some { s with bufs := r, disk := s.disk ++ [t] } else some { s with bufs := r, pc := .done }
  | .done => none

/-- One step of a writer (manager.py:343-377). An empty queue ends in the timeout and another round; a failed write is logged. -/
def workStep (s : DSt τ) (i : ℕ) (ok : Bool) : Option (DSt τ) :=
  match s.workers[i]? with
  | none => none
  | some .check => some { s with workers := s.workers.set i (if s.shutdown then .exited else .get) }
  | some .get =>
    match s.queue with
    | [] => some { s with workers := s.workers.set i .check }
    | none :: q => some { s with queue := q, workers := s.workers.set i .exited }
    | some t :: q => some { s with queue := q, workers := s.workers.set i (.write t) }
  | some (.write t) => some { s with workers := s.workers.set i .check, disk := if ok then s.disk ++ [t] else s.disk }
  | some .exited => none

/-- One step. The threads hold the bound method `self._write_worker` (manager.py:196-202), so the finaliser runs by itself only when
nobody outside refers to the manager and every thread has returned; code that still has the manager may call it. The user fills and
hands over buffers only before the finaliser is called (simplification). -/
def step [DecidableEq τ] (cap : ℕ) (s : DSt τ) : DAct τ → Option (DSt τ)
  | .store t => if s.userRef = true ∧ s.pc = .live then some { s with bufs := s.bufs ++ [t] } else none
  | .hand t =>
    if s.userRef = true ∧ s.pc = .live ∧ t ∈ s.bufs ∧ room cap s.queue = true then
      some { s with bufs := s.bufs.erase t, queue := s.queue ++ [some t] } else none
  | .drop => if s.userRef = true ∧ s.pc = .live then some { s with userRef := false } else none
  | .callDel => if s.userRef = true ∧ s.pc = .live then some (startDel s) else none
  | .collect => if s.userRef = false ∧ s.pc = .live ∧ (∀ w ∈ s.workers, w = .exited) then some (startDel s) else none
  | .del ok => delStep cap s ok
  | .work i ok => workStep s i ok

/-- An execution (manager.py:341-377, 995-1030): the steps in the order in which they happen. -/
def run [DecidableEq τ] (cap : ℕ) (s : DSt τ) : List (DAct τ) → Option (DSt τ)
  | [] => some s
  | a :: as => (step cap s a).bind fun s' => run cap s' as

end Verif.Disk.Drop
