import Verif.Base.Tensor
import Verif.Base.PyDict

/-!
# The chunked disk writer

Models the storing side of `ChunkedDiskIOManager`
(`/repo/dattri/algorithm/block_projected_if/offload/disk_io/manager.py:132-699`) and
`ChunkedMemoryMapHandler.write_chunk` (`.../disk_io/memory_map.py:24-140`) as a transition system: one
storing thread and a pool of background writers, run under an arbitrary schedule.

* One storing thread calls `start_batch_range`, `store_gradients`/`store_ifvp` and
  `finalize_batch_range`; its steps between two accesses to data shared with the writers (the pending
  set, the write queue) are one step of the model.
* Writers are interchangeable, so the writers that hold a task are kept as a list, bounded by the number
  of writers; an idle writer may take the head of the queue.
* A chunk file is written in two steps, the data file and then the metadata file; either may raise.
* A batch tensor is the list of its rows (the layers already concatenated, see
  `Verif.BlockIF.ConcatModel`); the row type is arbitrary.
* The pre-allocated buffer tensor is represented by its filled part.  The buffer pool only recycles
  storage (buffers are reset when handed out, manager.py:111-113, and their contents are cloned before
  they are returned, 543-548), so it is not part of the state; with a single storing thread the request
  after an overflow cannot time out because a buffer has just been returned.
* Shutting down (`__del__`, 995-1018) and the logging are left out.
-/

namespace Verif.Disk

/-- Kinds of stored data and their directories (manager.py:398, 917-927). -/
inductive DT where
  | gradients
  | ifvp
  deriving DecidableEq, Repr

/-- Constructor arguments (manager.py:135-146): batches per chunk, rows per buffer, queue bound, number
of writers. -/
structure Cfg where
  chunkSize : ℕ
  maxRows : ℕ
  queueCap : ℕ
  workers : ℕ

/-- `(data_type, chunk_id)`. -/
abbrev Key := DT × ℕ

/-- One entry of `batch_info` (manager.py:516-522). -/
structure Info where
  idx : ℕ
  start : ℕ
  stop : ℕ
  deriving DecidableEq

/-- `ChunkBuffer` (manager.py:26-34); `current_row` is `tensor.length`, `batch_indices` is
`info.map idx`. -/
structure Buffer (R : Type) where
  tensor : List R
  info : List Info

/-- A write task (manager.py:555). -/
structure Task (R : Type) where
  key : Key
  tensor : List R
  info : List Info

/-- The file name `chunk_{data_type}_{batch_start}_{batch_end}` in the directory of the data type
(memory_map.py:55). -/
structure Path where
  dt : DT
  lo : ℕ
  hi : ℕ
  deriving DecidableEq

/-- Generating the file name (memory_map.py:51-55); `min([])` raises, written `none`. -/
def pathOf (dt : DT) : List Info → Option Path
  | [] => none
  | i :: is =>
    some ⟨dt, is.foldl (fun a j => min a j.idx) i.idx, is.foldl (fun a j => max a j.idx) i.idx⟩

/-- What the storing thread still has to do after a flush. -/
inductive Cont (R : Type) where
  /-- return from the store call -/
  | done
  /-- continue the store call with a new buffer after an overflow (manager.py:504-527) -/
  | retry (k : Key) (b : ℕ) (rows : List R)
  /-- continue the loop of `finalize_batch_range` (manager.py:688-690) -/
  | flushAll (ks : List Key)

/-- Where the storing thread is. -/
inductive Pc (R : Type) where
  /-- outside the manager -/
  | idle
  /-- before adding the pending mark (manager.py:551-552) -/
  | mark (t : Task R) (c : Cont R)
  /-- before putting the task into the queue (manager.py:557-564) -/
  | put (t : Task R) (c : Cont R)
  /-- after the flush -/
  | resume (c : Cont R)
  /-- in the flushing loop of `finalize_batch_range` -/
  | flushAll (ks : List Key)
  /-- in the waiting loop of `finalize_batch_range` (manager.py:693-697) -/
  | wait

/-- How far a writer is with its task. -/
inductive Phase where
  /-- taken from the queue -/
  | got
  /-- data file written -/
  | data
  /-- metadata written; the pending mark is still set -/
  | done
  deriving DecidableEq

/-- What happened, newest first: the observable history of a run. -/
inductive Ev (R : Type) where
  /-- `start_batch_range(s, e)` accepted -/
  | started (s e : ℕ)
  /-- a batch was stored -/
  | stored (k : Key) (b : ℕ) (rows : List R)
  /-- a store call with no rows returned (manager.py:479-480) -/
  | storedEmpty (k : Key) (b : ℕ)
  /-- a store call found the buffer too small (manager.py:497) -/
  | overflow (k : Key)
  /-- the buffer of a chunk was taken for writing -/
  | flushed (k : Key)
  /-- a write task raised -/
  | failed (k : Key)
  /-- `finalize_batch_range` returned without a range (manager.py:683-684) -/
  | skipped
  /-- `finalize_batch_range` returned after flushing and waiting -/
  | finalized
  /-- a call raised -/
  | raised (e : Err)

/-- State of the manager, its threads and the disk. -/
structure St (R : Type) where
  /-- `_chunk_buffers` -/
  buffers : List (Key × Buffer R)
  /-- `_pending_writes` -/
  pending : List Key
  /-- `_write_queue` -/
  queue : List (Task R)
  /-- tasks held by writers -/
  busy : List (Phase × Task R)
  /-- `.mmap` files -/
  dataFile : Path → Option (List R)
  /-- `_metadata.json` files -/
  metaFile : Path → Option (List Info)
  /-- `current_batch_range` -/
  range : Option (ℕ × ℕ)
  pc : Pc R
  ev : List (Ev R)

variable {R : Type}

/-- A new manager over existing files (manager.py:160-222). -/
def St.init (dataFile : Path → Option (List R)) (metaFile : Path → Option (List Info)) : St R :=
  ⟨[], [], [], [], dataFile, metaFile, none, .idle, []⟩

/-- `get_chunk_id` (manager.py:231-240). -/
def chunkId (cfg : Cfg) (b : ℕ) : ℕ := b / cfg.chunkSize

/-- `_is_chunk_complete` (manager.py:646-679). -/
def isComplete (cfg : Cfg) (st : St R) (k : Key) : Bool :=
  match st.range with
  | none => false
  | some (s, e) =>
    let lo := max (k.2 * cfg.chunkSize) s
    let hi := min ((k.2 + 1) * cfg.chunkSize) e
    if hi ≤ lo then false
    else
      match PyDict.get? st.buffers k with
      | none => false
      | some buf =>
        (List.range hi).all fun b => decide (b < lo) || (buf.info.map Info.idx).contains b

/-- The first part of `_async_flush_chunk_buffer` (manager.py:535-548): take the buffer and build the
task; without a buffer there is nothing to do. -/
def beginFlush (st : St R) (k : Key) (c : Cont R) : St R :=
  match PyDict.get? st.buffers k with
  | none => { st with pc := .resume c }
  | some buf =>
    { st with buffers := PyDict.erase k st.buffers, pc := .mark ⟨k, buf.tensor, buf.info⟩ c,
              ev := .flushed k :: st.ev }

/-- Copy a batch into the buffer and flush the chunk if it is complete (manager.py:513-527, 632-644).
Assigning more rows than the slice of the buffer has raises `RuntimeError`. -/
def append (cfg : Cfg) (st : St R) (k : Key) (b : ℕ) (rows : List R) : St R :=
  match PyDict.get? st.buffers k with
  | none => { st with pc := .idle, ev := .raised .keyError :: st.ev }
  | some buf =>
    if buf.tensor.length + rows.length > cfg.maxRows then
      { st with pc := .idle, ev := .raised .runtimeError :: st.ev }
    else
      let st := { st with
        buffers := PyDict.set k ⟨buf.tensor ++ rows,
          buf.info ++ [⟨b, buf.tensor.length, buf.tensor.length + rows.length⟩]⟩ st.buffers,
        ev := .stored k b rows :: st.ev, pc := .idle }
      if isComplete cfg st k then beginFlush st k .done else st

/-- `start_batch_range` (manager.py:321-339). -/
def startRange (cfg : Cfg) (st : St R) (s e : ℕ) : St R :=
  if s % cfg.chunkSize ≠ 0 then { st with ev := .raised .valueError :: st.ev }
  else { st with range := some (s, e), ev := .started s e :: st.ev }

/-- Lines 458-475: the buffer of the chunk, a new one if there is none. -/
def openBuffer (st : St R) (k : Key) : St R × Buffer R :=
  match PyDict.get? st.buffers k with
  | some buf => (st, buf)
  | none => ({ st with buffers := PyDict.set k ⟨[], []⟩ st.buffers }, ⟨[], []⟩)

/-- Lines 477-527 (`store_ifvp`: 603-644) once the buffer `buf` of the chunk is known, up to the first
flush. -/
def storeIn (cfg : Cfg) (st : St R) (buf : Buffer R) (k : Key) (b : ℕ) (rows : List R) : St R :=
  if rows.length = 0 then { st with ev := .storedEmpty k b :: st.ev }
  else if buf.tensor.length + rows.length > cfg.maxRows then
    beginFlush { st with ev := .overflow k :: st.ev } k (.retry k b rows)
  else append cfg st k b rows

/-- `store_gradients` (with `is_test = False`) and `store_ifvp` (manager.py:423-527, 566-644), up to the
first flush. -/
def store (cfg : Cfg) (st : St R) (dt : DT) (b : ℕ) (rows : List R) : St R :=
  storeIn cfg (openBuffer st (dt, chunkId cfg b)).1 (openBuffer st (dt, chunkId cfg b)).2
    (dt, chunkId cfg b) b rows

/-- The start of `finalize_batch_range` (manager.py:681-687). -/
def finalize (st : St R) : St R :=
  match st.range with
  | none => { st with ev := .skipped :: st.ev }
  | some _ => { st with pc := .flushAll (PyDict.keys st.buffers) }

/-- The next step of the storing thread inside a call; `none` when it is blocked. -/
def prodStep (cfg : Cfg) (st : St R) : Option (St R) :=
  match st.pc with
  | .idle => none
  | .mark t c =>
    some { st with pending := if t.key ∈ st.pending then st.pending else t.key :: st.pending,
                   pc := .put t c }
  | .put t c =>
    if st.queue.length < cfg.queueCap then some { st with queue := st.queue ++ [t], pc := .resume c }
    else none
  | .resume .done => some { st with pc := .idle }
  | .resume (.retry k b rows) =>
    some (append cfg { st with buffers := PyDict.set k ⟨[], []⟩ st.buffers } k b rows)
  | .resume (.flushAll ks) => some { st with pc := .flushAll ks }
  | .flushAll [] => some { st with pc := .wait }
  | .flushAll (k :: ks) => some (beginFlush st k (.flushAll ks))
  | .wait =>
    if st.pending = [] then some { st with pc := .idle, range := none, ev := .finalized :: st.ev }
    else some st

/-- A file map with one file replaced. -/
def put {α : Type} (f : Path → Option α) (p : Path) (v : α) : Path → Option α :=
  fun q => if q = p then some v else f q

/-- Replace the writer at position `i`. -/
def setBusy (st : St R) (i : ℕ) (x : Phase × Task R) : St R := { st with busy := st.busy.set i x }

/-- The next step of the writer at position `i` of the busy list, the operation succeeding
(manager.py:350-363; memory_map.py:51-131). -/
def workStep (st : St R) (i : ℕ) : Option (St R) :=
  match st.busy[i]? with
  | none => none
  | some (.got, t) =>
    match pathOf t.key.1 t.info with
    | none => none
    | some p => some (setBusy { st with dataFile := put st.dataFile p t.tensor } i (.data, t))
  | some (.data, t) =>
    match pathOf t.key.1 t.info with
    | none => none
    | some p => some (setBusy { st with metaFile := put st.metaFile p t.info } i (.done, t))
  | some (.done, t) =>
    some { st with pending := st.pending.filter fun k => decide (k ≠ t.key),
                   busy := st.busy.eraseIdx i }

/-- The operation of the writer at position `i` raises: the exception is logged and the writer becomes
idle; the pending mark stays (manager.py:365-377, 419-421).  Simplified: a write that raises leaves its
file as it was; no theorem depends on the content of a file whose last write raised. -/
def failStep (st : St R) (i : ℕ) : Option (St R) :=
  match st.busy[i]? with
  | none => none
  | some (.got, t) => some { st with busy := st.busy.eraseIdx i, ev := .failed t.key :: st.ev }
  | some (.data, t) => some { st with busy := st.busy.eraseIdx i, ev := .failed t.key :: st.ev }
  | some (.done, _) => none

/-- An idle writer takes the head of the queue (manager.py:346). -/
def takeStep (cfg : Cfg) (st : St R) : Option (St R) :=
  match st.queue with
  | [] => none
  | t :: q =>
    if st.busy.length < cfg.workers then some { st with queue := q, busy := st.busy ++ [(.got, t)] }
    else none

/-- One scheduling choice. -/
inductive Act (R : Type) where
  | callStart (s e : ℕ)
  | callStore (dt : DT) (b : ℕ) (rows : List R)
  | callFinalize
  | prod
  | take
  | work (i : ℕ)
  | fail (i : ℕ)

/-- One step; `none` when the choice is not possible in this state. -/
def step (cfg : Cfg) (st : St R) : Act R → Option (St R)
  | .callStart s e =>
    match st.pc with
    | .idle => some (startRange cfg st s e)
    | _ => none
  | .callStore dt b rows =>
    match st.pc with
    | .idle => some (store cfg st dt b rows)
    | _ => none
  | .callFinalize =>
    match st.pc with
    | .idle => some (finalize st)
    | _ => none
  | .prod => prodStep cfg st
  | .take => takeStep cfg st
  | .work i => workStep st i
  | .fail i => failStep st i

/-- Run a schedule. -/
def exec (cfg : Cfg) (st : St R) (acts : List (Act R)) : Option (St R) :=
  acts.foldlM (step cfg) st

end Verif.Disk
