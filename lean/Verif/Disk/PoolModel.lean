import Verif.Disk.WriterModel

/-!
# The pool of reusable buffers (`dattri/algorithm/block_projected_if/offload/disk_io/manager.py`)

Buffers are objects with an identity; the pool and the dictionary of open chunks hold references to them. A recycled buffer keeps the
rows of its former chunk in its tensor. Simplified: one storing thread, so that while it waits for a buffer nobody returns one (the
writers get copies, manager.py:541-555); a batch tensor is the list of its rows.
-/

namespace Verif.Disk.Pool

open Verif Verif.Disk

variable {R : Type}

/-- A `ChunkBuffer` (manager.py:26-34). -/
structure Obj (R : Type) where
  tensor : List R
  row : ℕ
  info : List Info

/-- Pool size and `max_samples_per_chunk`. -/
structure PCfg where
  size : ℕ
  maxRows : ℕ

/-- `pool_size = max(8, self.buffer_pool_size)` (manager.py:306). -/
def mkCfg (bufferPoolSize maxRows : ℕ) : PCfg := ⟨max 8 bufferPoolSize, maxRows⟩

/-- The objects, the queues `available` of the pools of the two data types, `_chunk_buffers`, and the number of objects made so far. -/
structure PSt (R : Type) where
  heap : ℕ → Obj R
  avail : DT → List ℕ
  bufs : List (Key × ℕ)
  next : ℕ

/-- A new buffer of zeros (manager.py:63-69, 462-472). -/
def blank [Zero R] (cfg : PCfg) : Obj R := ⟨List.replicate cfg.maxRows 0, 0, []⟩

/-- The two pools after their creation (manager.py:61-72, 301-317). Simplified: the pool of a data type is created at its first use;
here both exist from the start. -/
def PSt.init [Zero R] (cfg : PCfg) : PSt R :=
  ⟨fun _ => blank cfg,
    fun dt => match dt with
      | .gradients => List.range cfg.size
      | .ifvp => List.range' cfg.size cfg.size,
    [], cfg.size + cfg.size⟩

/-- `get_buffer` (manager.py:80-114): the first buffer, emptied except for its tensor; `none` after the timeout. -/
def getBuffer (s : PSt R) (dt : DT) : Option (ℕ × PSt R) :=
  match s.avail dt with
  | [] => none
  | a :: rest =>
    some (a, { s with avail := Function.update s.avail dt rest,
                      heap := Function.update s.heap a { s.heap a with row := 0, info := [] } })

/-- `return_buffer` (manager.py:116-129): dropped if the queue is full. -/
def returnBuffer (cfg : PCfg) (s : PSt R) (dt : DT) (a : ℕ) : PSt R :=
  if (s.avail dt).length < cfg.size then { s with avail := Function.update s.avail dt (s.avail dt ++ [a]) } else s

/-- Opening the buffer of a chunk at its first batch (manager.py:457-473, 583-599). -/
def openC [Zero R] (cfg : PCfg) (s : PSt R) (k : Key) : PSt R :=
  match PyDict.get? s.bufs k with
  | some _ => s
  | none =>
    match getBuffer s k.1 with
    | some (a, s') => { s' with bufs := PyDict.set k a s'.bufs }
    | none =>
      { s with heap := Function.update s.heap s.next (blank cfg), bufs := PyDict.set k s.next s.bufs, next := s.next + 1 }

/-- What an operation shows to the rest of the manager. -/
inductive POut (R : Type) where
  | nothing
  | task (b : Buffer R)
  | raised (e : Err)

/-- The object after copying a batch into its tensor (manager.py:513-523, 632-641). -/
def Obj.write (o : Obj R) (b : ℕ) (rows : List R) : Obj R :=
  ⟨o.tensor.take o.row ++ rows ++ o.tensor.drop (o.row + rows.length), o.row + rows.length,
    o.info ++ [⟨b, o.row, o.row + rows.length⟩]⟩

/-- Copying a batch into the buffer of an open chunk (manager.py:475, 513-523, 632-641). Assigning more rows than the slice has raises
`RuntimeError`. -/
def appendC (cfg : PCfg) (s : PSt R) (k : Key) (b : ℕ) (rows : List R) : PSt R × POut R :=
  match PyDict.get? s.bufs k with
  | none => (s, .raised .keyError)
  | some a =>
    if (s.heap a).row + rows.length > cfg.maxRows then (s, .raised .runtimeError)
    else ({ s with heap := Function.update s.heap a ((s.heap a).write b rows) }, .nothing)

/-- The first part of `_async_flush_chunk_buffer` (manager.py:535-548): copies of the filled part and of the batch information become the
task, the buffer goes back to the pool. -/
def takeC (cfg : PCfg) (s : PSt R) (k : Key) : PSt R × POut R :=
  match PyDict.get? s.bufs k with
  | none => (s, .nothing)
  | some a =>
    (returnBuffer cfg { s with bufs := PyDict.erase k s.bufs } k.1 a,
      .task ⟨(s.heap a).tensor.take (s.heap a).row, (s.heap a).info⟩)

/-- The overflow branch (manager.py:497-511, 622-630): flush the chunk's buffer and get another one. Simplified: the branch is only
reached with an open buffer; without one nothing happens here. -/
def overflowC (cfg : PCfg) (s : PSt R) (k : Key) : PSt R × POut R :=
  match PyDict.get? s.bufs k with
  | none => (s, .nothing)
  | some _ =>
    match getBuffer (takeC cfg s k).1 k.1 with
    | none => ((takeC cfg s k).1, .raised .runtimeError)
    | some (a, s') => ({ s' with bufs := PyDict.set k a s'.bufs }, (takeC cfg s k).2)

/-- The operations of the manager on the buffers. -/
inductive POp (R : Type) where
  | openBuf (k : Key)
  | append (k : Key) (b : ℕ) (rows : List R)
  | take (k : Key)
  | overflow (k : Key)

/-- One operation (manager.py:456-527, 535-548, 582-644). -/
def stepC [Zero R] (cfg : PCfg) (s : PSt R) : POp R → PSt R × POut R
  | .openBuf k => (openC cfg s k, .nothing)
  | .append k b rows => appendC cfg s k b rows
  | .take k => takeC cfg s k
  | .overflow k => overflowC cfg s k

/-- A sequence of operations with everything it shows (manager.py:456-527, 535-548, 582-644). -/
def runC [Zero R] (cfg : PCfg) (s : PSt R) : List (POp R) → PSt R × List (POut R)
  | [] => (s, [])
  | o :: os => ((runC cfg (stepC cfg s o).1 os).1, (stepC cfg s o).2 :: (runC cfg (stepC cfg s o).1 os).2)

end Verif.Disk.Pool
