import Verif.Disk.ReadModel
import Mathlib.Data.Rat.Defs
import Mathlib.Algebra.Order.Ring.Rat

/-!
# Reading single batches back

Models `_retrieve_batch_data_with_cache`, behind `retrieve_gradients` and `retrieve_ifvp`
(`/repo/dattri/algorithm/block_projected_if/offload/disk_io/manager.py:701-828`) and the read cache
(212-214). The dimensions of the layers are taken as known (709; otherwise `ValueError`), and the split of a
row into layers (830-846) is part of `Verif.BlockIF.ConcatModel`. The clock is an arbitrary sequence of times.
-/

namespace Verif.Disk

variable {R : Type}

/-- An entry of `_read_cache`: tensor, batches of the metadata and access time (manager.py:782). -/
structure Cached (R : Type) where
  tensor : List R
  info : List Info
  time : ℚ

/-- `_read_cache` (manager.py:212). -/
abbrev ReadCache (R : Type) := List (Key × Cached R)

/-- `min(keys, key=time)` (manager.py:786-789): the first key with the least time. -/
def oldest : ReadCache R → Option (Key × ℚ)
  | [] => none
  | (k, e) :: t =>
    match oldest t with
    | none => some (k, e.time)
    | some (k', s) => if s < e.time then some (k', s) else some (k, e.time)

/-- Lines 784-790: drop the oldest entry when there are more than four. -/
def evict (c : ReadCache R) : ReadCache R :=
  if 4 < c.length then
    match oldest c with
    | none => c
    | some (k, _) => PyDict.erase k c
  else c

/-- The loop over the chunk files up to the first that lists the batch, which is then loaded (manager.py:760-779). -/
def search (fs : Files R) (b : ℕ) : List Path → Except Err (Option (List R × List Info))
  | [] => .ok none
  | p :: ps =>
    match fs.metaFile p with
    | none => .error .fileNotFoundError
    | some info =>
      if info.any (fun i => decide (i.idx = b)) then
        match fs.dataFile p with
        | none => .error .fileNotFoundError
        | some t => .ok (some (t, info))
      else search fs b ps

/-- `_read_cache[key] = (tensor, metadata, now)` for a present key (manager.py:738-744). -/
def touch (k : Key) (now : ℚ) (c : ReadCache R) : ReadCache R :=
  match PyDict.get? c k with
  | none => c
  | some e => PyDict.set k ⟨e.tensor, e.info, now⟩ c

/-- `_retrieve_batch_data_with_cache` (manager.py:701-801): the rows of a batch, `none` standing for a list of empty tensors, and the
read cache afterwards. -/
def retrieve (cfg : Cfg) (bufs : List (Key × Buffer R)) (fs : Files R) (now : ℚ) (dt : DT) (b : ℕ) (c : ReadCache R) :
    Except Err (Option (List R)) × ReadCache R :=
  let k : Key := (dt, chunkId cfg b)
  match (PyDict.get? bufs k).bind fun buf => loadSlice buf.info buf.tensor b with
  | some rows => (.ok (some rows), c)
  | none =>
    let c := touch k now c
    match (PyDict.get? c k).bind fun e => loadSlice e.info e.tensor b with
    | some rows => (.ok (some rows), c)
    | none =>
      match search fs b (findChunks fs.listing dt) with
      | .error e => (.error e, c)
      | .ok none => (.ok none, c)
      | .ok (some (t, info)) => (.ok (loadSlice info t b), evict (PyDict.set k ⟨t, info, now⟩ c))

/-- A request: the time, the kind of data, the batch, and the files and buffers at that time. -/
structure Req (R : Type) where
  now : ℚ
  dt : DT
  b : ℕ
  bufs : List (Key × Buffer R)
  fs : Files R

/-- A sequence of requests, with the results. -/
def retrieveAll (cfg : Cfg) (c : ReadCache R) : List (Req R) → List (Except Err (Option (List R))) × ReadCache R
  | [] => ([], c)
  | q :: qs =>
    let r := retrieve cfg q.bufs q.fs q.now q.dt q.b c
    ((r.1 :: (retrieveAll cfg r.2 qs).1), (retrieveAll cfg r.2 qs).2)

end Verif.Disk
