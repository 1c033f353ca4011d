import Verif.Disk.WriterModel
import Mathlib.Data.String.Basic

/-!
# Reading chunk files

Models the reading side of `ChunkedMemoryMapHandler`
(`/repo/dattri/algorithm/block_projected_if/offload/disk_io/memory_map.py:142-373`), the listing of
`AsyncPrefetchDataset` and the collate function
(`.../disk_io/prefetch_dataset.py:81-136, 310-345, 430-470`).

The metadata and the data of a chunk are read as one consistent pair; a data file whose size does not
fit the shape recorded in the metadata (the file is being replaced while it is read) is outside the
model.
-/

namespace Verif.Disk

variable {R : Type}

/-- What is read from one chunk: a tensor and the mapping from batch index to row range. -/
abbrev Item (R : Type) := List R × List (ℕ × (ℕ × ℕ))

/-- Does the half-open range contain the batch (memory_map.py:320, prefetch_dataset.py:119). -/
def inRange (r : ℕ × ℕ) (b : ℕ) : Bool := decide (r.1 ≤ b) && decide (b < r.2)

/-- `tensor[rows]` for a list of row numbers (memory_map.py:331): a row that does not exist raises. -/
def selectRows (tensor : List R) : List ℕ → Except Err (List R)
  | [] => .ok []
  | i :: is =>
    match tensor[i]? with
    | none => .error .indexError
    | some x =>
      match selectRows tensor is with
      | .error e => .error e
      | .ok xs => .ok (x :: xs)

/-- One turn of the loop over the batches of a chunk (memory_map.py:318-327): row numbers, mapping and
offset so far.  Simplified: an entry that ends before it starts, which no writer produces, counts as
empty instead of moving the offset back. -/
def rangeStep (r : ℕ × ℕ) (acc : List ℕ × List (ℕ × (ℕ × ℕ)) × ℕ) (i : Info) :
    List ℕ × List (ℕ × (ℕ × ℕ)) × ℕ :=
  if inRange r i.idx then
    (acc.1 ++ (List.range (i.stop - i.start)).map (fun j => i.start + j),
      PyDict.set i.idx (acc.2.2, acc.2.2 + (i.stop - i.start)) acc.2.1,
      acc.2.2 + (i.stop - i.start))
  else acc

/-- `load_chunk_batch_range` (memory_map.py:281-333). -/
def loadRange (info : List Info) (tensor : List R) : Option (ℕ × ℕ) → Except Err (Item R)
  | none => .ok (tensor, info.foldl (fun m i => PyDict.set i.idx (i.start, i.stop) m) [])
  | some r =>
    let acc := info.foldl (rangeStep r) ([], [], 0)
    if acc.1 = [] then .ok ([], [])
    else
      match selectRows tensor acc.1 with
      | .error e => .error e
      | .ok t => .ok (t, acc.2.1)

/-- `load_batch_slice` (memory_map.py:252-278): the first entry of the batch, `none` if there is none.
Slicing never raises. -/
def loadSlice (info : List Info) (tensor : List R) (b : ℕ) : Option (List R) :=
  (info.find? fun i => decide (i.idx = b)).map fun i => (tensor.drop i.start).take (i.stop - i.start)

/-- The chunk files on disk. -/
structure Files (R : Type) where
  dataFile : Path → Option (List R)
  metaFile : Path → Option (List Info)
  /-- the metadata files in the order the directory lists them -/
  listing : List Path

/-- The file name (memory_map.py:55). -/
def Path.name (p : Path) : String :=
  "chunk_" ++ (match p.dt with | .gradients => "gradients" | .ifvp => "ifvp") ++ "_" ++ toString p.lo ++
    "_" ++ toString p.hi

/-- `find_chunk_files` (memory_map.py:336-373): stable sort by the first batch. -/
def findChunks (ls : List Path) (dt : DT) : List Path :=
  (ls.filter fun p => decide (p.dt = dt)).mergeSort fun a b => decide (a.lo ≤ b.lo)

/-- The test whether a chunk is of interest (prefetch_dataset.py:105-132): unreadable metadata and
chunks without a batch in the range are skipped. -/
def wanted (fs : Files R) (rng : Option (ℕ × ℕ)) (p : Path) : Bool :=
  match fs.metaFile p with
  | none => false
  | some info =>
    match rng with
    | none => true
    | some r => info.any fun i => inRange r i.idx

/-- `_load_chunk_info` (prefetch_dataset.py:81-136): the chunks of the data set, sorted by file name. -/
def chunkInfo (fs : Files R) (dt : DT) (rng : Option (ℕ × ℕ)) : List Path :=
  ((findChunks fs.listing dt).filter (wanted fs rng)).mergeSort fun a b => decide (a.name ≤ b.name)

/-- Load one chunk of the data set (memory_map.py:300-333). -/
def loadFile (fs : Files R) (rng : Option (ℕ × ℕ)) (p : Path) : Except Err (Item R) :=
  match fs.metaFile p with
  | none => .error .fileNotFoundError
  | some info =>
    match fs.dataFile p with
    | none => .error .fileNotFoundError
    | some tensor => loadRange info tensor rng

/-- The inner loop of `async_collate_fn` (prefetch_dataset.py:333-338). -/
def shiftInto (off : ℕ) (m new : List (ℕ × (ℕ × ℕ))) : List (ℕ × (ℕ × ℕ)) :=
  new.foldl (fun m e => PyDict.set e.1 (off + e.2.1, off + e.2.1 + (e.2.2 - e.2.1)) m) m

/-- `async_collate_fn` (prefetch_dataset.py:310-345). -/
def collateItems : List (Item R) → Item R
  | [x] => x
  | xs => xs.foldl (fun acc x => (acc.1 ++ x.1, shiftInto acc.1.length acc.2 x.2)) ([], [])

/-- One pass of the loader of `create_tensor_dataloader` with `g` chunks per item over loads that
succeed (prefetch_dataset.py:430-470; `num_workers=0`, no shuffling). -/
def loaderPass (g : ℕ) (items : List (Item R)) : List (Item R) := (Verif.batches g items).map collateItems

end Verif.Disk
