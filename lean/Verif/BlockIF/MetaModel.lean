import Mathlib.Data.List.Sort
import Verif.Base.PyDict
import Verif.Base.Tensor

/-!
# Batch metadata (`/repo/dattri/algorithm/block_projected_if/core/metadata.py`)

Simplifications: the JSON file is modelled by the value it encodes (crash behaviour of the file
itself is in `SaveModel.lean`); time stamps and locks are left out (one thread); the file always
loads; saving always succeeds.
-/

namespace Verif.BlockIF

open Verif

/-- `batch_info`: batch index to `(sample_count, start_idx)` (metadata.py:32). -/
abbrev Info := List (ℕ × (ℤ × ℤ))

/-- The value stored in `batch_metadata.json` (metadata.py:241-248). -/
structure File where
  info : Info
  total : ℤ
  dims : Option (List ℕ)

/-- `MetadataManager` (metadata.py:20-48) with the file of its directory. -/
structure Meta where
  info : Info
  total : ℤ
  dims : Option (List ℕ)
  pending : Info
  file : Option File

/-- `_load_metadata_if_exists` (metadata.py:279-310). -/
def Meta.load (m : Meta) : Meta :=
  match m.file with
  | none => m
  | some f => { m with info := f.info, total := f.total, dims := f.dims }

/-- `__init__` in a directory containing `file` (metadata.py:23-43). -/
def Meta.new (file : Option File) : Meta := Meta.load ⟨[], 0, none, [], file⟩

/-- What the metadata manager asks of the data loader: number of batches, batch size, sampler
length, `drop_last`, and whether the data set has a length (metadata.py:61-84). -/
structure Loader where
  batches : ℕ
  batchSize : ℕ
  samples : ℕ
  dropLast : Bool
  hasLen : Bool

/-- The recorded size of batch `k` (metadata.py:74-84, 97-102). -/
def Loader.count (l : Loader) (k : ℕ) : ℤ :=
  if l.hasLen then
    if k + 1 = l.batches ∧ l.dropLast = false then (l.samples : ℤ) - (k * l.batchSize : ℕ)
    else min (l.batchSize : ℤ) ((l.samples : ℤ) - (k * l.batchSize : ℕ))
  else l.batchSize

/-- The loop filling `batch_info` (metadata.py:74-90, 97-102). -/
def fill (l : Loader) : List ℕ → Info → ℤ → Info × ℤ
  | [], info, cur => (info, cur)
  | k :: ks, info, cur => fill l ks (PyDict.set k (l.count k, cur) info) (cur + l.count k)

/-- Sample count of a batch, `batch_info[k]["sample_count"]`. -/
def countOf (info : Info) (k : ℕ) : ℤ := ((PyDict.get? info k).map Prod.fst).getD 0

/-- The recomputation of the start indices (metadata.py:223-234). -/
def recount (info : Info) : List ℕ → ℤ → Info × ℤ
  | [], cur => ([], cur)
  | k :: ks, cur =>
    let r := recount info ks (cur + countOf info k)
    ((k, (countOf info k, cur)) :: r.1, r.2)

/-- `_flush_pending_batches` (metadata.py:160-168). -/
def Meta.flush (m : Meta) : Meta :=
  { m with info := m.pending.foldl (fun i p => PyDict.set p.1 p.2 i) m.info, pending := [] }

/-- `save_metadata` (metadata.py:210-260). -/
def Meta.save (m : Meta) : Meta :=
  let m1 := m.flush
  let r := recount m1.info ((PyDict.keys m1.info).mergeSort fun a b => decide (a ≤ b)) 0
  { m1 with info := r.1, total := r.2, file := some ⟨r.1, r.2, m1.dims⟩ }

/-- `initialize_complete_dataset` (metadata.py:50-113). -/
def Meta.initialize (m : Meta) (l : Loader) : Meta :=
  if m.info.length = l.batches then m
  else
    let r := fill l (List.range l.batches) m.info 0
    Meta.save { m with info := r.1, total := r.2 }

/-- `add_batch_info` (metadata.py:115-143): a batch already present is only checked. -/
def Meta.addBatchInfo (m : Meta) (k : ℕ) (n : ℤ) : Meta :=
  if (PyDict.get? m.info k).isSome then m
  else { m with pending := PyDict.set k (n, m.total) m.pending, total := m.total + n }

/-- `set_layer_dims` (metadata.py:145-153). -/
def Meta.setDims (m : Meta) (d : List ℕ) : Meta := { m with dims := some d }

/-- `get_batch_to_sample_mapping` (metadata.py:178-191): half-open range of each batch. -/
def Meta.mapping (m : Meta) : List (ℕ × (ℤ × ℤ)) :=
  m.flush.info.map fun p => (p.1, (p.2.2, p.2.2 + p.2.1))

/-- `get_total_samples` (metadata.py:170-176). -/
def Meta.totalSamples (m : Meta) : ℤ := m.total

/-- `get_total_batches` (metadata.py:193-208). -/
def Meta.totalBatches (m : Meta) : ℕ :=
  if PyDict.keys m.info = [] then 0 else (PyDict.keys m.info).foldr max 0 + 1

end Verif.BlockIF
