import Verif.Base.Tensor

/-!
# Model of `PrefetchDataLoader` (`dattri/algorithm/block_projected_if/offload/disk_io/prefetch_dataset.py`)
-/

namespace Verif.Disk.Overlap

open Verif

/-- What iterating over the loader does: put the transfer of a batch on the transfer stream, make the current stream wait for all transfers put there so
far, hand a batch to the caller. -/
inductive Ev (α : Type)
  | transfer (x : α)
  | wait
  | yield (x : α)
  deriving DecidableEq

/-- What the underlying loader does: it gives these batches and then stops, or raises (reading the next chunk fails). -/
structure Source (α : Type) where
  items : List α
  fails : Option Err

/-- `PrefetchDataLoader.__init__` (prefetch_dataset.py:351-372): `transfer_stream or Stream() if is_available() else None` is a stream exactly with
CUDA. -/
def hasStream (cudaAvailable : Bool) (_given : Bool) : Bool := cudaAvailable

/-- The loop over the remaining batches (prefetch_dataset.py:405-427), `cur` being in transfer.  The exception of the underlying loader passes through. -/
def rest {α : Type} (fails : Option Err) (cur : α) : List α → List (Ev α) × Option Err
  | [] =>
    match fails with
    | none => ([.wait, .yield cur], none)
    | some e => ([], some e)
  | y :: ys =>
    let r := rest fails y ys
    (.transfer y :: .wait :: .yield cur :: r.1, r.2)

/-- `PrefetchDataLoader.__iter__` (prefetch_dataset.py:374-427), run to the end or to the exception. -/
def iterate {α : Type} (stream : Bool) (device : String) (s : Source α) : List (Ev α) × Option Err :=
  if !stream || device == "cpu" then (s.items.map .yield, s.fails)
  else
    match s.items with
    | [] => ([], s.fails)
    | x :: xs =>
      let r := rest s.fails x xs
      (.transfer x :: r.1, r.2)

end Verif.Disk.Overlap
