import Verif.Base.Tensor

/-!
# Model of waiting for a chunk file (`dattri/algorithm/block_projected_if/offload/disk_io/memory_map.py`)

One chunk name: its data file and its metadata file, a writer that goes through `write_chunk`, and a reader that polls in
`ensure_chunk_written`.
-/

namespace Verif.Disk.Wait

open Verif

/-- The two files of a chunk name.  `meta?` is `some none` for a metadata file that is empty or cut off, `some (some n)` for a complete one that
announces `n` rows.  Simplification: sizes are counted in rows (the metadata gives shape and type of an element). -/
structure FS (R : Type) where
  data : Option (List R)
  info : Option (Option ℕ)

/-- What the writer does to the files, one observable change at a time. -/
inductive Op (R : Type)
  | truncate
  | extend (n : ℕ)
  | row (i : ℕ) (r : R)
  | metaOpen
  | metaDone (n : ℕ)

/-- The effect of an operation: opening with mode `w+` empties the file, giving it its length fills it with zeros. -/
def Op.run {R : Type} [Zero R] (s : FS R) : Op R → FS R
  | .truncate => { s with data := some [] }
  | .extend n => { s with data := s.data.map fun l => l ++ List.replicate (n - l.length) 0 }
  | .row i r => { s with data := s.data.map fun l => l.set i r }
  | .metaOpen => { s with info := some none }
  | .metaDone n => { s with info := some (some n) }

/-- `write_chunk` (memory_map.py:23-135): `np.memmap(..., mode="w+", shape=...)`, the assignment of the rows, then the metadata file, opened (and so
emptied) and written.  The metadata is small, so it is either missing, cut off or complete. -/
def writeChunk {R : Type} (rows : List R) : List (Op R) :=
  [.truncate, .extend rows.length] ++ (rows.zipIdx.map fun p => .row p.2 p.1) ++ [.metaOpen, .metaDone rows.length]

/-- The files after the first `t` operations of a writer. -/
def at' {R : Type} [Zero R] (s : FS R) (ops : List (Op R)) (t : ℕ) : FS R := (ops.take t).foldl Op.run s

/-- The outcome of one turn of the loop. -/
inductive Turn
  | again
  | done
  | raised (e : Err)
  deriving DecidableEq

/-- One turn of `ensure_chunk_written` (memory_map.py:400-420): the existence test sees the files `s₀`, the metadata is read from `s₁` and the size from
`s₂`.  A metadata file that is cut off makes `json.load` raise `JSONDecodeError`, a `ValueError`, which `except OSError` does not catch; a file that has
vanished raises `FileNotFoundError`, which it does. -/
def turn {R : Type} (s₀ s₁ s₂ : FS R) : Turn :=
  if s₀.data.isSome && s₀.info.isSome then
    match s₁.info with
    | none => .again
    | some none => .raised .valueError
    | some (some n) =>
      match s₂.data with
      | none => .again
      | some l => if n ≤ l.length then .done else .again
  else .again

/-- `ensure_chunk_written` (memory_map.py:376-423): turns until one decides or the time is over.  A turn is given by the numbers of operations the
writer has carried out when it looks at the files. -/
def ensureWritten {R : Type} [Zero R] (s : FS R) (ops : List (Op R)) : List (ℕ × ℕ × ℕ) → Except Err Bool
  | [] => .ok false
  | p :: ps =>
    match turn (at' s ops p.1) (at' s ops p.2.1) (at' s ops p.2.2) with
    | .again => ensureWritten s ops ps
    | .done => .ok true
    | .raised e => .error e

end Verif.Disk.Wait
