import Mathlib.Data.List.Basic

/-!
# Writing the metadata file (`/repo/dattri/algorithm/block_projected_if/core/metadata.py:210-269`)

The two files involved, byte contents as lists of bytes, and the sequence of file system calls of
`save_metadata`.  A crash is the process stopping between two calls; calls themselves are atomic and
take effect in order (the code does not `fsync`, so reordering by a power failure is outside the
model).
-/

namespace Verif.BlockIF.Save

/-- Contents of `batch_metadata.json` and `batch_metadata.json.tmp`, `none` when absent. -/
structure FS (β : Type) where
  main : Option (List β)
  temp : Option (List β)

/-- File system calls made while saving. -/
inductive Op (β : Type) where
  /-- `open(temp_path, "w")` (metadata.py:251) -/
  | trunc
  /-- one flush of buffered output of `json.dump` (metadata.py:252) -/
  | write (s : List β)
  /-- `Path(temp_path).replace(metadata_path)` (metadata.py:255) -/
  | rename
  /-- `Path(temp_path).unlink()` in the exception handler (metadata.py:267-269) -/
  | unlink

variable {β : Type}

/-- Effect of a call.  Writing appends to the temporary file the process has open. -/
def step (fs : FS β) : Op β → FS β
  | .trunc => { fs with temp := some [] }
  | .write s => { fs with temp := fs.temp.map (· ++ s) }
  | .rename =>
    match fs.temp with
    | none => fs
    | some c => { main := some c, temp := none }
  | .unlink => { fs with temp := none }

/-- Run a list of calls. -/
def exec (fs : FS β) (ops : List (Op β)) : FS β := ops.foldl step fs

/-- The calls of `save_metadata`, the text being written in the pieces `chunks`
(metadata.py:251-255). -/
def saveOps (chunks : List (List β)) : List (Op β) :=
  .trunc :: (chunks.map .write ++ [.rename])

/-- The calls when the call at position `n` raises: those before it, then the handler
(metadata.py:264-269). -/
def failOps (chunks : List (List β)) (n : ℕ) : List (Op β) :=
  (saveOps chunks).take n ++ [.unlink]

end Verif.BlockIF.Save
