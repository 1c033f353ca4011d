import Verif.Base.Tensor

/-!
# Concatenated storage of per-layer gradients
(`/repo/dattri/algorithm/block_projected_if/offload/memory.py:46-112`; `offload/cpu.py:46-123` has
the same logic)

A layer's gradient is a list of rows of equal length, or `none` for Python's `None` (what the hook
manager holds for a layer whose backward pass has not run).  Devices are left out.
-/

namespace Verif.BlockIF

open Verif

variable {K : Type} [Zero K]

/-- A layer's gradient for a batch. -/
abbrev Grad (K : Type) := List (List K)

/-- `g.numel() > 0`. -/
def nonEmpty (g : Grad K) : Bool := !g.flatten.isEmpty

/-- `g.shape[1]` of a non-empty gradient. -/
def width : Grad K → ℕ
  | [] => 0
  | r :: _ => r.length

/-- Attribute access on a gradient that may be `None`. -/
def need : Option (Grad K) → Except Err (Grad K)
  | none => .error .attributeError
  | some g => .ok g

/-- The dimension recorded for one layer (memory.py:53). -/
def dimOf (g : Grad K) : ℕ := if nonEmpty g then width g else 0

/-- `_ensure_dims_set` (memory.py:46-59). -/
def ensureDims (dims : Option (List ℕ)) (gs : List (Option (Grad K))) : Except Err (List ℕ) :=
  match dims with
  | some d => .ok d
  | none => gs.mapM fun g => (need g).map dimOf

/-- `next((g.shape[0] for g in gradients if g.numel() > 0), 0)` (memory.py:72). -/
def firstRows : List (Option (Grad K)) → Except Err ℕ
  | [] => .ok 0
  | none :: _ => .error .attributeError
  | some g :: gs => if nonEmpty g then .ok g.length else firstRows gs

/-- The value of `result[:, start:end]` after the assignment of a gradient: a slice of `B` rows and
`dim` columns, dimensions of size one being broadcast (memory.py:82-85). -/
def place (B dim : ℕ) (g : Grad K) : Except Err (Grad K) :=
  if nonEmpty g then
    if bcast g.length B && bcast (width g) dim then
      let rows := if g.length = B then g else List.replicate B (g.headD [])
      .ok (rows.map fun r => if width g = dim then r else List.replicate dim (r.headD 0))
    else .error .runtimeError
  else .ok (List.replicate B (List.replicate dim 0))

/-- The loop over the layers (memory.py:79-87): the blocks, each with `B` rows, side by side.
Columns not covered by a gradient stay zero. -/
def fillLayers (B : ℕ) : List (Option (Grad K)) → List ℕ → Except Err (Grad K)
  | _, [] => .ok (List.replicate B [])
  | [], d :: ds => .ok (List.replicate B (List.replicate (d :: ds).sum 0))
  | g :: gs, d :: ds => do
    let g' ← need g
    let block ← place B d g'
    let rest ← fillLayers B gs ds
    .ok (List.zipWith (· ++ ·) block rest)

/-- `_concatenate_gradients` (memory.py:61-87), with the dimensions it leaves behind. -/
def concat (dims : Option (List ℕ)) (gs : List (Option (Grad K))) :
    Except Err (List ℕ × Grad K) := do
  let d ← ensureDims dims gs
  let B ← firstRows gs
  if B = 0 then .ok (d, [])
  else
    let r ← fillLayers B gs d
    .ok (d, r)

/-- `_split_tensor` (memory.py:89-112). -/
def splitGo (start : ℕ) (t : Grad K) : List ℕ → List (Grad K)
  | [] => []
  | d :: ds => (t.map fun r => (r.drop start).take d) :: splitGo (start + d) t ds

/-- `_split_tensor` with the check for missing dimensions (memory.py:101-103). -/
def split (dims : Option (List ℕ)) (t : Grad K) : Except Err (List (Grad K)) :=
  match dims with
  | none => .error .valueError
  | some d => .ok (splitGo 0 t d)

/-- The concatenation of one test batch (block_projected_if.py:880-891): missing gradients become
zeros of the known dimension, and are left out when the dimensions are unknown.  Rows of different
numbers make `torch.cat` raise. -/
def testFeatures (batch : ℕ) (dims : Option (List ℕ)) (gs : List (Option (Grad K))) :
    List (Grad K) :=
  gs.zipIdx.filterMap fun p =>
    match p.1 with
    | some g => if nonEmpty g then some g
        else (dims.bind (·[p.2]?)).map fun d => List.replicate batch (List.replicate d 0)
    | none => (dims.bind (·[p.2]?)).map fun d => List.replicate batch (List.replicate d 0)

end Verif.BlockIF
