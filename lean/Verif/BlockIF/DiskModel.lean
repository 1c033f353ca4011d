import Verif.BlockIF.IFModel
import Verif.Disk.ReadModel

/-!
# The block-projected influence attributor with disk storage

`/repo/dattri/algorithm/block_projected_if/block_projected_if.py` with
`offload_manager = create_offload_manager("disk", ...)` (`offload/disk.py:66-90, 140-190`): the loops are
those of `IFModel.lean`; the items they go through come from the chunk files, and what they store goes
through the writer of `Disk/WriterModel.lean`.  The preconditioners are kept in memory here
(`disk_io/manager.py:877-915` saves and loads one file per layer).
-/

namespace Verif.BlockIF

open Verif

/-- The calls of `store_ifvp` made by `compute_ifvp` and `_copy_gradients_as_ifvp`, in order: batches
unknown to the metadata are skipped (block_projected_if.py:488-538, 577-596). -/
def ifvpCalls {R : Type} (known : List ℕ) (f : R → R) (cs : List (List R × List (ℕ × ℕ × ℕ))) :
    List (ℕ × List R) :=
  cs.flatMap fun c => (c.2.filter fun e => decide (e.1 ∈ known)).map fun e =>
    (e.1, (rowsOf c.1 e.2.1 e.2.2).map f)

variable {K : Type} [Field K] [DecidableEq K] {L : ℕ} {d : Fin L → ℕ}

/-- `compute_preconditioners` and `compute_ifvp` over the chunks loaded from the gradient files, four
chunks at a time; with `hessian="Identity"` `_copy_gradients_as_ifvp`, one chunk at a time
(block_projected_if.py:314-320, 385-431, 456-459, 482-538, 571-594).  The result are the calls of
`store_ifvp`. -/
noncomputable def diskIfvp (h : Hessian) (damping : Option K) (known : List ℕ)
    (items : List (Disk.Item (Row K d))) : Except Err (List (ℕ × List (Row K d))) :=
  match h with
  | .identity => .ok (ifvpCalls known id (Disk.loaderPass 1 items))
  | .efim =>
    match preLoop damping (Disk.loaderPass 4 items) (List.finRange L) (fun _ => none) with
    | (_, .error e) => .error e
    | (p, .ok ()) => .ok (ifvpCalls known (applyPre p) (Disk.loaderPass 4 items))

/-- The score loops of `attribute` over the chunks loaded from the files of the preconditioned gradients,
two chunks at a time (block_projected_if.py:748-813). -/
def diskScores (md : Meta) (items : List (Disk.Item (Row K d))) (test : List (Row K d)) :
    Except Err (Mat K) :=
  scoreLoop md.mapping (Disk.loaderPass 2 items) test (Mat.zeros md.totalSamples.toNat test.length)

end Verif.BlockIF
