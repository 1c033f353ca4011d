import Verif.Base.Tensor
import Mathlib.Analysis.SpecialFunctions.Pow.Real

/-!
# Model of `TracInAttributor` (`dattri/algorithm/tracin.py`)

Simplifications: real arithmetic; the gradient functions return the (`nan_to_num`-ed, optionally projected) gradient of one sample
at one checkpoint. That the projection does not depend on the batch is assumed here (a projector is created per batch from the
same seed and the checkpoint index; see the projection model for when this holds).
-/

namespace Verif.TracIn

variable {X C : Type} {d : Nat}

/-- An attributor: gradients of the loss (used for training samples) and of the target (used for test samples) per checkpoint,
the checkpoints, the weight list and the normalisation flag (tracin.py:26-64). -/
structure Attributor (X C : Type) (d : Nat) where
  gLoss : C → X → Fin d → ℝ
  gTarget : C → X → Fin d → ℝ
  ckpts : List C
  weights : List ℝ
  normalized : Bool

/-- `torch.nn.functional.normalize(v)` with its default `eps = 1e-12`: `v / max(‖v‖₂, eps)`. -/
noncomputable def normalize (v : Fin d → ℝ) : Fin d → ℝ := fun k => v k / max (Real.sqrt (∑ k, v k ^ 2)) (1e-12)

/-- The block of one (train batch, test batch) pair at one checkpoint (tracin.py:241-256). -/
noncomputable def block (A : Attributor X C d) (c : C) (w : ℝ) (trb teb : List X) : Mat ℝ :=
  ⟨trb.length, teb.length, fun i j => match trb[i]?, teb[j]? with
    | some x, some y =>
      if A.normalized then (∑ k, normalize (A.gLoss c x) k * normalize (A.gTarget c y) k) * w
      else (∑ k, A.gLoss c x k * A.gTarget c y k) * w
    | _, _ => 0⟩

/-- `attribute` (tracin.py:69-258). -/
noncomputable def attribute' (A : Attributor X C d) (tr te : Loader X) : Except Err (Mat ℝ) :=
  if A.ckpts.length ≠ A.weights.length then .error .valueError
  else (A.ckpts.zip A.weights).foldlM (fun M cw => pairLoop tr te (block A cw.1 cw.2) M)
    (Mat.zeros tr.data.length te.data.length)

/-- The slice written by `self_attribute` for one batch (tracin.py:365-382): ones for normalised gradients, squared norms of the
loss gradients otherwise. -/
noncomputable def selfBlock (A : Attributor X C d) (c : C) (w : ℝ) (trb : List X) : Vec ℝ :=
  ⟨trb.length, fun i => match trb[i]? with
    | some x => if A.normalized then 1 * w else (∑ k, A.gLoss c x k * A.gLoss c x k) * w
    | none => 0⟩

/-- `self_attribute` (tracin.py:260-384). -/
noncomputable def selfAttribute (A : Attributor X C d) (tr : Loader X) : Except Err (Vec ℝ) :=
  if A.ckpts.length ≠ A.weights.length then .error .valueError
  else (A.ckpts.zip A.weights).foldlM (fun v cw => sliceLoop tr (selfBlock A cw.1 cw.2) v) ⟨tr.data.length, fun _ => 0⟩

end Verif.TracIn
