import Verif.Attr.IFModel
import Verif.TracIn.Model
import Mathlib.Analysis.Calculus.FDeriv.Pi

/-!
# Attributors whose gradients and Hessians come from a loss function

`AttributionTask` takes a loss function (of the parameters and a batch) and a target function and derives all gradients from them
(`dattri/task.py:139-158`). Simplifications: real arithmetic; parameters are one flat vector; a checkpoint is its parameter vector;
where a derivative does not exist the value is that of Mathlib's `fderiv`, the theorems assume that the derivatives exist.
-/

namespace Verif.Attr

variable {X : Type} {p : ℕ}

/-- `torch.func.grad(f)` (task.py:139-158). -/
noncomputable def gradAt (f : (Fin p → ℝ) → ℝ) (θ : Fin p → ℝ) : Fin p → ℝ := fun k => fderiv ℝ f θ (Pi.single k 1)

/-- `torch.func.hessian(f)` (hessian.py:262). -/
noncomputable def hessAt (f : (Fin p → ℝ) → ℝ) (θ : Fin p → ℝ) : Matrix (Fin p) (Fin p) ℝ :=
  Matrix.of fun j k => fderiv ℝ (fun y => gradAt f y j) θ (Pi.single k 1)

/-- `IFAttributorExplicit` of a task with this loss function (of the parameters and a batch) and target function: per-sample gradients
are those of batches of one sample (task.py:139-158, influence_function.py:35-132). -/
noncomputable def taskSub (loss : (Fin p → ℝ) → List X → ℝ) (target : (Fin p → ℝ) → X → ℝ) (reg : ℝ) : Sub ℝ X (Fin p → ℝ) p p :=
  explicitSub (fun θ x => gradAt (fun t => loss t [x]) θ) (fun θ y => gradAt (fun t => target t y) θ) (fun θ b => hessAt (fun t => loss t b) θ) reg

/-- `TracInAttributor` of a task, without projection and normalisation (task.py:139-158, tracin.py:26-64). -/
noncomputable def taskTracIn (loss : (Fin p → ℝ) → List X → ℝ) (target : (Fin p → ℝ) → X → ℝ) (ckpts : List (Fin p → ℝ)) (weights : List ℝ) :
    TracIn.Attributor X (Fin p → ℝ) p :=
  ⟨fun θ x => gradAt (fun t => loss t [x]) θ, fun θ y => gradAt (fun t => target t y) θ, ckpts, weights, false⟩

end Verif.Attr
