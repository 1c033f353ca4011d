import Mathlib.Analysis.SpecialFunctions.Log.Basic
import Mathlib.Logic.Equiv.Fin.Basic
import Mathlib.Data.Fintype.BigOperators

/-!
# The logistic regression benchmark

`LogisticRegressionMnist` and the loss function with which the benchmark trains it and which the examples hand to `AttributionTask`.
Simplifications: real arithmetic; `n` inputs and `c` classes instead of 784 and 10; a sample is its flattened image with its label.
-/

namespace Verif.LogReg

variable {n c : ℕ}

/-- A sample: the flattened image (logistic_regression.py:26) and the label. -/
abbrev Sample (n c : ℕ) : Type := (Fin n → ℝ) × Fin c

/-- `LogisticRegressionMnist.forward` (logistic_regression.py:17-27): `nn.Linear` with the weight matrix stored row by row, followed by the bias. -/
def logits (θ : Fin (c * n + c) → ℝ) (x : Fin n → ℝ) : Fin c → ℝ := fun k =>
  ∑ j, θ (Fin.castAdd c (finProdFinEquiv (k, j))) * x j + θ (Fin.natAdd (c * n) k)

/-- `log_softmax` of the outputs, inside `nn.CrossEntropyLoss` (mnist_lr.py:40). -/
noncomputable def logSoftmax (z : Fin c → ℝ) : Fin c → ℝ := fun k => z k - Real.log (∑ u, Real.exp (z u))

/-- One sample's loss with `reduction="none"` (mnist_lr.py:71, 80). -/
noncomputable def sampleLoss (θ : Fin (c * n + c) → ℝ) (s : Sample n c) : ℝ := -logSoftmax (logits θ s.1) s.2

/-- `nn.CrossEntropyLoss()` of a batch, the mean (mnist_lr.py:40, 49; the same function in examples/brittleness/mnist_lr_brittleness.py:64-68).
The mean of an empty batch is NaN in torch, 0 here; the theorems are about non-empty batches. -/
noncomputable def batchLoss (θ : Fin (c * n + c) → ℝ) (b : List (Sample n c)) : ℝ := (b.map (sampleLoss θ)).sum / (b.length : ℝ)

end Verif.LogReg
