import Verif.DVEmb.Model
import Verif.Attr.DerivModel

/-!
# A recorded training run

The documented use of the attributor (`dattri/algorithm/dvemb.py:263-305`, docstring): plain SGD on the mean loss of the batch, with
`cache_gradients` called in every step before the parameters are updated. Simplifications: real arithmetic, no projection, one flat parameter vector.
-/

namespace Verif.DVEmb

variable {p : ℕ}

/-- One training step: epoch, learning rate, and for each sample of the batch its index and loss as function of the parameters. -/
structure Step (p : ℕ) where
  epoch : ℤ
  lr : ℝ
  batch : List (ℕ × ((Fin p → ℝ) → ℝ))

/-- The `cache_gradients` call of a step at parameters `θ`: per-sample gradients of the loss (dvemb.py:263-305, 412-478). -/
noncomputable def Step.call (s : Step p) (θ : Fin p → ℝ) : Call ℝ p :=
  ⟨s.epoch, s.lr, s.batch.map Prod.fst, s.batch.map fun z => Attr.gradAt z.2 θ⟩

end Verif.DVEmb
