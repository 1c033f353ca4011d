import Verif.Metric.RetrainModel
import Verif.TracIn.RoundModel

/-!
# The tensors of the leave-one-out ground truth (`dattri/metric/ground_truth.py:83-96`)

`looGroundTruth` gives values and indices as they are computed; they are then stored in two tensors of the default type float32.
-/

namespace Verif.FloatGT

open Verif Verif.Retrain Verif.TracInRound

variable {M : Type}

/-- `loo_results = torch.zeros(..)`, `model_indices = torch.empty(..)`, and the assignments into them (ground_truth.py:83-95). The target
function may compute in double precision. Simplified: no overflow. -/
noncomputable def looTensors (target : M → List ℝ) (listing : List (Entry M)) : Except Err (List (List ℝ) × List ℝ) :=
  (looGroundTruth target listing).map fun r => (r.1.map fun row => row.map float32, r.2.map fun k : ℤ => float32 (k : ℝ))

end Verif.FloatGT
