import Verif.Metric.LDSModel
import Verif.Metric.RetrainModel

/-!
# From retrained models to the metrics

The two evaluations `lds(score, calculate_lds_ground_truth(...))` and `loo_corr(score, calculate_loo_ground_truth(...))`.
-/

namespace Verif.Metric

open Verif Verif.Retrain

variable {M ρ : Type} [DecidableEq ρ]

/-- `lds(score, ground_truth)` (metrics.py:17-75) on the pair returned by `calculate_lds_ground_truth`: a NaN among the values of a test sample makes its
correlation NaN (`spearmanr` propagates NaN). -/
noncomputable def ldsPair (nTrain nTest : ℕ) (score : ℕ → ℕ → ℝ) (gt : List (ℕ → Option ℝ) × List (List ℕ)) : Except Err (List (Option ℝ)) :=
  (lds (m := gt.2.length) nTrain nTest score (fun i t => ((gt.1.getD i fun _ => none) t).getD 0) fun i => gt.2.getD i []).map fun l =>
    l.mapIdx fun t r => if ∃ v ∈ gt.1, v t = none then none else r

/-- Evaluating scores by subset retraining: read the ground truth from `dir`, then `lds` (ground_truth.py:98-196, metrics.py:17-75). -/
noncomputable def evalLds (target : M → ℕ → ℝ) (dir : ρ) (fs : FS ρ M) (nTrain nTest : ℕ) (score : ℕ → ℕ → ℝ) : Except Err (List (Option ℝ)) := do
  let gt ← ldsGroundTruth target dir fs
  ldsPair nTrain nTest score gt

/-- Evaluating scores by leave-one-out retraining: read the ground truth, then `loo_corr` (ground_truth.py:37-95, metrics.py:78-128). -/
noncomputable def evalLoo (target : M → ℕ → ℝ) (listing : List (Entry M)) (nTrain nTest : ℕ) (score : ℕ → ℕ → ℝ) : Except Err (List (Option ℝ)) := do
  let gt ← looGroundTruth target listing
  looCorr nTrain nTest gt.1.length score (fun i t => (gt.1.getD i fun _ => 0) t) (gt.2.map Int.toNat)

end Verif.Metric
