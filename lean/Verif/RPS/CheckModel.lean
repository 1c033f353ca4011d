import Verif.Metric.LDSModel
import Mathlib.Data.Matrix.Mul

/-!
# The sanity check of RPS (`dattri/algorithm/utils.py`, `rps_corr_check`)

Simplification: exact reals; what is printed is the result.
-/

namespace Verif.RPSCheck

open Matrix Verif.Metric

/-- `x @ x.T @ rps_weight` (utils.py:227). -/
noncomputable def prediction {n d c : ℕ} (w : Matrix (Fin n) (Fin c) ℝ) (x : Matrix (Fin n) (Fin d) ℝ) : Matrix (Fin n) (Fin c) ℝ := x * xᵀ * w

/-- `rps_corr_check` (utils.py:218-239): mean absolute difference and correlation per class; `pearsonr` needs at least two samples and gives not-a-number for constant input. -/
noncomputable def corrCheck {n d c : ℕ} (w : Matrix (Fin n) (Fin c) ℝ) (x : Matrix (Fin n) (Fin d) ℝ) (y : Matrix (Fin n) (Fin c) ℝ) :
    Except Err ((Fin c → ℝ) × (Fin c → Option ℝ)) :=
  if c ≠ 0 ∧ n < 2 then .error .valueError
  else .ok (fun k => (∑ i, |y i k - prediction w x i k|) / n, fun k => pearson (fun i => y i k) fun i => prediction w x i k)

end Verif.RPSCheck
