import Mathlib.Analysis.Real.Sqrt
import Mathlib.Data.Fintype.Card
import Mathlib.Algebra.BigOperators.Fin
import Verif.Base.Tensor

/-!
# Model of `lds` and `loo_corr` (`dattri/metric/metrics.py`)

`scipy.stats.spearmanr` and `pearsonr` are modelled by their documented formulas over the reals; `none` is the NaN they return for
constant input.  p-values are not modelled.
-/

namespace Verif.Metric

open Finset

variable {m : ℕ}

/-- Arithmetic mean. -/
noncomputable def mean (x : Fin m → ℝ) : ℝ := (∑ i, x i) / m

/-- Centred cross product. -/
noncomputable def cross (x y : Fin m → ℝ) : ℝ := ∑ i, (x i - mean x) * (y i - mean y)

open Classical in
/-- Pearson correlation (`none` = NaN for constant input). -/
noncomputable def pearson (x y : Fin m → ℝ) : Option ℝ :=
  if cross x x = 0 ∨ cross y y = 0 then none else some (cross x y / (Real.sqrt (cross x x) * Real.sqrt (cross y y)))

/-- `scipy.stats.rankdata(x, method="average")`. -/
noncomputable def avgRank (x : Fin m → ℝ) (i : Fin m) : ℝ :=
  #{j | x j < x i} + ((#{j | x j = x i} : ℝ) + 1) / 2

/-- `scipy.stats.spearmanr(x, y).correlation`. -/
noncomputable def spearman (x y : Fin m → ℝ) : Option ℝ := pearson (avgRank x) (avgRank y)

/-- The sum of the scores of a subset for test sample `t`: `score[:, indices[i]].sum(dim=1)` (metrics.py:47-50). -/
def sumScores (score : ℕ → ℕ → ℝ) (subsets : Fin m → List ℕ) (t : ℕ) (i : Fin m) : ℝ := ((subsets i).map (fun k => score k t)).sum

/-- `lds` (metrics.py:17-75), the correlation of every test sample. `score` has shape `(nTrain, nTest)`; an index outside the training set is
an `IndexError` (negative indices do not occur). -/
noncomputable def lds (nTrain nTest : ℕ) (score : ℕ → ℕ → ℝ) (gt : Fin m → ℕ → ℝ) (subsets : Fin m → List ℕ) :
    Except Err (List (Option ℝ)) :=
  if ∃ i, ∃ k ∈ subsets i, nTrain ≤ k then .error .indexError
  else .ok ((List.range nTest).map fun t => spearman (sumScores score subsets t) (fun i => gt i t))

/-- `loo_corr` (metrics.py:78-128): Pearson correlation of the score column with the ground-truth column; the tensor of removed indices
is ignored (line 105).  `pearsonr` raises `ValueError` when the lengths differ or are below 2. -/
noncomputable def looCorr (nTrain nTest nModels : ℕ) (score : ℕ → ℕ → ℝ) (gt : ℕ → ℕ → ℝ) (_removed : List ℕ) :
    Except Err (List (Option ℝ)) :=
  if nTest ≠ 0 ∧ (nTrain ≠ nModels ∨ nTrain < 2) then .error .valueError
  else .ok ((List.range nTest).map fun t => pearson (m := nTrain) (fun i => score i t) (fun i => gt i t))

end Verif.Metric
