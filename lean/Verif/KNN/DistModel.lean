import Verif.KNN.Model
import Mathlib.Analysis.Real.Sqrt
import Mathlib.Algebra.BigOperators.Group.Finset.Basic

/-!
# The default distance and the constructor of `KNNShapleyAttributor` (`dattri/algorithm/data_shapley.py`)
-/

namespace Verif.KNN

/-- `torch.cdist` on a pair of rows, as used by `default_dist_func` (data_shapley.py:20-39): the Euclidean distance. -/
noncomputable def euclid {d : ℕ} (x y : Fin d → ℝ) : ℝ := Real.sqrt (∑ i, (x i - y i) ^ 2)

/-- `KNNShapleyAttributor.__init__` (data_shapley.py:45-89): number of neighbours and distance function. -/
def construct {T D : Type} (default : D) (k : ℕ) (task : Option T) (dist : Option D) : Except Err (ℕ × D) :=
  match task with
  | some _ => .error .notImplementedError
  | none => .ok (k, dist.getD default)

end Verif.KNN
