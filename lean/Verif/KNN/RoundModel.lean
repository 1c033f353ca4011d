import Verif.TracIn.RoundModel
import Verif.KNN.Model

/-!
# KNN-Shapley values in floating point (`dattri/algorithm/data_shapley.py:199-210`)

The table of values is a float32 tensor. In the loop `i` is a zero-dimensional integer tensor, so that the quotient
`(… - …) / self.k_neighbors` is a Python float (double precision), while everything that meets `i + 1` is a float32 tensor.
`min([self.k_neighbors, i + 1])` returns the first smallest entry: the tensor `i + 1` if it is smaller than `k_neighbors`, and
the Python integer `k_neighbors` otherwise. A Python float divided by a tensor is computed by `Tensor.__rtruediv__` as the
reciprocal of the tensor times the float. Simplified: no overflow; the sorted order of the distances is given.
-/

namespace Verif.KNNRound

open Verif.TracInRound

/-- The exponent of the last place in a binary format with `p` places after the leading one and smallest exponent `e`. -/
noncomputable def place (p : ℕ) (e : ℤ) (x : ℝ) : ℤ := max (Int.log 2 |x|) e - p

/-- Rounding to such a format, to nearest, ties to even (used for data_shapley.py:207-210). -/
noncomputable def roundTo (p : ℕ) (e : ℤ) (x : ℝ) : ℝ := roundEven (x / 2 ^ place p e x) * 2 ^ place p e x

/-- Rounding of Python floats (data_shapley.py:207-210). -/
noncomputable def float64 (x : ℝ) : ℝ := roundTo 52 (-1022) x

/-- `int(train_label == test_label)` as a real number (data_shapley.py:199-201, 208-209). -/
def bit (b : Bool) : ℝ := if b then 1 else 0

/-- The value of the farthest sample (data_shapley.py:199-201). With label lists of Python numbers the quotient is a Python
float that is then stored in the table; with label tensors it is a float32 quotient. -/
noncomputable def farthest (lists : Bool) (N : ℕ) (b : Bool) : ℝ :=
  if lists then float32 (float64 (bit b / N)) else float32 (bit b / float32 N)

/-- The term added at rank `i` (data_shapley.py:207-210): `a`, `b` tell whether the samples of rank `i`, `i + 1` match. -/
noncomputable def change (K i : ℕ) (a b : Bool) : ℝ :=
  let q := float64 ((bit a - bit b) / K)
  if i + 1 < K then
    float32 (float32 (float32 q * float32 (i + 1 : ℕ)) / float32 (i + 1 : ℕ))
  else
    float32 (float32 (1 / float32 (i + 1 : ℕ)) * float32 (float64 (q * float64 K)))

/-- One iteration of the backward loop (data_shapley.py:203-210). -/
noncomputable def stepRow32 (K : ℕ) (nn : ℕ → ℕ) (m : ℕ → Bool) (s : ℕ → ℝ) (i : ℕ) : ℕ → ℝ :=
  Function.update s (nn i) (float32 (s (nn (i + 1)) + change K i (m (nn i)) (m (nn (i + 1)))))

/-- The row of one test sample (data_shapley.py:199-210), starting from a row of zeros; `nn` lists the training samples by
distance, `m` tells which of them carry the label of the test sample. -/
noncomputable def knnRow32 (lists : Bool) (N K : ℕ) (nn : ℕ → ℕ) (m : ℕ → Bool) : ℕ → ℝ :=
  let s0 := Function.update (fun _ => (0 : ℝ)) (nn (N - 1)) (farthest lists N (m (nn (N - 1))))
  ((List.range (N - 1)).reverse).foldl (stepRow32 K nn m) s0

end Verif.KNNRound
