import Mathlib.Data.Finset.Card
import Mathlib.Data.Finset.Range
import Mathlib.Algebra.Field.Rat
import Mathlib.Data.Rat.Defs
import Verif.Base.Tensor

/-!
# Model of `mislabel_detection_auc` (`dattri/metric/metrics.py`)

`order` is the outcome of `torch.argsort(score).flip(0)` (line 162); its contract is in the theorems (a permutation of `0..n-1` along
which the scores do not increase; ties in any order).  Rationals instead of floats.
-/

namespace Verif.Metric

/-- One iteration of the loop (metrics.py:165-175) for `ind = k + 1`: state is `(fpr_list, tpr_list)`; `num_clean = len(score) - num_noise`
(line 159). -/
def rocStep (n : ℕ) (order : List ℕ) (noise : Finset ℕ) (s : List ℚ × List ℚ) (k : ℕ) : Except Err (List ℚ × List ℚ) :=
  let ind := k + 1
  let tp := ((order.take ind).toFinset ∩ noise).card
  let fp : ℤ := ind - tp
  let numClean : ℤ := n - noise.card
  if noise.card = 0 then .error .zeroDivisionError
  else if numClean = 0 then .error .zeroDivisionError
  else .ok (s.1 ++ [(fp : ℚ) / (numClean : ℚ)], s.2 ++ [(tp : ℚ) / (noise.card : ℚ)])

/-- `fpr_list`, `tpr_list` (metrics.py:155, 163-175). -/
def roc (n : ℕ) (order : List ℕ) (noise : Finset ℕ) : Except Err (List ℚ × List ℚ) :=
  (List.range n).foldlM (rocStep n order noise) ([0], [0])

/-- `torch.trapz(y, x)`. -/
def trapz : List ℚ → List ℚ → ℚ
  | y0 :: y1 :: ys, x0 :: x1 :: xs => (x1 - x0) * (y0 + y1) / 2 + trapz (y1 :: ys) (x1 :: xs)
  | _, _ => 0

/-- `mislabel_detection_auc` (metrics.py:131-182): the AUC with the two lists. -/
def auc (n : ℕ) (order : List ℕ) (noise : Finset ℕ) : Except Err (ℚ × List ℚ × List ℚ) := do
  let r ← roc n order noise
  pure (trapz r.2 r.1, r.1, r.2)

end Verif.Metric
