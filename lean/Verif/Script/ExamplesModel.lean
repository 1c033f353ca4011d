import Verif.Base.Tensor
import Mathlib.Data.Rat.Defs
import Mathlib.Algebra.BigOperators.Group.Finset.Basic
import Mathlib.Data.List.Basic

/-!
# The example scripts for data cleaning and for finding wrong labels (`examples/data_cleaning`, `examples/noisy_label_detection`)

What the scripts do with the scores of an attributor.  `order` is the second result of `torch.sort`; its order among equal scores is not specified, so it is
a parameter.  Simplifications: exact rational scores; training, evaluation and printing are left out.
-/

namespace Verif.Examples

/-- `score.mean(dim=1)` of a `n × m` matrix (influence_function_data_cleaning.py:92), for `m > 0`; with no validation sample torch gives
not-a-number, which is not modelled. -/
def rowMean (m : ℕ) (M : ℕ → ℕ → ℚ) (i : ℕ) : ℚ := (∑ j ∈ Finset.range m, M i j) / m

/-- Python's `l[k:]`: a negative start counts from the end, but not beyond the beginning. -/
def dropFrom {α : Type} (k : ℤ) (l : List α) : List α := if 0 ≤ k then l.drop k.toNat else l.drop ((l.length : ℤ) + k).toNat

/-- The new training set (influence_function_data_cleaning.py:118-120): the indices that are not in `indices[-REMOVE_NUMBER:]`. -/
def newTrainingSet (n : ℕ) (order : List ℕ) (remove : ℤ) : List ℕ := (List.range n).filter fun i => i ∉ dropFrom (-remove) order

/-- One turn of the loop over the sorted indices (influence_function_noisy_label.py:82-86): the rows so far, the number found so far and the number of indices seen. -/
def tableStep (flips : List ℕ) (st : List (ℕ × ℕ) × ℕ × ℕ) (index : ℕ) : List (ℕ × ℕ) × ℕ × ℕ :=
  let rows := if st.2.2 % 100 = 0 then st.1 ++ [(st.2.2, st.2.1)] else st.1
  (rows, (if index ∈ flips then st.2.1 + 1 else st.2.1), st.2.2 + 1)

/-- `cr_list` (influence_function_noisy_label.py:80-86; the same in tracin_noisy_label.py:70-76 and trak_noisy_label.py:78-84). -/
def table (order flips : List ℕ) : List (ℕ × ℕ) := (order.foldl (tableStep flips) ([], 0, 0)).1

end Verif.Examples
