import Mathlib.Data.Finset.Basic
import Mathlib.Data.Finset.SDiff
import Mathlib.Algebra.Order.Ring.Rat
import Verif.Base.Tensor

/-!
# Model of `dattri/metric/britteness.py`

`predict remaining` is the prediction of the model that `train_func` returns for a loader sampling the list `remaining` of data-set positions.
Python's `list(set)` order is an arbitrary enumeration `enum`.
-/

namespace Verif.Brittle

/-- The scores argument: a vector, or a matrix with the given number of rows (the documented shape `(num_train, num_test)`). -/
inductive Scores
  | vec (order : List ℕ)
  | mat (rows : ℕ)

/-- `check_if_flip` (britteness.py:75-116). `sampler = none`: the loader's sampler has no attribute `indices`. `unhashable`: the indices to remove are
rows of a matrix. `labels` are the label batches of the test loader; the label of the last one is used. -/
def checkIfFlip (enum : Finset ℕ → List ℕ) (sampler : Option (List ℕ)) (labels : List (List ℤ)) (predict : List ℕ → ℤ) (remove : List ℕ)
    (unhashable : Bool) : Except Err Bool :=
  match sampler with
  | none => .error .attributeError
  | some orig =>
    if unhashable then .error .typeError
    else
      let pred := predict (enum (orig.toFinset \ remove.toFinset))
      match labels.getLast? with
      | none => .error .unboundLocalError
      | some [l] => .ok (pred ≠ l)
      | some _ => .error .runtimeError

/-- One test of the loop (britteness.py:63-71). `sorted_indices[:k]` of `argsort(scores)[::-1]`; for a matrix `argsort` works along the
last axis, so the slice holds `min k rows` unhashable rows. -/
def testK (enum : Finset ℕ → List ℕ) (sampler : Option (List ℕ)) (labels : List (List ℤ)) (predict : List ℕ → ℤ) (scores : Scores) (k : ℕ) :
    Except Err Bool :=
  match scores with
  | .vec order => checkIfFlip enum sampler labels predict (order.reverse.take k) false
  | .mat rows => checkIfFlip enum sampler labels predict [] (decide (0 < min k rows))

/-- The search loop (britteness.py:58-72). -/
def search (test : ℕ → Except Err Bool) : List ℕ → Except Err (Option ℕ)
  | [] => .ok none
  | k :: ks => do
    let b ← test k
    if b then .ok (some k) else search test ks

/-- `brittleness` (britteness.py:20-72); the default search space is `range(0, 200, 20)`. -/
def brittleness (enum : Finset ℕ → List ℕ) (sampler : Option (List ℕ)) (labels : List (List ℤ)) (predict : List ℕ → ℤ) (scores : Scores)
    (space : Option (List ℕ)) : Except Err (Option ℕ) :=
  search (testK enum sampler labels predict scores) (space.getD ((List.range 10).map (20 * ·)))

end Verif.Brittle
