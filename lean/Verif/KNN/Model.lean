import Verif.Base.Tensor
import Mathlib.Data.Rat.Defs
import Mathlib.Algebra.Order.Field.Rat
import Mathlib.Data.Fintype.Perm

/-!
# Model of `dattri/algorithm/data_shapley.py` (`KNNShapleyAttributor`)

Simplifications: exact rationals instead of floats; the distance function (lines 20-35, 62-75, default `torch.cdist`) acts
sample-wise on a pair of batches; `torch.argsort` (line 191) is a parameter `srt` returning, for each row, a permutation that
sorts it (PyTorch does not promise a tie-breaking rule); `k_neighbors` is a natural number.
-/

namespace Verif.KNN

open Equiv

/-- `int(train_label == test_label)` (data_shapley.py:199-201, 208-209). -/
def ind (b : Bool) : ℚ := if b then 1 else 0

/-- One iteration of the backward loop (data_shapley.py:203-210): writes the value of the training point of rank `i` from the
one of rank `i+1`. `nn` is the sorted index row, `m` tells whether a training point's label matches. -/
def stepRow (K : ℕ) (nn : ℕ → ℕ) (m : ℕ → Bool) (s : ℕ → ℚ) (i : ℕ) : ℕ → ℚ :=
  Function.update s (nn i)
    (s (nn (i + 1)) + (ind (m (nn i)) - ind (m (nn (i + 1)))) / K * (min K (i + 1) : ℕ) / (i + 1 : ℕ))

/-- The whole row for one test point (data_shapley.py:199-210), starting from a row of zeros. -/
def knnRow (N K : ℕ) (nn : ℕ → ℕ) (m : ℕ → Bool) : ℕ → ℚ :=
  let s0 := Function.update (fun _ => (0 : ℚ)) (nn (N - 1)) (ind (m (nn (N - 1))) / N)
  ((List.range (N - 1)).reverse).foldl (stepRow K nn m) s0

/-- Mutable state of the fitting loop (data_shapley.py:142-154). -/
structure Fit (L : Type) where
  dist : Mat ℚ
  trl : List L
  tel : List L

variable {X L : Type}

/-- `self.distance_func(test_batch_data, train_batch_data)` (data_shapley.py:166), sample-wise. -/
def distBlock (dist : X → X → ℚ) (tb bb : List X) : Mat ℚ :=
  ⟨tb.length, bb.length, fun i j => match tb[i]?, bb[j]? with
    | some a, some b => dist a b
    | _, _ => 0⟩

/-- Inner loop over train batches for one test batch (data_shapley.py:163-186). -/
def fitTrain (dist : X → X → ℚ) (lab : X → L) (train : List X) (bsTr : ℕ) (nTe bsTe tb : ℕ) (testBatch : List X)
    (st : Fit L) : Option (Fit L) :=
  (List.range (numBatches bsTr train.length)).foldlM (fun st b => do
      let batch := batchAt bsTr train b
      let D ← st.dist.addBlock (tb * bsTe) (min ((tb + 1) * bsTe) nTe)
        (b * bsTr) (min ((b + 1) * bsTr) train.length) (distBlock dist testBatch batch)
      some ⟨D, if st.trl.length ≠ train.length then st.trl ++ batch.map lab else st.trl, st.tel⟩) st

/-- The fitting loop (data_shapley.py:156-189). -/
def fit (dist : X → X → ℚ) (lab : X → L) (train test : List X) (bsTr bsTe : ℕ) (st : Fit L) : Option (Fit L) :=
  (List.range (numBatches bsTe test.length)).foldlM (fun st tb => do
      let testBatch := batchAt bsTe test tb
      let st ← fitTrain dist lab train bsTr test.length bsTe tb testBatch st
      some ⟨st.dist, st.trl, if st.tel.length ≠ test.length then st.tel ++ testBatch.map lab else st.tel⟩) st

/-- `nn_sorting[j, k]` (data_shapley.py:191), as a function on ranks. -/
def nnOf (srt : (n : ℕ) → (Fin n → ℚ) → Perm (Fin n)) (n : ℕ) (row : ℕ → ℚ) (k : ℕ) : ℕ :=
  if h : k < n then (srt n (fun a => row a) ⟨k, h⟩ : Fin n) else 0

/-- The label-length checks (data_shapley.py:129-137). -/
def labelMismatch (o : Option (List L)) (n : ℕ) : Bool :=
  match o with
  | some l => l.length != n
  | none => false

/-- `KNNShapleyAttributor.attribute` (data_shapley.py:94-212). `trainLabels`/`testLabels` are the optional label lists. The
result has shape `(num_test_samples, num_train_samples)`. `IndexError`: no training sample (199); `ZeroDivisionError`: `K = 0`
with at least two training samples (207-210). -/
def knnAttribute [DecidableEq L] (K : ℕ) (dist : X → X → ℚ) (lab : X → L)
    (srt : (n : ℕ) → (Fin n → ℚ) → Perm (Fin n))
    (train test : List X) (bsTr bsTe : ℕ) (trainLabels testLabels : Option (List L)) : Except Err (Mat ℚ) :=
  if labelMismatch trainLabels train.length then .error .valueError
  else if labelMismatch testLabels test.length then .error .valueError
  else
    match fit dist lab train test bsTr bsTe
        ⟨Mat.zeros test.length train.length, trainLabels.getD [], testLabels.getD []⟩ with
    | none => .error .runtimeError
    | some st =>
      if test.length = 0 then .ok (Mat.zeros 0 train.length)
      else if train.length = 0 then .error .indexError
      else if st.trl.length < train.length ∨ st.tel.length < test.length then .error .indexError
      else if K = 0 ∧ 2 ≤ train.length then .error .zeroDivisionError
      else .ok ⟨test.length, train.length, fun j =>
        knnRow train.length K (nnOf srt train.length (st.dist.f j)) (fun a => decide (st.trl[a]? = st.tel[j]?))⟩

end Verif.KNN
