import Verif.KNN.Model
import Verif.Base.DropLoader

/-!
# `KNNShapleyAttributor.attribute` with loaders that may use `drop_last`

Same simplifications as in `Verif/KNN/Model.lean`.
-/

namespace Verif.KNN

open Equiv

variable {X L : Type}

/-- Inner loop over train batches for one test batch (data_shapley.py:163-186). -/
def fitTrainD (dist : X → X → ℚ) (lab : X → L) (train test : DLoader X) (tb : ℕ) (st : Fit L) : Option (Fit L) :=
  (List.range train.nb).foldlM (fun st b => do
      let D ← st.dist.addBlock (tb * test.bs) (min ((tb + 1) * test.bs) test.data.length)
        (b * train.bs) (min ((b + 1) * train.bs) train.data.length) (distBlock dist (test.batch tb) (train.batch b))
      some ⟨D, if st.trl.length ≠ train.data.length then st.trl ++ (train.batch b).map lab else st.trl, st.tel⟩) st

/-- The fitting loop (data_shapley.py:156-189). -/
def fitD (dist : X → X → ℚ) (lab : X → L) (train test : DLoader X) (st : Fit L) : Option (Fit L) :=
  (List.range test.nb).foldlM (fun st tb => do
      let st ← fitTrainD dist lab train test tb st
      some ⟨st.dist, st.trl, if st.tel.length ≠ test.data.length then st.tel ++ (test.batch tb).map lab else st.tel⟩) st

/-- `KNNShapleyAttributor.attribute` (data_shapley.py:94-212). Every row reads the label of every training index and of its test index
(199-210), so a label list that is too short raises `IndexError`. For `K = 0`, where the code may also raise `ZeroDivisionError`, see
`knnAttribute`; here `K = 0` is reported as `ZeroDivisionError` whenever some division is reached. -/
def knnAttributeD [DecidableEq L] (K : ℕ) (dist : X → X → ℚ) (lab : X → L)
    (srt : (n : ℕ) → (Fin n → ℚ) → Perm (Fin n))
    (train test : DLoader X) (trainLabels testLabels : Option (List L)) : Except Err (Mat ℚ) :=
  if labelMismatch trainLabels train.data.length then .error .valueError
  else if labelMismatch testLabels test.data.length then .error .valueError
  else
    match fitD dist lab train test ⟨Mat.zeros test.data.length train.data.length, trainLabels.getD [], testLabels.getD []⟩ with
    | none => .error .runtimeError
    | some st =>
      if test.data.length = 0 then .ok (Mat.zeros 0 train.data.length)
      else if train.data.length = 0 then .error .indexError
      else if st.trl.length < train.data.length ∨ st.tel.length < test.data.length then .error .indexError
      else if K = 0 ∧ 2 ≤ train.data.length then .error .zeroDivisionError
      else .ok ⟨test.data.length, train.data.length, fun j =>
        knnRow train.data.length K (nnOf srt train.data.length (st.dist.f j)) (fun a => decide (st.trl[a]? = st.tel[j]?))⟩

end Verif.KNN
