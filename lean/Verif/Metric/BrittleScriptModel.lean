import Verif.Metric.BrittleModel

/-!
# The brittleness example (`examples/brittleness/mnist_lr_brittleness.py:38-145`)

Samples are positions in the data set; training and test samples are both `range(1000)` there, here `range n`. Simplified: the scores
are given; the model trained on a list of samples is given by its predictions.
-/

namespace Verif.Brittle

/-- The loop over one test batch: the first sample that is predicted rightly, with its position in the batch
(mnist_lr_brittleness.py:89-104). -/
def inBatch (ok : ℕ → Bool) : ℕ → List ℕ → Option (ℕ × ℕ)
  | _, [] => none
  | i, g :: rest => if ok g then some (g, i) else inBatch ok (i + 1) rest

/-- The loop over the test batches (mnist_lr_brittleness.py:88-107). -/
def findCorrect (ok : ℕ → Bool) : List (List ℕ) → Option (ℕ × ℕ)
  | [] => none
  | b :: bs =>
    match inBatch ok 0 b with
    | some r => some r
    | none => findCorrect ok bs

/-- The search space of the example (mnist_lr_brittleness.py:140). -/
def exampleSpace : List ℕ := [20, 40, 60, 80, 100, 120, 140, 180]

/-- The example from the second training on (mnist_lr_brittleness.py:80-145): `predict r g` is the prediction for sample `g` by the
model trained on the samples `r`, `argsort` the value of `np.argsort`. `TensorDataset(None, None)` raises `AttributeError`. -/
def brittleExample (enum : Finset ℕ → List ℕ) (argsort : (ℕ → ℚ) → List ℕ) (score : ℕ → ℕ → ℚ) (predict : List ℕ → ℕ → ℤ) (label : ℕ → ℤ)
    (n batchSize : ℕ) : Except Err (Option ℕ) :=
  match findCorrect (fun g => predict (List.range n) g = label g) (batches batchSize (List.range n)) with
  | none => .error .attributeError
  | some (g, i) =>
    brittleness enum (some (List.range n)) [[label g]] (fun r => predict r g) (.vec (argsort fun t => score t i)) (some exampleSpace)

end Verif.Brittle
