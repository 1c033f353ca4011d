import Verif.Base.Tensor
import Mathlib.LinearAlgebra.Matrix.Notation
import Mathlib.Data.Matrix.Mul
import Mathlib.Algebra.Field.Defs

/-!
# Model of EK-FAC (`dattri/func/fisher.py:186-546`, `dattri/algorithm/influence_function.py:855-1093`)

Simplifications: exact field arithmetic; activations and output gradients of one layer are given as vectors per sample (what the
forward hooks and the backward pass deposit in the layer cache); vectors of the running statistics are indexed by `Nat` so that layers
of different widths live in one dictionary. `torch.linalg.eigh` itself is not modelled: its contract (columns are orthonormal
eigenvectors) is a hypothesis where it is needed.
-/

namespace Verif.EKFAC

open Matrix

variable {R : Type}

/-! ## Random batch iterator -/

/-- `_random_batch_iterator` (fisher.py:186-236) on sample indices; `perm` is the value of `torch.randperm(num_samples)`.
Python raises `ZeroDivisionError` when the clamped batch size is zero. -/
def randomBatches (perm : List Nat) (numSamples batchSize : Nat) : Except Err (List (List Nat)) :=
  let bs := if batchSize > numSamples then numSamples else batchSize
  if bs = 0 then .error .zeroDivisionError
  else .ok ((List.range ((numSamples + bs - 1) / bs)).map (fun i =>
    (perm.take (min numSamples ((i + 1) * bs))).drop (i * bs)))

/-! ## Running statistics -/

/-- What the hooks leave for one layer of one batch: `ndim` of the input tensor, the inputs (one vector per sample for two-dimensional
inputs) and the gradients with respect to the outputs (influence_function.py:954-992). -/
structure LayerRec (R : Type) where
  name : String
  ndim : Nat
  a : List (Nat → R)
  ds : List (Nat → R)

abbrev Cov (R : Type) := Nat → Nat → R

/-- `X.T @ X / batch_samples` (fisher.py:272-274, 279-281). -/
def batchCov [Field R] (xs : List (Nat → R)) (batchSamples : Nat) : Cov R :=
  fun i j => (xs.map (fun x => x i * x j)).sum / (batchSamples : R)

/-- The weighted update (fisher.py:284-294). -/
def mix [Field R] (total batch : Nat) (old new : Cov R) : Cov R :=
  fun i j => (total : R) / ((total : R) + (batch : R)) * old i j + (batch : R) / ((total : R) + (batch : R)) * new i j

/-- A dictionary keyed by layer name. -/
abbrev Dict (α : Type) := String → Option α

/-- First access or weighted update of the two covariances of one layer (fisher.py:270-295). -/
def covNew [Field R] (total batch : Nat) (cur : Option (Cov R × Cov R)) (a ds : List (Nat → R)) : Cov R × Cov R :=
  match cur with
  | some old => (mix total batch old.1 (batchCov a batch), mix total batch old.2 (batchCov ds batch))
  | none => (batchCov a batch, batchCov ds batch)

/-- One iteration of the layer loop of `_update_covariance` (fisher.py:262-295). The local variable `a_prev` is assigned only for
two-dimensional inputs; for any other input the loop uses whatever the variable holds from an earlier layer, and fails with
`UnboundLocalError` when it holds nothing. (With a stale `a_prev` the mask `(b,1)` still broadcasts.) -/
def covLayer [Field R] (total batch : Nat) (st : Dict (Cov R × Cov R) × Option (List (Nat → R))) (l : LayerRec R) :
    Except Err (Dict (Cov R × Cov R) × Option (List (Nat → R))) := do
  match (if l.ndim = 2 then some l.a else st.2) with
  | none => .error .unboundLocalError
  | some a =>
    pure (fun k => if k = l.name then some (covNew total batch (st.1 l.name) a l.ds) else st.1 k, some a)

/-- `_update_covariance` (fisher.py:239-297); the mask is all ones of shape `(batch_size, 1)` (fisher.py:425-428), so
`batch_samples` is the batch size. -/
def updateCovariance [Field R] (cur : Dict (Cov R × Cov R)) (cache : List (LayerRec R)) (total batch : Nat) :
    Except Err (Dict (Cov R × Cov R)) := do
  let r ← cache.foldlM (covLayer total batch) (cur, none)
  pure r.1

/-- One batch: its size and the layer cache after the forward and backward pass. -/
structure Batch (R : Type) where
  size : Nat
  layers : List (LayerRec R)

/-- The batches the estimation loops visit: `break` after the batch with `i == max_iter - 1` (fisher.py:384-451, 476-546).
`max_iter = None` means the number of batches. -/
def visited {α : Type} (maxIter : Option Nat) (bs : List α) : List α :=
  match maxIter.getD bs.length with
  | 0 => bs
  | m => bs.take m

/-- `estimate_covariance` (fisher.py:384-451). -/
def estimateCovariance [Field R] (bs : List (Batch R)) (maxIter : Option Nat) : Except Err (Dict (Cov R × Cov R)) := do
  let r ← (visited maxIter bs).foldlM (fun (st : Dict (Cov R × Cov R) × Nat) b => do
    let c ← updateCovariance st.1 b.layers st.2 b.size
    pure (c, st.2 + b.size)) ((fun _ => none), 0)
  pure r.1

/-- `square(q_s @ (ds a^T) @ q_a^T)` of one sample: entry `(i,j)` is `((Σ_k q_s[i,k] ds_k) (Σ_k a_k q_a[j,k]))²` (fisher.py:341-365;
one time step). -/
def lambdaEntry [Field R] {p q : Nat} (qa : Matrix (Fin p) (Fin p) R) (qs : Matrix (Fin q) (Fin q) R) (a : Fin p → R)
    (ds : Fin q → R) : Matrix (Fin q) (Fin p) R :=
  fun i j => ((qs * vecMulVec ds a * qaᵀ) i j) ^ 2

/-- `_update_lambda` for one layer and a batch of samples `(a, ds)` (fisher.py:363-379). -/
def updateLambda [Field R] {p q : Nat} (qa : Matrix (Fin p) (Fin p) R) (qs : Matrix (Fin q) (Fin q) R)
    (cur : Option (Matrix (Fin q) (Fin p) R)) (batch : List ((Fin p → R) × (Fin q → R))) (total : Nat) :
    Matrix (Fin q) (Fin p) R :=
  let new : Matrix (Fin q) (Fin p) R := fun i j =>
    (batch.map (fun x => lambdaEntry qa qs x.1 x.2 i j)).sum / (batch.length : R)
  match cur with
  | some old => fun i j => (total : R) / ((total : R) + (batch.length : R)) * old i j
      + (batch.length : R) / ((total : R) + (batch.length : R)) * new i j
  | none => new

/-- `estimate_lambda` for one layer (fisher.py:476-546). -/
def estimateLambda [Field R] {p q : Nat} (qa : Matrix (Fin p) (Fin p) R) (qs : Matrix (Fin q) (Fin q) R)
    (bs : List (List ((Fin p → R) × (Fin q → R)))) (maxIter : Option Nat) : Option (Matrix (Fin q) (Fin p) R) :=
  ((visited maxIter bs).foldl (fun (st : Option (Matrix (Fin q) (Fin p) R) × Nat) b =>
    (some (updateLambda qa qs st.1 b st.2), st.2 + b.length)) (none, 0)).1

/-! ## The transform -/

/-- `_ifvp` (influence_function.py:1087). A zero of `_lambda + damping` gives a non-finite entry, modelled as `none`. -/
def ifvp [Field R] [DecidableEq R] {p q : Nat} (qa : Matrix (Fin p) (Fin p) R) (qs : Matrix (Fin q) (Fin q) R)
    (lam : Matrix (Fin q) (Fin p) R) (damping : R) (v : Matrix (Fin q) (Fin p) R) : Option (Matrix (Fin q) (Fin p) R) :=
  if ∃ i j, lam i j + damping = 0 then none
  else
    let m := qs * v * qaᵀ
    some (qsᵀ * Matrix.of (fun i j => m i j / (lam i j + damping)) * qa)

/-- `flatten(start_dim=1)` of one row's weight gradient. -/
def flat {q p : Nat} (w : Fin q → Fin p → R) : List R := (List.finRange q).flatMap (fun i => List.ofFn (w i))

/-- `cat([weight.flatten, bias.flatten]).reshape(-1, dim_out, dim_in)` with `dim_in = in + 1` (influence_function.py:1070-1080);
entry `(i, j)` of the reshaped tensor. `none` can only occur for indices out of range. -/
def biasLayout {q p : Nat} (w : Fin q → Fin p → R) (b : Fin q → R) (i j : Nat) : Option R :=
  (flat w ++ List.ofFn b)[i * (p + 1) + j]?

/-- The checks of the constructor and of `transform_test_rep` (influence_function.py:893-898, 1043-1048). -/
def ekfacChecks (numCheckpoints ckptIdx : Nat) : Except Err Unit := do
  if numCheckpoints > 1 then .error .valueError else pure ()
  if ckptIdx ≠ 0 then .error .valueError else pure ()

end Verif.EKFAC
