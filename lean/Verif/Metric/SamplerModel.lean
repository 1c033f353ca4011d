import Verif.Metric.EvalModel
import Verif.Metric.BrittleModel

/-!
# Evaluating scores of a loader with a sampler

Attributors number the training samples in the order in which the loader yields them; `retrain_lds`, `retrain_loo` and `brittleness` take the same
numbers for positions in `dataloader.dataset`. Here the data set and the sampler of one loader, given to both, are explicit.

Simplifications: the data set is a function of the position (positions beyond its end are not modelled); an attributor is given by the score it
computes for a sample and a test sample.
-/

namespace Verif.Metric

open Verif Verif.Retrain

variable {X M ρ : Type}

/-- The samples in the order in which a loader with a `SubsetSampler` over the positions `σ` yields them (benchmark/utils.py:83-113). -/
def yields (data : ℕ → X) (σ : List ℕ) : List X := σ.map data

/-- The matrix returned by `attribute` (base.py:334-450): row `r` is the score of the sample yielded at place `r`. -/
def rowScores (data : ℕ → X) (σ : List ℕ) (s : X → ℕ → ℝ) (r t : ℕ) : ℝ := ((yields data σ)[r]?.map fun z : X => s z t).getD 0

/-- `train_func` on a loader over `Subset(dataloader.dataset, indices)` (retrain.py:119-126, 247-265). -/
def onSubset {α : Type} (data : ℕ → X) (train : List X → α → M) (idx : List ℕ) (a : α) : M := train (idx.map data) a

/-- `retrain_lds(train_func, loader, ...)`, `calculate_lds_ground_truth`, and `lds` for the scores of the same loader (retrain.py:229-289,
ground_truth.py:98-196, metrics.py:17-75; as in examples/customized_retraining/mnist.py:139-169). -/
noncomputable def ldsOfLoader [DecidableEq ρ] (choice : ℕ → ℕ → ℕ → List ℕ) (train : List X → ℕ → M) (root : ρ) (data : ℕ → X) (σ : List ℕ)
    (k num runs seed : ℕ) (target : M → ℕ → ℝ) (fs : FS ρ M) (nTest : ℕ) (s : X → ℕ → ℝ) : Except Err (List (Option ℝ)) :=
  evalLds target root (applyWrites fs (retrainLds choice (onSubset data train) root σ.length k num runs 0 0 seed).1) σ.length nTest (rowScores data σ s)

/-- `retrain_loo(train_func, loader, ...)`, `calculate_loo_ground_truth`, and `loo_corr` for the scores of the same loader (retrain.py:95-129,
ground_truth.py:37-95, metrics.py:78-128), with the directory listed in the order of creation. -/
noncomputable def looOfLoader (train : List X → Option ℕ → M) (data : ℕ → X) (σ : List ℕ) (seed : Option ℕ) (target : M → ℕ → ℝ) (nTest : ℕ)
    (s : X → ℕ → ℝ) : Except Err (List (Option ℝ)) :=
  evalLoo target ((retrainLoo (onSubset data train) σ.length none seed).map fun d => ⟨d.1, true, some d.2⟩) σ.length nTest (rowScores data σ s)

/-- `brittleness(loader, ...)` with the scores of the same loader for one test sample (britteness.py:20-116): `order` is the `argsort` of the score
vector; the model is trained on the samples at the positions `set(sampler.indices) - set(top rows)`. -/
def brittlenessOfLoader (enum : Finset ℕ → List ℕ) (data : ℕ → X) (σ : List ℕ) (labels : List (List ℤ)) (predict : List X → ℤ) (order : List ℕ)
    (space : List ℕ) : Except Err (Option ℕ) :=
  Brittle.brittleness enum (some σ) labels (fun idx => predict (idx.map data)) (.vec order) (some space)

end Verif.Metric
