import Mathlib.Analysis.Real.Sqrt

/-!
# Trainings with Adam and AdamW: GPT-2 on WikiText-2, the MusicTransformer and nanoGPT

`torch.optim.AdamW` (for weight decay 0 the same as `torch.optim.Adam`) is modelled by the update of its documentation, coordinate by coordinate; the coordinates of all
parameters are indexed by `ι`.  The gradient of a batch is an arbitrary function of the parameters and of the number of the step, so that dropout, clipping and
accumulation are included, as is a new order of the samples in every epoch.  Simplifications: exact real arithmetic; every parameter gets a gradient in every step
(the optimizer would leave out, and not decay, one that has none).
-/

namespace Verif.Adam

variable {ι β : Type}

/-- The hyper-parameters: learning rate per step (counted from 0), weight decay per coordinate, the two rates of the averages, `eps`. -/
structure Hyper (ι : Type) where
  lr : ℕ → ℝ
  decay : ι → ℝ
  b1 : ℝ
  b2 : ℝ
  eps : ℝ

/-- Parameters, the two averages, and the number of steps made. -/
structure St (ι : Type) where
  θ : ι → ℝ
  m : ι → ℝ
  v : ι → ℝ
  t : ℕ

/-- The state of a new optimizer. -/
def St.init (θ : ι → ℝ) : St ι := ⟨θ, fun _ => 0, fun _ => 0, 0⟩

/-- One coordinate of an update: decay, averages, bias corrections, step. -/
noncomputable def coord (h : Hyper ι) (s : St ι) (g : ι → ℝ) (i : ι) : ℝ :=
  let m := h.b1 * s.m i + (1 - h.b1) * g i
  let v := h.b2 * s.v i + (1 - h.b2) * g i ^ 2
  let denom := Real.sqrt v / Real.sqrt (1 - h.b2 ^ (s.t + 1)) + h.eps
  s.θ i * (1 - h.lr s.t * h.decay i) - h.lr s.t / (1 - h.b1 ^ (s.t + 1)) * (m / denom)

/-- `optimizer.step()` with gradient `g`. -/
noncomputable def step (h : Hyper ι) (s : St ι) (g : ι → ℝ) : St ι where
  θ := coord h s g
  m := fun i => h.b1 * s.m i + (1 - h.b1) * g i
  v := fun i => h.b2 * s.v i + (1 - h.b2) * g i ^ 2
  t := s.t + 1

/-- Forward, backward and step on one batch (wikitext2_gpt2.py:49-53; run_model.py:25-46; nanoGPT/train.py:365-387): the gradients are cleared for every step. -/
noncomputable def batchStep (h : Hyper ι) (grad : β → ℕ → (ι → ℝ) → ι → ℝ) (s : St ι) (b : β) : St ι := step h s (grad b s.t s.θ)

/-- A training over a sequence of batches. -/
noncomputable def run (h : Hyper ι) (grad : β → ℕ → (ι → ℝ) → ι → ℝ) (θ : ι → ℝ) (bs : List β) : St ι := bs.foldl (batchStep h grad) (St.init θ)

/-- The optimizer of `train_wikitext2_gpt2` (wikitext2_gpt2.py:40-43): `AdamW` with its default weight decay, averages and `eps`. -/
noncomputable def wikitextHyper (ι : Type) : Hyper ι := ⟨fun _ => 5e-5, fun _ => 1e-2, 0.9, 0.999, 1e-8⟩

/-- `train_wikitext2_gpt2` (wikitext2_gpt2.py:45-55) from the pretrained parameters: `epochs` times over the loader. -/
noncomputable def trainWikitext (grad : β → ℕ → (ι → ℝ) → ι → ℝ) (θ : ι → ℝ) (epochs : ℕ) (loader : List β) : ι → ℝ :=
  (run (wikitextHyper ι) grad θ ((List.replicate epochs loader).flatten)).θ

/-- The optimizer of `train_maestro_musictransformer` (maestro_musictransformer.py:58, 71-96; constants.py:16-18); as `LR` is set there is no schedule. -/
noncomputable def maestroHyper (ι : Type) : Hyper ι := ⟨fun _ => 1e-4, fun _ => 0, 0.9, 0.98, 10e-9⟩

/-- The parameters after the training epochs of `train_maestro_musictransformer` (maestro_musictransformer.py:160-173, run_model.py:11-65). -/
noncomputable def trainMaestro (grad : β → ℕ → (ι → ℝ) → ι → ℝ) (θ : ι → ℝ) (epochs : ℕ) (loader : List β) : ι → ℝ :=
  (run (maestroHyper ι) grad θ ((List.replicate epochs loader).flatten)).θ

/-- The optimizer of nanoGPT (nanoGPT/model.py:269-293, train.py:63-65): the weight decay applies to parameters with at least two axes; the learning rate comes from the
schedule. -/
noncomputable def nanoHyper (axes : ι → ℕ) (lr : ℕ → ℝ) (weightDecay beta1 beta2 : ℝ) : Hyper ι :=
  ⟨lr, fun i => if 2 ≤ axes i then weightDecay else 0, beta1, beta2, 1e-8⟩

end Verif.Adam
