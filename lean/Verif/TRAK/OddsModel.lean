import Mathlib.Analysis.SpecialFunctions.Log.Basic
import Mathlib.Algebra.BigOperators.Fin

/-!
# The log-odds output function used with TRAK

The documentation of TRAK and the scripts define the attributed function as
`logp - torch.log(1 - torch.exp(logp))` with `logp = -loss`.
-/

namespace Verif.TRAKOdds

/-- A floating point result: a number, `inf` or `nan`. -/
inductive Val where
  | real (x : ℝ)
  | posInf
  | nan

/-- `logp - torch.log(1 - torch.exp(logp))` with `logp = -loss`, where the logarithm of zero
is `-inf` and that of a negative number is `nan`
(dattri/algorithm/trak.py:47-54, examples/pretrained_benchmark/trak_loo.py:25-32,
examples/pretrained_benchmark/trak_dropout_lds.py:36-44,
examples/noisy_label_detection/trak_noisy_label.py:47-54,
experiments/gpt2_wikitext/score_TRAK.py:618-633, experiments/gpt2_wikitext/score_IF.py:620-632,
experiments/gpt2_wikitext/groundtruth.py:547-553, experiments/benchmark_result_nanogpt.py:79-85,
experiments/benchmark_result_mt.py:66-78, experiments/benchmark_result.py:174-181).
Simplified: exact arithmetic. -/
noncomputable def logOdds (loss : ℝ) : Val :=
  if 0 < 1 - Real.exp (-loss) then .real (-loss - Real.log (1 - Real.exp (-loss)))
  else if 1 - Real.exp (-loss) = 0 then .posInf
  else .nan

/-- The correct probability `torch.exp(-loss)` (dattri/algorithm/trak.py:61-68,
examples/pretrained_benchmark/trak_loo.py:34-41, experiments/gpt2_wikitext/score_TRAK.py:635-650,
experiments/benchmark_result_nanogpt.py:87-93). -/
noncomputable def correctProb (loss : ℝ) : ℝ := Real.exp (-loss)

/-- `nn.CrossEntropyLoss()` of one sample with logits `z` and label `y`
(examples/pretrained_benchmark/trak_loo.py:29-31). -/
noncomputable def crossEntropy {K : ℕ} (z : Fin K → ℝ) (y : Fin K) : ℝ :=
  -Real.log (Real.exp (z y) / ∑ k, Real.exp (z k))

/-- The loss of the last token in the music experiment, `CrossEntropyLoss(ignore_index=TOKEN_PAD,
reduction='none')`: zero if the label is the padding token
(experiments/benchmark_result_mt.py:70-76, 85-90). -/
noncomputable def crossEntropyIgnore {K : ℕ} (pad : Fin K) (z : Fin K → ℝ) (y : Fin K) : ℝ :=
  if y = pad then 0 else crossEntropy z y

/-- The loss of a batch that a causal language model returns, for blocks of equal length: the
mean of the losses of its samples (experiments/gpt2_wikitext/score_logra.py:614-618). -/
noncomputable def batchLoss {B : ℕ} (l : Fin B → ℝ) : ℝ := (∑ j, l j) / B

end Verif.TRAKOdds
