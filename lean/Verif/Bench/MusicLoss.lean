import Mathlib.Analysis.SpecialFunctions.Pow.Real
import Mathlib.Analysis.SpecialFunctions.Log.Basic
import Verif.Base.Tensor

/-!
# Model of the learning rate and the smoothed loss of the MusicTransformer (`dattri/benchmark/models/MusicTransformer/utilities/lr_scheduling.py`,
`loss.py`), in real arithmetic
-/

namespace Verif.MusicLoss

open Verif

/-- `1 / math.sqrt(x)`-style divisions: `math.sqrt` raises `ValueError` on negative numbers, and dividing by zero `ZeroDivisionError`. -/
noncomputable def invSqrt (x : ℤ) (scale : ℝ) : Except Err ℝ :=
  if x < 0 then .error .valueError
  else if x = 0 then .error .zeroDivisionError
  else .ok (1 / (scale * √(x : ℝ)))

/-- `LrStepTracker` (lr_scheduling.py:13-36). -/
structure Tracker where
  warmup : ℤ
  initSteps : ℤ
  invsqrtDim : ℝ
  invsqrtWarmup : ℝ

/-- `LrStepTracker.__init__` (lr_scheduling.py:28-36). -/
noncomputable def Tracker.new (modelDim warmup initSteps : ℤ) : Except Err Tracker := do
  let a ← invSqrt modelDim 1
  let b ← invSqrt warmup warmup
  .ok ⟨warmup, initSteps, a, b⟩

/-- `LrStepTracker.step` (lr_scheduling.py:39-56). -/
noncomputable def Tracker.step (t : Tracker) (step : ℤ) : Except Err ℝ :=
  let step := step + t.initSteps
  if step ≤ t.warmup then .ok (t.invsqrtDim * t.invsqrtWarmup * step)
  else do
    let i ← invSqrt step 1
    .ok (t.invsqrtDim * i)

/-- The value of the loss: a number, or not a number (0/0). -/
inductive Val
  | num (x : ℝ)
  | nan

/-- `reduction`. -/
inductive Reduction
  | mean
  | sum
  | none
  deriving DecidableEq

/-- `q.logsumexp(dim=-1)` of one row. -/
noncomputable def logsumexp {V : ℕ} (x : Fin V → ℝ) : ℝ := Real.log (∑ v, Real.exp (x v))

/-- The row of `q_prime` (loss.py:33-37) of a target that is a class. -/
noncomputable def smoothed {V : ℕ} (s : ℝ) (ignored : Bool) (t : ℤ) (v : Fin V) : ℝ :=
  if ignored then 0 else (1 - s) * (if (v : ℤ) = t then 1 else 0) + s * (1 / (V : ℝ))

/-- `SmoothCrossEntropyLoss.forward` (loss.py:24-49) on rows of logits with their targets. `F.one_hot` raises `RuntimeError` unless all targets are
classes. -/
noncomputable def forward {V : ℕ} (s : ℝ) (ignore : ℤ) (red : Reduction) (rows : List ((Fin V → ℝ) × ℤ)) : Except Err Val :=
  if ∃ r ∈ rows, r.2 < 0 ∨ (V : ℤ) ≤ r.2 then .error .runtimeError
  else
    let ce := rows.map fun r => - ∑ v, smoothed s (decide (r.2 = ignore)) r.2 v * (r.1 v - logsumexp r.1)
    match red with
    | .mean =>
      let lengths := (rows.filter fun r => r.2 ≠ ignore).length
      if lengths = 0 then .ok .nan else .ok (.num (ce.sum / lengths))
    | .sum => .ok (.num ce.sum)
    | .none => .error .notImplementedError

/-- `SmoothCrossEntropyLoss.__init__` (loss.py:15-22) checks the smoothing. -/
noncomputable def checkSmoothing (s : ℝ) : Except Err Unit := if 0 ≤ s ∧ s ≤ 1 then .ok () else .error .assertionError

end Verif.MusicLoss
