import Mathlib.Algebra.Module.Basic
import Verif.Base.Tensor

/-!
# What recording data value embeddings does to the training it records

Models the effects of `DVEmbAttributor.cache_gradients`, `cache_gradients_context` and
`attribute` (`dattri/algorithm/dvemb.py:263-410, 412-452, 480-504, 829-855`) on the model that is
being trained: its parameters, the gradients accumulated in `.grad`, its buffers (running
statistics), the random number generator, the train/eval flag and the optimizer.

Simplifications: what the attributor itself records is not part of this model (see `Model.lean`,
`ContextModel.lean`); devices are ignored; a network whose forward pass writes buffers in training
mode is not given to the per-sample gradients of `torch.func` (vmap rejects it), so the full path
leaves the buffers alone.
-/

namespace Verif.DVTrain

open Verif

variable {K V ι β X O : Type} [Semiring K] [AddCommMonoid V] [Module K V]

/-- The user's network with its loss (mean over the batch), as far as training sees it: gradients
by parameter (`none`: the parameter is not reached), in training mode depending on the position of
the random number generator, in evaluation mode on the buffers; numbers drawn by a forward pass in
training mode and by a per-sample pass under vmap (`dattri/task.py:338-345`, randomness
"different"); the buffers after a forward pass in training mode; the rows of a batch.  The task's
loss function (`original_loss_func`) is the user's loss on the live model. -/
structure Net (V ι β X : Type) where
  gradTrain : (ι → V) → X → ℕ → ι → Option V
  gradEval : (ι → V) → β → X → ι → Option V
  used : X → ℕ
  usedFull : X → ℕ
  buffers : (ι → V) → X → ℕ → β → β
  size : X → ℕ

/-- The state of a training run. -/
structure St (V ι β O : Type) where
  θ : ι → V
  grad : ι → Option V
  buf : β
  pos : ℕ
  train : Bool
  opt : O

/-- Accumulation into `.grad` by `backward()`. -/
def acc (g h : Option V) : Option V :=
  match g, h with
  | g, none => g
  | none, some h => some h
  | some g, some h => some (g + h)

/-- `model.zero_grad()`: every gradient becomes `None`. -/
def zeroGrad (s : St V ι β O) : St V ι β O := { s with grad := fun _ => none }

/-- One forward pass and `(c * loss).backward()` on the live model. -/
def pass (net : Net V ι β X) (c : K) (b : X) (s : St V ι β O) : St V ι β O :=
  let g : ι → Option V := if s.train then net.gradTrain s.θ b s.pos else net.gradEval s.θ s.buf b
  { s with
    grad := fun i => acc (s.grad i) ((g i).map (c • ·))
    pos := if s.train then s.pos + net.used b else s.pos
    buf := if s.train then net.buffers s.θ b s.pos s.buf else s.buf }

/-- `_calculate_gradient_factors` (`dattri/algorithm/dvemb.py:480-504`): `zero_grad`, forward pass,
loss times the batch size, `backward`.  Hooks (registered and removed) do not touch this state. -/
def factorPass (net : Net V ι β X) (b : X) (s : St V ι β O) : St V ι β O :=
  pass net ((net.size b : ℕ) : K) b (zeroGrad s)

/-- `_calculate_full_gradients` (`dattri/algorithm/dvemb.py:412-452`): per-sample gradients by
`torch.func` on detached parameters; only the random number generator moves, in training mode. -/
def fullPass (net : Net V ι β X) (b : X) (s : St V ι β O) : St V ι β O :=
  { s with pos := if s.train then s.pos + net.usedFull b else s.pos }

/-- The gradient calculation chosen by `use_factorization` (`dattri/algorithm/dvemb.py:297-305`,
`837-847`). -/
def gradPass (K : Type) [Semiring K] [Module K V] (net : Net V ι β X) (factor : Bool) (b : X)
    (s : St V ι β O) : St V ι β O :=
  if factor then factorPass (K := K) net b s else fullPass net b s

/-- What the user and the attributor do in turn.  `backward` is the user's forward and backward
pass; `record` is `cache_gradients`; `enter`/`leave` are the two ends of
`cache_gradients_context`; `scores` is `attribute` with its test batches, whether embeddings are
cached and whether the epoch asked for is known. -/
inductive Op (X : Type) where
  | train
  | eval
  | zeroGrad
  | backward (b : X)
  | step
  | record (factor : Bool) (b : X)
  | enter
  | leave
  | scores (factor cached known : Bool) (tests : List X)

/-- `attribute` (`dattri/algorithm/dvemb.py:829-855`): without embeddings it raises at once;
otherwise the model is set to evaluation mode and the gradients of the test batches are computed;
concatenating no batch raises, then the epoch is looked up. -/
def attributeCall (K : Type) [Semiring K] [Module K V] (net : Net V ι β X)
    (factor cached known : Bool) (tests : List X) (s : St V ι β O) : St V ι β O × Option Err :=
  if !cached then (s, some .runtimeError)
  else
    let s' := tests.foldl (fun s b => gradPass K net factor b s) { s with train := false }
    if tests.isEmpty then (s', some .runtimeError)
    else if known then (s', none) else (s', some .valueError)

/-- The effect of one operation; `opt` is `optimizer.step()` (parameters whose gradient is `None`
are visible as such).  `cache_gradients`: `dattri/algorithm/dvemb.py:263-305`; the ends of
`cache_gradients_context`: `dattri/algorithm/dvemb.py:379-410`, hooks only. -/
def exec (K : Type) [Semiring K] [Module K V] (net : Net V ι β X)
    (opt : O → (ι → V) → (ι → Option V) → O × (ι → V)) (s : St V ι β O) : Op X → St V ι β O
  | .train => { s with train := true }
  | .eval => { s with train := false }
  | .zeroGrad => zeroGrad s
  | .backward b => pass net (1 : K) b s
  | .step =>
    let r := opt s.opt s.θ s.grad
    { s with opt := r.1, θ := r.2 }
  | .record factor b => gradPass K net factor b s
  | .enter => s
  | .leave => s
  | .scores factor cached known tests => (attributeCall K net factor cached known tests s).1

/-- A run. -/
def run (K : Type) [Semiring K] [Module K V] (net : Net V ι β X)
    (opt : O → (ι → V) → (ι → Option V) → O × (ι → V)) (ops : List (Op X)) (s : St V ι β O) :
    St V ι β O :=
  ops.foldl (exec K net opt) s

end Verif.DVTrain
