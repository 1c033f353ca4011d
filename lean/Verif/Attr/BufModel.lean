import Mathlib.Algebra.Module.Basic
import Mathlib.Data.Real.Basic
import Verif.Base.Tensor

/-!
# The gradient buffers of the model (`.grad`) during attribution

Which calls of attributors touch the `.grad` of the parameters of the user's model. Only the buffers are modelled: the gradients themselves are given,
batch by batch. A buffer is `none` (`.grad is None`) or a vector.
-/

namespace Verif.GradBuf

open Verif

variable {P V : Type}

/-- The buffers of all parameters. -/
abbrev Buf (P V : Type) := P → Option V

/-- The accumulation of `backward()` (PyTorch): a parameter that the gradient does not reach keeps its buffer. -/
def accumulate [AddCommGroup V] (g : Buf P V) (b : Buf P V) : Buf P V := fun p =>
  match g p with
  | none => b p
  | some v => some (match b p with | none => v | some w => w + v)

/-- `model.zero_grad()` (PyTorch, `set_to_none=True`). -/
def zeroGrad (_ : Buf P V) : Buf P V := fun _ => none

/-- What a batch does in a forward and backward pass: its number of samples, and for every parameter its uses, each with its share of the gradient of
the (mean) loss and a flag whether the use is in a layer hooked by the block-projected attributor; or the exception of the forward pass. -/
structure Batch (P V : Type) where
  size : ℕ
  uses : Except Err (P → List (Bool × V))

/-- The gradient that reaches a parameter through the uses of a batch that `backward` differentiates; `none` if there is none, or if the parameter is
frozen. -/
def reach [AddCommGroup V] (trainable : P → Bool) (sel : Bool → Bool) (uses : P → List (Bool × V)) : Buf P V := fun p =>
  if trainable p then
    match (uses p).filter fun u => sel u.1 with
    | [] => none
    | l => some (l.map Prod.snd).sum
  else none

variable [AddCommGroup V] [Module ℝ V]

/-- The gradient of a batch in EK-FAC's passes: the weights are entries of one flattened vector (task.py:426-452, func/utils.py:86-90), of which
`backward` hands every trainable parameter its part; parts that are not used are 0. The loss is multiplied by the batch size (fisher.py:434, 529). -/
def flatGrad (trainable : P → Bool) (size : ℕ) (uses : P → List (Bool × V)) : Buf P V := fun p =>
  if trainable p then some ((size : ℝ) • ((uses p).map Prod.snd).sum) else none

/-- The loop of `estimate_covariance` (fisher.py:422-449) and of `estimate_lambda` (fisher.py:517-545), as far as the buffers are concerned;
`i == max_iter - 1` ends it. -/
def ekfacLoop (trainable : P → Bool) (maxIter : ℤ) : ℕ → List (Batch P V) → Buf P V → Buf P V × Except Err Unit
  | _, [], b => (b, .ok ())
  | i, x :: xs, b =>
    match x.uses with
    | .error e => (b, .error e)
    | .ok u =>
      let b := accumulate (flatGrad trainable x.size u) b
      if (i : ℤ) = maxIter - 1 then (b, .ok ()) else ekfacLoop trainable maxIter (i + 1) xs b

/-- `IFAttributorEKFAC.cache` (influence_function.py:949-1021): the two passes; `max_iter` defaults to the number of batches (954-955). -/
def ekfacCache (trainable : P → Bool) (maxIter : Option ℤ) (l : List (Batch P V)) (b : Buf P V) : Buf P V × Except Err Unit :=
  let k := maxIter.getD l.length
  match ekfacLoop trainable k 0 l b with
  | (b, .error e) => (b, .error e)
  | (b, .ok ()) => ekfacLoop trainable k 0 l b

/-- The gradient loops of the block-projected attributor, in `cache` (block_projected_if.py:248-257) and `attribute` (848-874): the hooked layers
return no gradient for their weights (hook.py:151-156). -/
def blockLoop (trainable : P → Bool) : List (Batch P V) → Buf P V → Buf P V × Except Err Unit
  | [], b => (b, .ok ())
  | x :: xs, b =>
    match x.uses with
    | .error e => (zeroGrad b, .error e)
    | .ok u => blockLoop trainable xs (accumulate (reach trainable (fun hooked => !hooked) u) (zeroGrad b))

/-- Gradient factors of DVEmb for a list of batches (`_calculate_gradient_factors`, dvemb.py:492-504, called by `attribute` for every test batch); its
hooks change no gradient. -/
def factorLoop (trainable : P → Bool) : List (Batch P V) → Buf P V → Buf P V × Except Err Unit
  | [], b => (b, .ok ())
  | x :: xs, b =>
    match x.uses with
    | .error e => (zeroGrad b, .error e)
    | .ok u =>
      factorLoop trainable xs (accumulate (fun p => (reach trainable (fun _ => true) u p).map fun v => (x.size : ℝ) • v) (zeroGrad b))

/-- What happens to a model in the course of a program: the user's `zero_grad()`, `backward()` and `step()`, and attributor calls.
`functional` stands for the calls that differentiate with `torch.func.grad` or on tensors of their own: TracIn, TRAK, the influence functions
with explicit inverse, CG, LiSSA, Arnoldi and DataInf, RPS, and EK-FAC's `attribute`. -/
inductive Op (P V : Type)
  | userZero
  | userBackward (g : Buf P V)
  | userStep
  | functional
  | ekfac (maxIter : Option ℤ) (l : List (Batch P V))
  | block (l : List (Batch P V))
  | factors (l : List (Batch P V))

/-- The effect of one event on the buffers; exceptions of attributor calls are caught. -/
def apply (trainable : P → Bool) : Op P V → Buf P V → Buf P V
  | .userZero, b => zeroGrad b
  | .userBackward g, b => accumulate g b
  | .userStep, b => b
  | .functional, b => b
  | .ekfac k l, b => (ekfacCache trainable k l b).1
  | .block l, b => (blockLoop trainable l b).1
  | .factors l, b => (factorLoop trainable l b).1

/-- The gradients that the user's `step()` calls find, in order. -/
def steps (trainable : P → Bool) : List (Op P V) → Buf P V → List (Buf P V)
  | [], _ => []
  | .userStep :: ops, b => b :: steps trainable ops b
  | o :: ops, b => steps trainable ops (apply trainable o b)

end Verif.GradBuf
