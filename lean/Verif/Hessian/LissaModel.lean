import Verif.Base.Tensor
import Mathlib.Data.Matrix.Mul
import Mathlib.LinearAlgebra.Matrix.Notation
import Mathlib.Algebra.Field.Defs

/-!
# Model of LiSSA (`dattri/func/hessian.py:746-1002`)

Randomness is an explicit input: `perm r t` is the value of `torch.randperm(num_samples)` drawn in step `t` of repeat `r`.
`hv` maps the list of sampled indices to the Hessian matrix of the function on that batch (the Hessian-vector product is linear in the
vector). Simplification: exact field arithmetic, one row of `v`.
-/

namespace Verif.Hessian

open Matrix

variable {R : Type} {n : Nat}

/-- `_check_input_size` (hessian.py:783-827) on the batch dimensions of the inputs (`none`: argument without batch dimension). -/
def checkInputSize (sizes : List (Option Nat)) : Except Err Nat := do
  let r ← sizes.foldlM (fun (acc : Option Nat) d =>
    match d, acc with
    | none, a => .ok a
    | some k, none => .ok (some k)
    | some k, some m => if m ≠ k then .error .valueError else .ok (some m)) (none : Option Nat)
  pure (r.getD 1)

/-- `_sample_random_batch` (hessian.py:746-780): the first `batch_size` entries of a random permutation. -/
def sampleBatch (perm : List Nat) (batchSize : Nat) : List Nat := perm.take batchSize

/-- The inner recursion of `_lissa_loop` (hessian.py:903-917): `curr = vec + (1 - damping) curr - hvp / scaling`. -/
def lissaRec [Field R] (hv : List Nat → Matrix (Fin n) (Fin n) R) (perm : Nat → List Nat) (batchSize : Nat) (damping scaling : R)
    (v : Fin n → R) : Nat → Fin n → R
  | 0 => v
  | t + 1 =>
    let curr := lissaRec hv perm batchSize damping scaling v t
    v + (1 - damping) • curr - (1 / scaling) • (hv (sampleBatch (perm t) batchSize) *ᵥ curr)

/-- `ihvp_lissa(...)(x, v)` for one row (hessian.py:899-923): the mean over repeats of `curr / scaling`. `torch.stack([])` raises when
`num_repeat = 0`; `scaling = 0` gives a non-finite result (reported as an error value as well). -/
def ihvpLissa [Field R] [DecidableEq R] (hv : List Nat → Matrix (Fin n) (Fin n) R) (perm : Nat → Nat → List Nat)
    (batchSize numRepeat recursionDepth : Nat) (damping scaling : R) (v : Fin n → R) : Except Err (Option (Fin n → R)) :=
  if numRepeat = 0 then .error .runtimeError
  else if scaling = 0 then .ok none
  else .ok (some (((numRepeat : R)⁻¹) • ((List.range numRepeat).map (fun r =>
    (1 / scaling) • lissaRec hv (perm r) batchSize damping scaling v recursionDepth)).sum))

/-- `ihvp_at_x_lissa(..., batch_size, num_repeat, ...)(v)` (hessian.py:985-1000): calls `ihvp_lissa` with positional arguments
`(func, argnums, num_repeat, batch_size, ...)`, while its signature is `(func, argnums, batch_size, num_repeat, ...)`. -/
def ihvpAtXLissa [Field R] [DecidableEq R] (hv : List Nat → Matrix (Fin n) (Fin n) R) (perm : Nat → Nat → List Nat)
    (batchSize numRepeat recursionDepth : Nat) (damping scaling : R) (v : Fin n → R) : Except Err (Option (Fin n → R)) :=
  ihvpLissa hv perm numRepeat batchSize recursionDepth damping scaling v

end Verif.Hessian
