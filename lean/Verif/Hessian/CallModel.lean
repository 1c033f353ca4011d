import Verif.Attr.IFModel
import Verif.Hessian.CGModel
import Verif.Hessian.LissaModel
import Verif.Hessian.ArnoldiModel

/-!
# Call forms of the inverse-Hessian-vector products (`dattri/func/hessian.py:224-743, 830-1002`)

The functions accept one vector or a matrix whose rows are vectors. The regularised Hessian is a matrix `A`. Simplifications: exact
arithmetic; a non-finite row is `none`; tensors with more than two dimensions and devices are not covered.
-/

namespace Verif.Hessian

open Matrix

variable {R : Type} {n : Nat}

/-- A one-dimensional tensor or a two-dimensional one, given by its rows. -/
inductive Arg (α : Type) where
  | vec (v : α)
  | rows (l : List α)

/-- `if v.ndim == 1: v = v.unsqueeze(0)` (hessian.py:463-464, 727-728, 897-898). -/
def Arg.unsqueeze {α : Type} : Arg α → List α
  | .vec v => [v]
  | .rows l => l

/-- `torch.linalg.solve(A, v.T).T` (hessian.py:265-270, 322-325): a vector is solved as a vector, a matrix column by column; a singular
matrix raises in both cases. -/
noncomputable def explicitCall [Field R] (A : Matrix (Fin n) (Fin n) R) (v : Arg (Fin n → R)) : Except Err (Arg (Fin n → R)) :=
  open Classical in
  if A.det = 0 then .error .runtimeError
  else match v with
    | .vec v => .ok (.vec (A⁻¹ *ᵥ v))
    | .rows l => .ok (.rows (l.map fun v => A⁻¹ *ᵥ v))

/-- `ihvp_at_x_cg(func, *x, max_iter, tol)(v)` (hessian.py:451-488): `vmap` over the rows. `ihvp_cg(func, max_iter, tol)(x, v)` passes all its
arguments on (hessian.py:374-393). -/
def cgCall [Field R] [DecidableEq R] (A : Matrix (Fin n) (Fin n) R) (maxIter : Nat) (tol : R) (v : Arg (Fin n → R)) : Arg (Option (Fin n → R)) :=
  .rows (v.unsqueeze.map fun v => ihvpCG A maxIter tol v)

/-- `ihvp_lissa(func, batch_size, num_repeat, ...)(x, v)` (hessian.py:896-921): `vmap` over the rows with `randomness="different"`, so row `i` has
its own draws `perm i`. `torch.stack([])` raises without repeats. -/
def lissaCall [Field R] [DecidableEq R] (hv : List Nat → Matrix (Fin n) (Fin n) R) (perm : Nat → Nat → Nat → List Nat) (batchSize numRepeat depth : Nat)
    (damping scaling : R) (v : Arg (Fin n → R)) : Except Err (Arg (Option (Fin n → R))) := do
  let l ← v.unsqueeze.zipIdx.mapM fun vi => ihvpLissa hv (perm vi.2) batchSize numRepeat depth damping scaling vi.1
  pure (.rows l)

/-- The optional arguments of `ihvp_at_x_arnoldi` (hessian.py:561-571). -/
structure ArnArgs where
  maxIter : Nat := 100
  topK : Nat := 100
  normConstant : ℝ := 1
  tol : ℝ := 1e-7

/-- `ihvp_at_x_arnoldi(func, *x, ...)(v)` (hessian.py:727-741): one Krylov space with the random start vector `start` for all rows of the call.
`eigh` gives the sorted eigenpairs of the small matrix. A non-finite Krylov space makes all rows non-finite. -/
noncomputable def arnoldiCall (A : Matrix (Fin n) (Fin n) ℝ) (o : ArnArgs) (start : V n) (eigh : Arn n → List (ℝ × (Nat → ℝ))) (v : Arg (V n)) :
    Except Err (Arg (Option (V n))) := do
  let a ← arnoldi A start o.maxIter o.normConstant o.tol
  pure (.rows (v.unsqueeze.map fun v => a.bind fun a => arnoldiIhvp a o.topK (eigh a) v))

/-- `ihvp_arnoldi(func, argnums, max_iter, tol, mode, regularization)(x, v)` (hessian.py:493-558): it has neither `top_k` nor `norm_constant` and
calls `ihvp_at_x_arnoldi` with their defaults. -/
noncomputable def arnoldiWrapper (A : Matrix (Fin n) (Fin n) ℝ) (maxIter : Nat) (tol : ℝ) (start : V n) (eigh : Arn n → List (ℝ × (Nat → ℝ)))
    (v : Arg (V n)) : Except Err (Arg (Option (V n))) :=
  arnoldiCall A { maxIter := maxIter, tol := tol } start eigh v

end Verif.Hessian
