import Mathlib.Data.Matrix.Mul
import Mathlib.LinearAlgebra.Matrix.Notation
import Mathlib.Algebra.Field.Defs

/-!
# Model of the conjugate-gradient IHVP (`dattri/func/hessian.py:398-490`)

The (regularised) Hessian-vector product is a matrix `A` acting on vectors, since `hvp_at_x` is linear in its vector argument.
Simplification: exact field arithmetic; a division by zero yields a non-finite tensor, modelled as `none`. Rows of `v` are processed
independently by `vmap`.
-/

namespace Verif.Hessian

open Matrix

variable {R : Type} {n : Nat}

/-- Loop variables of `_cg` (`ihvp_res`, `g_pre` = `d_pre`, `d`). -/
structure CG (R : Type) (n : Nat) where
  x : Fin n → R
  g : Fin n → R
  d : Fin n → R

/-- Before the loop (hessian.py:461-464): start at `x = v`. -/
def cgInit [Field R] (A : Matrix (Fin n) (Fin n) R) (v : Fin n → R) : CG R n :=
  ⟨v, v - A *ᵥ v, v - A *ᵥ v⟩

/-- One iteration (hessian.py:466-482). After the first assignment `d_pre` and `g_pre` are the same tensor, so
`dot(g_pre, d_pre) = g·g`. -/
def cgStep [Field R] [DecidableEq R] (A : Matrix (Fin n) (Fin n) R) (s : CG R n) : Option (CG R n) :=
  let ad := A *ᵥ s.d
  if s.d ⬝ᵥ ad = 0 then none
  else
    let alpha := (s.g ⬝ᵥ s.g) / (s.d ⬝ᵥ ad)
    let x := s.x + alpha • s.d
    let g := s.g - alpha • ad
    if s.g ⬝ᵥ s.g = 0 then none
    else
      let beta := (g ⬝ᵥ g) / (s.g ⬝ᵥ s.g)
      some ⟨x, g, g + beta • s.d⟩

/-- The loop `for _ in range(max_iter)`. -/
def cgRun [Field R] [DecidableEq R] (A : Matrix (Fin n) (Fin n) R) (v : Fin n → R) : Nat → Option (CG R n)
  | 0 => some (cgInit A v)
  | k + 1 => (cgRun A v k).bind (cgStep A)

/-- `ihvp_at_x_cg(func, *x, max_iter, tol)(v)`; `tol` is not used (hessian.py:403). -/
def ihvpCG [Field R] [DecidableEq R] (A : Matrix (Fin n) (Fin n) R) (maxIter : Nat) (_tol : R) (v : Fin n → R) : Option (Fin n → R) :=
  (cgRun A v maxIter).map (·.x)

end Verif.Hessian
