import Verif.Attr.IFModel
import Verif.Hessian.CGModel
import Mathlib.Analysis.Calculus.FDeriv.Symmetric
import Mathlib.Analysis.Calculus.FDeriv.Pi

/-!
# Model of the Hessian-vector products (`dattri/func/hessian.py:31-221`)

`func` is a real function of `n` arguments, argument `i` a vector of `p i` numbers.  The primitives of
`torch.func` are modelled by the derivatives they compute: `grad`, `vjp`, `jvp` and `hessian`.
Simplifications: real arithmetic; arguments are flat vectors; where a derivative does not exist the
model's value is that of Mathlib's `fderiv`, the theorems assume that the derivatives exist.
-/

namespace Verif.Hessian

open Matrix Verif.Attr

variable {n : ℕ} {p : Fin n → ℕ}

/-- The arguments of `func`. -/
abbrev Args (p : Fin n → ℕ) := (i : Fin n) → Fin (p i) → ℝ

/-- The direction of entry `k` of argument `i`. -/
def unitArg (i : Fin n) (k : Fin (p i)) : Args p := Pi.single i (Pi.single k 1)

/-- `torch.func.grad(func, argnums)`: the partial derivatives by the entries of argument `a`. -/
noncomputable def gradF (f : Args p → ℝ) (a : Fin n) (x : Args p) : Fin (p a) → ℝ :=
  fun k => fderiv ℝ f x (unitArg a k)

/-- `_, vjp_fn = vjp(g, *x); vjp_fn(v)`: for every entry of every argument the derivative of `v · g`. -/
noncomputable def vjpF {q : ℕ} (g : Args p → Fin q → ℝ) (x : Args p) (v : Fin q → ℝ) : Args p :=
  fun i k => ∑ j, v j * fderiv ℝ (fun y => g y j) x (unitArg i k)

/-- `jvp(g, x, t)[1]`: the derivative of `g` in direction `t`. -/
noncomputable def jvpF {q : ℕ} (g : Args p → Fin q → ℝ) (x t : Args p) : Fin q → ℝ :=
  fun j => fderiv ℝ (fun y => g y j) x t

/-- `torch.func.hessian(func, argnums)(*x)`. -/
noncomputable def hessianF (f : Args p → ℝ) (a : Fin n) (x : Args p) : Matrix (Fin (p a)) (Fin (p a)) ℝ :=
  Matrix.of fun j k => fderiv ℝ (fun y => gradF f a y j) x (unitArg a k)

/-- The argument meant by `argnums`: `torch.func` counts negative numbers from the end and raises a
`RuntimeError` for numbers out of range. -/
def argOf (n : ℕ) (argnums : ℤ) : Option (Fin n) :=
  if h : 0 ≤ argnums ∧ argnums < n then some ⟨argnums.toNat, by omega⟩
  else if h : argnums < 0 ∧ -(n : ℤ) ≤ argnums then some ⟨(argnums + n).toNat, by omega⟩
  else none

/-- `v_patched` (hessian.py:108-117, 209-218): zeros for the arguments whose position is not `argnums`;
no position is a negative number. -/
noncomputable def patched (argnums : ℤ) (a : Fin n) (v : Fin (p a) → ℝ) : Args p :=
  if 1 < n then (if argnums = (a.1 : ℤ) then Pi.single a v else 0) else Pi.single a v

/-- `hvp(func, argnums, mode, regularization)(x, v)` and `hvp_at_x(func, x, ...)(v)` (hessian.py:31-121,
124-221), for `argnums` meaning argument `a`.  An unknown mode raises (`IHVPUsageError`, here
`valueError`). -/
noncomputable def hvpF (f : Args p → ℝ) (argnums : ℤ) (a : Fin n) (mode : String) (reg : ℝ) (x : Args p)
    (v : Fin (p a) → ℝ) : Except Err (Fin (p a) → ℝ) :=
  if ¬ (mode = "rev-rev" ∨ mode = "rev-fwd") then .error .valueError
  else if mode = "rev-rev" then .ok (vjpF (gradF f a) x v a + reg • v)
  else .ok (jvpF (gradF f a) x (patched argnums a v) + reg • v)

/-- `ihvp_explicit(func, argnums, regularization)(x, v)` and `ihvp_at_x_explicit` (hessian.py:224-327). -/
noncomputable def ihvpExplicitF (f : Args p → ℝ) (a : Fin n) (reg : ℝ) (x : Args p) (v : Fin (p a) → ℝ) :
    Option (Fin (p a) → ℝ) :=
  ihvpExplicit (hessianF f a x) reg v

end Verif.Hessian
