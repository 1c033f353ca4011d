import Verif.Attr.IFModel
import Mathlib.LinearAlgebra.Matrix.ToLinearEquiv

/-!
# Model of the explicit inverse-Fisher products (`dattri/func/fisher.py:29-135`)

`ifvp_explicit` and `ifvp_at_x_explicit` evaluate the same expression; the second computes the gradient when it is built. The gradient is
an input of the model. Simplification: exact field arithmetic.
-/

namespace Verif.Hessian

open Matrix Verif.Attr

variable {R : Type} {p k : Nat}

/-- A gradient tensor: one- or two-dimensional, according to the shape of the parameter. -/
inductive GradT (R : Type) (p k : Nat)
  | vec (g : Fin p → R)
  | mat (G : Matrix (Fin p) (Fin k) R)

/-- `grad_tensor @ grad_tensor.T + torch.eye(grad_tensor.shape[0]) * regularization` (fisher.py:76-77, 119, 131). For a one-dimensional
tensor `.T` is the tensor itself and `@` the inner product, a scalar, which is then added to every entry of the matrix. -/
def fimReg [Field R] (reg : R) : GradT R p k → Matrix (Fin p) (Fin p) R
  | .vec g => Matrix.of fun i j => (∑ l, g l * g l) + (if i = j then 1 else 0) * reg
  | .mat G => G * Gᵀ + reg • (1 : Matrix (Fin p) (Fin p) R)

/-- `_ifvp_explicit_func` and `_ifvp_at_x_explicit_func` on one row `v` (fisher.py:63-79, 121-133). -/
noncomputable def ifvpExplicit [Field R] (reg : R) (g : GradT R p k) (v : Fin p → R) : Option (Fin p → R) :=
  linSolve (fimReg reg g) v

end Verif.Hessian
