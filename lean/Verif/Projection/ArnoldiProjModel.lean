import Verif.Hessian.ArnoldiModel

/-!
# Model of `ArnoldiProjector.get_eigenspace` / `project` (`dattri/func/projection.py:1011-1064`)

`_arnoldi_iter` and `_distill` (projection.py:918-1009) are textually the functions of `func/hessian.py` modelled in
`Verif.Hessian.ArnoldiModel`. As there, `eigh` enters as a list of eigenpairs sorted by absolute value.
-/

namespace Verif.Projection

open Verif.Hessian Matrix

variable {n : Nat}

/-- Cached state of the projector: the selected eigenpairs (value, reduced projection vector) and `proj_dim`. -/
structure AState (n : Nat) where
  eigs : List (ℝ × V n)
  projDim : Nat

/-- `get_eigenspace` after `eigh` (projection.py:1027-1042): keep the last `proj_dim` eigenpairs; if fewer than `proj_dim` eigenvalues
exceed `tol**2`, only the attribute `proj_dim` is lowered. -/
noncomputable def eigenspace (a : Arn n) (projDim : Nat) (tol : ℝ) (eigs : List (ℝ × (Nat → ℝ))) : AState n :=
  open Classical in
  let sel := (lastK projDim eigs).map fun e =>
    (e.1, ((List.range a.cols.length).map (fun k => e.2 k • a.proj.getD k 0)).sum)
  let cnt := (sel.filter fun e => tol ^ 2 < e.1).length
  ⟨sel, if cnt < projDim then cnt else projDim⟩

/-- `project` on one row (projection.py:1064): `features @ eigvecs.T * (1.0 / sqrt(eigvals))`. A non-positive eigenvalue makes the entry
non-finite (NaN, or inf/NaN for 0): `none`. -/
noncomputable def AState.project (s : AState n) (x : V n) : List (Option ℝ) :=
  open Classical in
  s.eigs.map fun e => if 0 < e.1 then some ((x ⬝ᵥ e.2) * (1 / Real.sqrt e.1)) else none

end Verif.Projection
