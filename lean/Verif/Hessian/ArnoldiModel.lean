import Verif.Base.Tensor
import Mathlib.Data.Matrix.Mul
import Mathlib.Analysis.Real.Sqrt

/-!
# Model of the Arnoldi IHVP (`dattri/func/hessian.py:561-743`)

The Hessian-vector product is a matrix `A`. Simplification: exact real arithmetic; non-finite values are `none`. `torch.linalg.eigh` is
not modelled: eigenvalues and eigenvectors are inputs and its contract is a hypothesis of the theorems that need it.
-/

namespace Verif.Hessian

open Matrix

variable {n : Nat}

abbrev V (n : Nat) := Fin n → ℝ

/-- `torch.norm`. -/
noncomputable def nrm (v : V n) : ℝ := Real.sqrt (v ⬝ᵥ v)

/-- The orthogonalisation loop (hessian.py:660-662): `appr_mat[j][n] = dot(h, p) / c**2; h -= appr_mat[j][n] * p`. Returns the
coefficients and the remaining vector. -/
noncomputable def gsLoop (c : ℝ) (proj : List (V n)) (h : V n) : List ℝ × V n :=
  proj.foldl (fun (s : List ℝ × V n) p => (s.1 ++ [(s.2 ⬝ᵥ p) / c ^ 2], s.2 - ((s.2 ⬝ᵥ p) / c ^ 2) • p)) ([], h)

/-- Result of `_arnoldi_iter`: the projection vectors, the columns of `appr_mat` (column `k` lists the entries of rows `0..k+1`, all
other entries are zero), and whether the loop ended through `break`. -/
structure Arn (n : Nat) where
  proj : List (V n)
  cols : List (List ℝ)
  broke : Bool

/-- The main loop of `_arnoldi_iter` (hessian.py:657-673) with `k` iterations left; `last` is `proj[n]`. A zero `new_norm` that is
not below `tol` makes the next vector non-finite. -/
noncomputable def arnLoop (A : Matrix (Fin n) (Fin n) ℝ) (c tol : ℝ) : Nat → List (V n) → List (List ℝ) → V n → Option (Arn n)
  | 0, proj, cols, _ => some ⟨proj, cols, false⟩
  | k + 1, proj, cols, last =>
    let r := gsLoop c proj (A *ᵥ last)
    if nrm r.2 < tol then some ⟨proj ++ [r.2], cols ++ [r.1 ++ [0]], true⟩
    else if nrm r.2 / c = 0 then none
    else
      let q := (1 / (nrm r.2 / c)) • r.2
      arnLoop A c tol k (proj ++ [q]) (cols ++ [r.1 ++ [nrm r.2 / c]]) q

/-- `_arnoldi_iter` (hessian.py:625-675). `torch.zeros((0, -1))` raises for `n_iters = 0`; a zero start vector or
`norm_constant = 0` give non-finite values. -/
noncomputable def arnoldi (A : Matrix (Fin n) (Fin n) ℝ) (start : V n) (nIters : Nat) (c tol : ℝ) : Except Err (Option (Arn n)) :=
  let m := min (n + 1) nIters
  if m = 0 then .error .runtimeError
  else if nrm start = 0 ∨ c = 0 then .ok none
  else
    let q := (1 / nrm start) • start
    .ok (arnLoop A c tol (m - 1) [q] [] q)

/-- Entry `(i, j)` of `appr_mat`. -/
def Arn.entry (a : Arn n) (i j : Nat) : ℝ := (a.cols.getD j []).getD i 0

/-- The symmetrised matrix of `_distill` (hessian.py:699-703): drop the last row, `tril(diagonal=1)`, average with the transpose. -/
noncomputable def Arn.sym (a : Arn n) (i j : Nat) : ℝ :=
  let low := fun i j => if j ≤ i + 1 then a.entry i j else 0
  (low i j + low j i) / 2

/-- The slice `[-top_k:]` of the eigenpairs sorted by absolute value (hessian.py:709-713); note that `[-0:]` is everything. -/
def lastK {α : Type} (topK : Nat) (l : List α) : List α := if topK = 0 then l else l.drop (l.length - topK)

/-- `_ihvp_at_x_arnoldi` after `eigh` (hessian.py:713, 741). `eigs` lists the eigenpairs (value, coefficient vector of length `m`) sorted
by absolute value. `reduced_projections = eigvecs[:, -top_k:].T @ proj[:-1]`. A zero eigenvalue gives a non-finite result. -/
noncomputable def arnoldiIhvp (a : Arn n) (topK : Nat) (eigs : List (ℝ × (Nat → ℝ))) (v : V n) : Option (V n) :=
  open Classical in
  let sel := lastK topK eigs
  if ∃ e ∈ sel, e.1 = 0 then none
  else some ((sel.map (fun e =>
    let E : V n := ((List.range a.cols.length).map (fun k => e.2 k • a.proj.getD k 0)).sum
    ((v ⬝ᵥ E) * 1.0 / e.1) • E)).sum)

end Verif.Hessian
