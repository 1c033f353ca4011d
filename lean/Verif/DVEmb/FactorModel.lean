import Mathlib.LinearAlgebra.Matrix.Kronecker
import Mathlib.Algebra.Field.Basic
import Verif.Base.Tensor

/-!
# Factorised gradients of linear layers

`/repo/dattri/algorithm/dvemb.py` lines 157-190 and 506-642, and
`/repo/dattri/algorithm/block_projected_if/core/compressor.py` lines 58-88, 110-119, 140-210 with
`core/hook.py` lines 159-206.

One sample at a time: the layer input `a` and the gradient `b` of the loss in the layer output are
vectors (two-dimensional activations) or one vector per sequence position (three-dimensional
activations).  A random projector is the matrix it applies to each row; flattening a matrix is kept
implicit by indexing the flat vector with pairs (row-major order).  Floats are exact field elements.
-/

namespace Verif.DVEmb

open Matrix

variable {K : Type} [Field K] {din dout k : ℕ}

/-- The factors of one sample for one layer: `two a b` for `(B, D)` activations, `three l` for
`(B, L, D)` activations, one pair per position. -/
inductive Factors (K : Type) (din dout : ℕ) where
  | two (a : Fin din → K) (b : Fin dout → K)
  | three (l : List ((Fin din → K) × (Fin dout → K)))

/-- The weight part of `_reconstruct_gradients` (dvemb.py:526-537). -/
def gradW : Factors K din dout → Matrix (Fin dout) (Fin din) K
  | .two a b => fun o i => b o * a i
  | .three l => fun o i => (l.map fun p => p.1 i * p.2 o).sum

/-- The bias part of `_reconstruct_gradients` (dvemb.py:530, 535). -/
def gradB : Factors K din dout → Fin dout → K
  | .two _ b => b
  | .three l => (l.map Prod.snd).sum

/-- `_project_gradients_factors_kronecker` for one layer (dvemb.py:543-592).  The two- and the
three-dimensional branches order the two factors differently. -/
def kronecker (Pa : Matrix (Fin k) (Fin din) K) (Pb : Matrix (Fin k) (Fin dout) K) :
    Factors K din dout → Fin k × Fin k → K
  | .two a b => fun p => (Pb *ᵥ b) p.1 * (Pa *ᵥ a) p.2
  | .three l => fun p => (l.map fun q => (Pa *ᵥ q.1) p.1 * (Pb *ᵥ q.2) p.2).sum

/-- `_project_gradients_factors_elementwise` for one layer (dvemb.py:594-642); `c` is
`math.sqrt(projection_dim_per_layer)`. -/
def elementwise (c : K) (Pa : Matrix (Fin k) (Fin din) K) (Pb : Matrix (Fin k) (Fin dout) K) :
    Factors K din dout → Fin k → K
  | .two a b => fun r => (Pa *ᵥ a) r * (Pb *ᵥ b) r * c
  | .three l => fun r => (l.map fun q => (Pa *ᵥ q.1) r * (Pb *ᵥ q.2) r).sum * c

/-- The projection types (params/projection.py:27-34). -/
inductive PType where
  | identity | normal | rademacher | sjlt | randomMask | grass
  deriving DecidableEq

/-- `_setup_projectors` for one layer (dvemb.py:157-190): the input and the output projector get
the same seed, and the requested `proj_type` is not passed on, so `RandomProjectionParams` falls
back to its default `"normal"` (params/projection.py:166-173).  `gen` is the random generator:
type, seed, input dimension, output dimension. -/
def setupProjectors (gen : PType → ℕ → (d k : ℕ) → Matrix (Fin k) (Fin d) K)
    (_ptype : PType) (seed k din dout : ℕ) :
    Matrix (Fin k) (Fin din) K × Matrix (Fin k) (Fin dout) K :=
  (gen .normal seed din k, gen .normal seed dout k)

/-- `_compute_compressed_grad` appends a one to the input of a layer with bias
(hook.py:183-203). -/
def withOne (a : Fin din → K) : Fin (din + 1) → K := Fin.snoc a 1

/-- `Compressor.forward` on one sample of a batch of size `B` (compressor.py:140-210): sparsify
both factors, outer product scaled by the batch size and summed over positions, then project.
Here `v1` is the output gradient and `v2` the layer input. -/
def compress {k1 k2 m : ℕ} (P1 : Matrix (Fin k1) (Fin dout) K) (P2 : Matrix (Fin k2) (Fin din) K)
    (R : Matrix (Fin m) (Fin k1 × Fin k2) K) (B : ℕ) : Factors K din dout → Fin m → K
  | .two a b => R *ᵥ fun p => (P1 *ᵥ b) p.1 * (B : K) * (P2 *ᵥ a) p.2
  | .three l => R *ᵥ fun p => (l.map fun q => (P1 *ᵥ q.2) p.1 * (B : K) * (P2 *ᵥ q.1) p.2).sum

end Verif.DVEmb
