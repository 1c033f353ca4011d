import Mathlib.Data.Fintype.BigOperators
import Mathlib.Algebra.BigOperators.Fin
import Verif.Base.Tensor

/-!
# Relative attention: model

The part of `multi_head_attention_forward_rpr` of `dattri/benchmark/models/MusicTransformer/rpr.py` that computes the
attention logits, for one head (the head is the batch dimension of every operation).
-/

namespace Verif.Skew

/-- A two-dimensional tensor; entries outside the shape are not used. -/
structure Grid (K : Type) where
  rows : ℕ
  cols : ℕ
  at' : ℕ → ℕ → K

variable {K : Type} [CommRing K]

/-- `_get_valid_embedding` (rpr.py:409-422): the last `len_q` rows of the embedding, or all if there are fewer. -/
def validEmbedding (Er : Grid K) (lenQ : ℕ) : Grid K :=
  let start := Er.rows - lenQ
  ⟨Er.rows - start, Er.cols, fun m c => Er.at' (start + m) c⟩

/-- `mask` (rpr.py:436): the upper triangle of ones, its rows reversed. -/
def mask (sz : ℕ) : Grid K :=
  ⟨sz, sz, fun i j => if sz - 1 - i ≤ j then 1 else 0⟩

/-- Elementwise product of two tensors with the same number of rows, with broadcasting of the columns. -/
def mulBroadcast (a b : Grid K) : Except Err (Grid K) :=
  if a.cols = b.cols then .ok ⟨a.rows, a.cols, fun i j => a.at' i j * b.at' i j⟩
  else if a.cols = 1 then .ok ⟨a.rows, b.cols, fun i j => a.at' i 0 * b.at' i j⟩
  else if b.cols = 1 then .ok ⟨a.rows, a.cols, fun i j => a.at' i j * b.at' i 0⟩
  else .error .runtimeError

/-- `F.pad(qe, (1,0, 0,0, 0,0))` (rpr.py:439): a column of zeros on the left. -/
def padLeft (a : Grid K) : Grid K :=
  ⟨a.rows, a.cols + 1, fun i j => if j = 0 then 0 else a.at' i (j - 1)⟩

/-- `torch.reshape` of a `rows × cols` tensor to `cols × rows` (rpr.py:440), in row-major order. -/
def reshapeSwap (a : Grid K) : Grid K :=
  ⟨a.cols, a.rows, fun r c => a.at' ((r * a.rows + c) / a.cols) ((r * a.rows + c) % a.cols)⟩

/-- `qe[:, 1:, :]` (rpr.py:442). -/
def dropRow (a : Grid K) : Grid K := ⟨a.rows - 1, a.cols, fun i j => a.at' (i + 1) j⟩

/-- `_skew` (rpr.py:424-443). -/
def skew (qe : Grid K) : Except Err (Grid K) := do
  let m ← mulBroadcast (mask qe.rows) qe
  return dropRow (reshapeSwap (padLeft m))

/-- `a += b`, with broadcasting of `b` only. -/
def addInPlace (a b : Grid K) : Except Err (Grid K) :=
  if (b.rows = a.rows ∨ b.rows = 1) ∧ (b.cols = a.cols ∨ b.cols = 1) then
    .ok ⟨a.rows, a.cols, fun i j =>
      a.at' i j + b.at' (if b.rows = a.rows then i else 0) (if b.cols = a.cols then j else 0)⟩
  else .error .runtimeError

/-- `a @ b.T` of two tensors with the same number of columns (`torch.bmm(q, k.transpose(1, 2))`, rpr.py:369, and the
`einsum`, rpr.py:375). -/
def dot (a b : Grid K) : Grid K :=
  ⟨a.rows, b.rows, fun i j => ∑ c ∈ Finset.range a.cols, a.at' i c * b.at' j c⟩

/-- The attention logits before masking (rpr.py:369-378). -/
def logits (q k Er : Grid K) : Except Err (Grid K) := do
  let srel ← skew (dot q (validEmbedding Er q.rows))
  addInPlace (dot q k) srel

end Verif.Skew
