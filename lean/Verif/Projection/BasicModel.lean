import Mathlib.Analysis.Real.Sqrt
import Mathlib.Algebra.BigOperators.Group.Finset.Basic
import Mathlib.Data.Fintype.BigOperators
import Verif.Base.Tensor

/-!
# Model of `BasicProjector` (`dattri/func/projection.py`)

Simplifications: real arithmetic; a generator state is identified with the seed it was created from (`manual_seed(s)` followed by
`get_state`, later restored by `set_state`); what a freshly seeded generator produces is an arbitrary function of the seed. A batch of
features is a list of rows of the right length (the dict/device/dtype conversion of `_preprocess_features` is not modelled).
-/

namespace Verif.Projection

/-- `ProjectionType` (projection.py:135-143). -/
inductive Kind
  | identity
  | rademacher
  | normal
  | randomMask
  | sjlt
  | grass
  deriving DecidableEq, Repr

/-- The random source: `dense k s` is the matrix that `normal_` / `_rademacher` fills in from a generator in state `s`
(projection.py:38-56, 323-326); `perm s` is the permutation `torch.randperm(feature_dim)` drawn from state `s` (projection.py:76-80). -/
structure Rng (d : ℕ) where
  dense : Kind → ℤ → Fin d → ℕ → ℝ
  perm : ℤ → List (Fin d)

/-- `_mask`: the first `out` entries of the permutation, sorted (projection.py:59-81). -/
def maskOf {d : ℕ} (perm : List (Fin d)) (out : ℕ) : List (Fin d) := (perm.take out).mergeSort (· ≤ ·)

/-- Constructor arguments of `BasicProjector` (projection.py:213-223). -/
structure Basic (d : ℕ) where
  projDim : ℕ
  seed : ℤ
  kind : Kind
  block : ℕ := 100
  ens0 : ℤ := 0
  rng : Rng d

variable {d : ℕ}

/-- `self.block_size = min(proj_dim, block_size)` (projection.py:245). -/
def Basic.blockSize (c : Basic d) : ℕ := min c.projDim c.block

/-- `self.num_blocks = ceil(proj_dim / block_size)` (projection.py:246). -/
def Basic.numBlocks (c : Basic d) : ℕ := numBatches c.blockSize c.projDim

/-- Mutable state of the projector: current ensemble, generator states per block, the matrix attribute (`none`: attribute absent), the
`proj_matrix_available` flag (`none`: attribute absent) and the mask (projection.py:245-267). -/
structure BState (d : ℕ) where
  ens : ℤ
  states : List ℤ
  mat : Option (Fin d → ℕ → ℝ)
  avail : Option Bool
  mask : Option (List (Fin d))

/-- Seed of block `i` in ensemble `e` (projection.py:282). -/
def blockSeed (seed : ℤ) (i : ℕ) (e : ℤ) : ℤ := seed + 1000 * i + 100000 * e

/-- `get_generator_states` (projection.py:275-285). -/
def Basic.genStates (c : Basic d) (st : BState d) : BState d :=
  { st with states := (List.range c.numBlocks).map (fun i => blockSeed c.seed i st.ens) }

/-- `_gen_randomness_mask` (projection.py:287-300). -/
def Basic.genMask (c : Basic d) (st : BState d) (s : ℤ) : BState d :=
  { st with mask := some (maskOf (c.rng.perm s) c.projDim) }

/-- `_gen_randomness_dense` (projection.py:302-329): reads `proj_matrix_available` (absent for non-dense types), allocates the matrix
if it was freed, and fills it. -/
def Basic.genDense (c : Basic d) (st : BState d) (s : ℤ) : Except Err (BState d) :=
  match st.avail with
  | none => .error .attributeError
  | some _ =>
    if c.kind = .normal ∨ c.kind = .rademacher then
      .ok { st with mat := some (c.rng.dense c.kind s), avail := some true }
    else .error .keyError

/-- `generator_states[0]`. -/
def firstState (st : BState d) : Except Err ℤ :=
  match st.states with
  | [] => .error .indexError
  | s :: _ => .ok s

/-- `__init__` (projection.py:213-267). `ceil(0 / 0)` raises `ZeroDivisionError`. The matrix that `torch.empty` allocates is
overwritten before it is used. -/
def Basic.init (c : Basic d) : Except Err (BState d) :=
  if c.blockSize = 0 then .error .zeroDivisionError
  else
    let dense := c.kind = .normal ∨ c.kind = .rademacher
    let st0 : BState d := ⟨c.ens0, [], if dense then some (fun _ _ => 0) else none, if dense then some true else none, none⟩
    let st1 := c.genStates st0
    if c.kind = .randomMask then do
      let s ← firstState st1
      pure (c.genMask st1 s)
    else if c.kind = .identity then .ok st1
    else do
      let s ← firstState st1
      c.genDense st1 s

/-- `free_memory` (projection.py:269-273). -/
def freeMemory (st : BState d) : BState d :=
  match st.mat with
  | some _ => { st with mat := none, avail := some false }
  | none => st

/-- `features @ M`: entry of row `i`, column `j`. -/
def matmul (feats : List (Fin d → ℝ)) (M : Fin d → ℕ → ℝ) (i j : ℕ) : ℝ :=
  match feats[i]? with
  | some x => ∑ a, x a * M a j
  | none => 0

/-- The ensemble switch at the start of `project` (projection.py:344-352). An exception leaves the already updated fields. -/
def Basic.switch (c : Basic d) (st : BState d) (e : ℤ) : BState d × Except Err Unit :=
  if e ≠ st.ens then
    let st1 := c.genStates { st with ens := e }
    if c.kind = .randomMask then
      match firstState st1 with
      | .ok s => (c.genMask st1 s, .ok ())
      | .error x => (st1, .error x)
    else if c.kind = .identity then (st1, .ok ())
    else if c.numBlocks = 1 then
      match (do let s ← firstState st1; c.genDense st1 s) with
      | .ok st2 => (st2, .ok ())
      | .error x => (st1, .error x)
    else (st1, .ok ())
  else (st, .ok ())

/-- The block loop (projection.py:369-377): regenerate the matrix for the block, write columns `st:ed` of the sketch. -/
def Basic.blockLoop (c : Basic d) (feats : List (Fin d → ℝ)) (st : BState d) : Except Err (BState d × (ℕ → ℕ → ℝ)) :=
  (List.range c.numBlocks).foldlM (fun s ind =>
    match s.1.states[ind]? with
    | none => .error .indexError
    | some g => do
      let st' ← c.genDense s.1 g
      match st'.mat with
      | none => .error .attributeError
      | some M =>
        let lo := ind * c.blockSize
        let hi := min ((ind + 1) * c.blockSize) c.projDim
        pure (st', fun i j => if lo ≤ j ∧ j < hi then matmul feats M i (j - lo) else s.2 i j)) (st, fun _ _ => 0)

/-- `sketch /= proj_dim**0.5` and the returned rows (projection.py:378-382). -/
noncomputable def Basic.finish (c : Basic d) (feats : List (Fin d → ℝ)) (sk : ℕ → ℕ → ℝ) : List (List ℝ) :=
  (List.range feats.length).map fun i => (List.range c.projDim).map fun j => sk i j / Real.sqrt c.projDim

/-- `project` (projection.py:331-382): new state and result. -/
noncomputable def Basic.project (c : Basic d) (st : BState d) (feats : List (Fin d → ℝ)) (e : ℤ) :
    BState d × Except Err (List (List ℝ)) :=
  match c.switch st e with
  | (st1, .error x) => (st1, .error x)
  | (st1, .ok ()) =>
    if c.kind = .randomMask then
      match st1.mask with
      | none => (st1, .error .attributeError)
      | some idx => (st1, .ok (feats.map fun x => idx.map x))
    else if c.kind = .identity then (st1, .ok (feats.map List.ofFn))
    else if c.numBlocks = 1 then
      match st1.mat with
      | none => (st1, .error .attributeError)
      | some M => (st1, .ok (c.finish feats (matmul feats M)))
    else
      match c.blockLoop feats st1 with
      | .ok (st2, sk) => (st2, .ok (c.finish feats sk))
      | .error x => (st1, .error x)

/-- User operations on a projector. -/
inductive BOp (d : ℕ)
  | project (feats : List (Fin d → ℝ)) (e : ℤ)
  | free

/-- State after one operation (a raised exception is caught by the user). -/
noncomputable def Basic.step (c : Basic d) (st : BState d) : BOp d → BState d
  | .project f e => (c.project st f e).1
  | .free => freeMemory st

/-- State after a history of operations. -/
noncomputable def Basic.run (c : Basic d) (st : BState d) (h : List (BOp d)) : BState d := h.foldl c.step st

end Verif.Projection
