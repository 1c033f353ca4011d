import Verif.Projection.BasicModel

/-!
# Model of `CudaProjector` (`dattri/func/projection.py`)

Simplifications as in `BasicModel`. The `sjlt` package is modelled by its documented meaning with column sparsity 1: input coordinate `i`
is added with sign `sign i` to output coordinate `idx i`. The construction errors (non-CUDA device, missing package) are not modelled.
-/

namespace Verif.Projection

variable {d : ℕ}

/-- The random source of the CUDA projector, as functions of the seed given to `manual_seed`: the dense matrix, the permutation used by
`_mask`, the bucket/sign draws of a pure SJLT (input dimension `d`), and the bucket/sign draws of the SJLT stage of GraSS, which come
after the permutation from the same generator and depend on the input dimension of the stage. -/
structure CRng (d : ℕ) where
  dense : Kind → ℤ → Fin d → ℕ → ℝ
  perm : ℤ → List (Fin d)
  bucket : ℤ → ℕ → ℕ
  sign : ℤ → ℕ → ℝ
  gBucket : ℤ → ℕ → ℕ → ℕ
  gSign : ℤ → ℕ → ℕ → ℝ

/-- Constructor arguments (projection.py:392-401). -/
structure Cuda (d : ℕ) where
  projDim : ℕ
  seed : ℤ
  kind : Kind
  mult : ℤ := 4
  rng : CRng d

/-- An SJLT object: input dimension, bucket and sign of every input coordinate (projection.py:478-507). -/
structure SJ where
  inDim : ℕ
  bucket : ℕ → ℕ
  sign : ℕ → ℝ

/-- Mutable state: current ensemble (`-1` initially), the multiplier, and the lazily created components (projection.py:430-452). -/
structure CState (d : ℕ) where
  ens : ℤ
  mult : ℤ
  mat : Option (Fin d → ℕ → ℝ)
  mask : Option (List (Fin d))
  sj : Option SJ

/-- `__init__` (projection.py:425-452). -/
def Cuda.init (c : Cuda d) : CState d := ⟨-1, c.mult, none, none, none⟩

/-- The intermediate dimension of GraSS and the multiplier stored afterwards (projection.py:554-562). -/
def grassDims (d p : ℕ) (mult : ℤ) : ℤ × ℤ :=
  let inter := (p : ℤ) * mult
  if inter > d then ((d : ℤ), (d : ℤ) / (p : ℤ)) else (inter, mult)

/-- Python's `l[:k]` for an integer `k` of any sign. -/
def pyTake {α : Type*} (l : List α) (k : ℤ) : List α :=
  if 0 ≤ k then l.take k.toNat else l.take (l.length - (-k).toNat)

/-- `_generate_randomness` (projection.py:572-601) with `_gen_randomness_sjlt` (454-507), `_gen_randomness_mask` (509-530),
`_gen_randomness_dense` (532-550) and `_gen_randomness_grass` (552-570). A negative intermediate dimension makes
`torch.randint(.., (input_dim, 1))` raise `RuntimeError`, after multiplier and mask have been assigned. -/
def Cuda.generate (c : Cuda d) (st : CState d) (e : ℤ) : CState d × Except Err Unit :=
  let s := c.seed + 100000 * e
  match c.kind with
  | .sjlt => ({ st with sj := some ⟨d, c.rng.bucket s, c.rng.sign s⟩ }, .ok ())
  | .rademacher => ({ st with mat := some (c.rng.dense .rademacher s) }, .ok ())
  | .normal => ({ st with mat := some (c.rng.dense .normal s) }, .ok ())
  | .randomMask => ({ st with mask := some (maskOf (c.rng.perm s) c.projDim) }, .ok ())
  | .grass =>
    let dm := grassDims d c.projDim st.mult
    let st1 := { st with mult := dm.2, mask := some ((pyTake (c.rng.perm s) dm.1).mergeSort (· ≤ ·)) }
    if dm.1 < 0 then (st1, .error .runtimeError)
    else ({ st1 with sj := some ⟨dm.1.toNat, c.rng.gBucket s dm.1.toNat, c.rng.gSign s dm.1.toNat⟩ }, .ok ())
  | .identity => (st, .ok ())

/-- Applying an SJLT object to one row of length `inDim` (documented meaning of the `sjlt` package). -/
def SJ.apply (s : SJ) (p : ℕ) (x : List ℝ) : List ℝ :=
  (List.range p).map fun j => ((List.range x.length).map fun i => if s.bucket i = j then s.sign i * x.getD i 0 else 0).sum

/-- Result of `project`: projected rows, or the unprojected batch with a spurious extra dimension that `features[:, None]` produces. -/
inductive COut (d : ℕ)
  | rows (l : List (List ℝ))
  | unsqueezed (l : List (Fin d → ℝ))

/-- The projection proper (projection.py:625-645). Components that are still `None` give `TypeError`, except that indexing with `None`
inserts a dimension. -/
noncomputable def Cuda.apply (c : Cuda d) (st : CState d) (feats : List (Fin d → ℝ)) : Except Err (COut d) :=
  match c.kind with
  | .sjlt =>
    match st.sj with
    | none => .error .typeError
    | some s => .ok (.rows (feats.map fun x => s.apply c.projDim (List.ofFn x)))
  | .rademacher | .normal =>
    match st.mat with
    | none => .error .typeError
    | some M => .ok (.rows ((List.range feats.length).map fun i => (List.range c.projDim).map fun j =>
        matmul feats M i j / Real.sqrt c.projDim))
  | .randomMask =>
    match st.mask with
    | none => .ok (.unsqueezed feats)
    | some idx => .ok (.rows (feats.map fun x => idx.map x))
  | .grass =>
    match st.mask, st.sj with
    | some idx, some s => .ok (.rows (feats.map fun x => s.apply c.projDim (idx.map x)))
    | _, _ => .error .typeError
  | .identity => .ok (.rows (feats.map List.ofFn))

/-- `project` (projection.py:603-645): randomness is regenerated iff the ensemble id differs from the current one; an exception in
the generation leaves the current id unchanged. -/
noncomputable def Cuda.project (c : Cuda d) (st : CState d) (feats : List (Fin d → ℝ)) (e : ℤ) :
    CState d × Except Err (COut d) :=
  if e ≠ st.ens then
    match c.generate st e with
    | (st1, .error x) => (st1, .error x)
    | (st1, .ok ()) => ({ st1 with ens := e }, c.apply { st1 with ens := e } feats)
  else (st, c.apply st feats)

/-- State after a sequence of `project` calls (`free_memory` is a no-op, projection.py:646-647). -/
noncomputable def Cuda.run (c : Cuda d) (st : CState d) (h : List (List (Fin d → ℝ) × ℤ)) : CState d :=
  h.foldl (fun st call => (c.project st call.1 call.2).1) st

end Verif.Projection
