import Verif.Projection.RandomModel

/-!
# Model of the random projection inside `TracInAttributor` (`dattri/algorithm/tracin.py`, `dattri/params/projection.py`)

The gradients of a batch are projected by a function that `random_project` builds anew for every batch; the model follows that code, with the projector
of `Verif/Projection/RandomModel`. Real arithmetic; the gradient functions return finite gradients (`nan_to_num` is the identity on them).
-/

namespace Verif.TracIn

open Verif.Projection

variable {X C : Type} {D : ℕ}

/-- `TracInProjectionParams` (params/projection.py:24-35, 85-99) with its defaults. `proj_dim` is an `int`: `None` is refused by pydantic (not modelled, nor are
negative numbers); `proj_type` is one of six literals. -/
structure ProjParams where
  projDim : ℕ := 512
  maxBatch : ℕ := 32
  seed : ℤ := 0
  ptype : Kind := .normal

/-- The six literals (params/projection.py:28-35). -/
def kindName : Kind → List Char
  | .identity => "identity".toList
  | .normal => "normal".toList
  | .rademacher => "rademacher".toList
  | .sjlt => "sjlt".toList
  | .randomMask => "random_mask".toList
  | .grass => "grass".toList

/-- An attributor (tracin.py:27-64): gradients of the loss and of the target per checkpoint, before any projection. -/
structure PAttributor (X C : Type) (D : ℕ) where
  gLoss : C → X → Fin D → ℝ
  gTarget : C → X → Fin D → ℝ
  ckpts : List C
  weights : List ℝ
  normalized : Bool
  projParams : Option ProjParams
  dev : Dev

/-- `self.proj_params = proj_params or TracInProjectionParams()` (tracin.py:57). -/
def PAttributor.params (A : PAttributor X C D) : ProjParams := A.projParams.getD {}

/-- `RandomProjectionParams(feature_batch_size=.., device=.., **self.proj_params.model_dump())` (tracin.py:165-169, 214-218, 352-356). -/
def PAttributor.randParams (A : PAttributor X C D) (b : ℕ) : RandParams :=
  ⟨b, A.params.projDim, A.params.maxBatch, A.params.seed, A.dev, .str (kindName A.params.ptype)⟩

/-- The projected gradients of one batch at checkpoint number `c` (tracin.py:153-177, 203-226, 340-365). `proj_dim` is an integer, so the branch without
projection is never taken. A construction that does not end (CUDA, see `RandomModel`) is an error here. -/
noncomputable def projected (pyInt : List Char → Option ℤ) (env : Env) (A : PAttributor X C D) (c : ℕ) (grads : List (Fin D → ℝ)) :
    Except Err (List (List ℝ)) :=
  match randomProject pyInt env (A.randParams grads.length) (.tensor D (grads.map List.ofFn)) with
  | none => .error .runtimeError
  | some (.error x) => .error x
  | some (.ok P) => (P.call (fun _ _ => 0) (.tensor D (grads.map List.ofFn)) c).2

/-- `torch.nn.functional.normalize` of a row. -/
noncomputable def normRow (u : List ℝ) : List ℝ := u.map (· / max (Real.sqrt (u.map (· ^ 2)).sum) 1e-12)

/-- The inner product of two rows. -/
noncomputable def dotRow (u v : List ℝ) : ℝ := (List.zipWith (· * ·) u v).sum

/-- The block of one pair of projected batches (tracin.py:241-256). -/
noncomputable def projBlock (normalized : Bool) (w : ℝ) (us vs : List (List ℝ)) : Mat ℝ :=
  ⟨us.length, vs.length, fun i j => match us[i]?, vs[j]? with
    | some u, some v => if normalized then dotRow (normRow u) (normRow v) * w else dotRow u v * w
    | _, _ => 0⟩

/-- The loops over the batches at checkpoint number `c` (tracin.py:131-256). -/
noncomputable def projPairLoop (pyInt : List Char → Option ℤ) (env : Env) (A : PAttributor X C D) (tr te : Loader X) (c : ℕ) (k : C) (w : ℝ) (M : Mat ℝ) :
    Except Err (Mat ℝ) :=
  (List.range tr.nb).foldlM (fun M b =>
    if !tr.supported then .error .typeError
    else do
      let us ← projected pyInt env A c ((tr.batch b).map (A.gLoss k))
      (List.range te.nb).foldlM (fun M t =>
        if !te.supported then .error .typeError
        else do
          let vs ← projected pyInt env A c ((te.batch t).map (A.gTarget k))
          liftO (M.addBlock (b * tr.bs) (min ((b + 1) * tr.bs) tr.data.length)
            (t * te.bs) (min ((t + 1) * te.bs) te.data.length) (projBlock A.normalized w us vs))) M) M

/-- `attribute` (tracin.py:69-258). -/
noncomputable def attributeP (pyInt : List Char → Option ℤ) (env : Env) (A : PAttributor X C D) (tr te : Loader X) : Except Err (Mat ℝ) :=
  if A.ckpts.length ≠ A.weights.length then .error .valueError
  else (A.ckpts.zipIdx.zip A.weights).foldlM (fun M x => projPairLoop pyInt env A tr te x.1.2 x.1.1 x.2 M)
    (Mat.zeros tr.data.length te.data.length)

/-- The slice of one projected batch (tracin.py:366-382). -/
noncomputable def projSelf (normalized : Bool) (w : ℝ) (us : List (List ℝ)) : Vec ℝ :=
  ⟨us.length, fun i => match us[i]? with
    | some u => if normalized then 1 * w else dotRow u u * w
    | none => 0⟩

/-- The loop of `self_attribute` at checkpoint number `c` (tracin.py:318-382). -/
noncomputable def projSliceLoop (pyInt : List Char → Option ℤ) (env : Env) (A : PAttributor X C D) (tr : Loader X) (c : ℕ) (k : C) (w : ℝ) (v : Vec ℝ) :
    Except Err (Vec ℝ) :=
  (List.range tr.nb).foldlM (fun v b =>
    if !tr.supported then .error .typeError
    else do
      let us ← projected pyInt env A c ((tr.batch b).map (A.gLoss k))
      liftO (v.addSlice (b * tr.bs) (min ((b + 1) * tr.bs) tr.data.length) (projSelf A.normalized w us))) v

/-- `self_attribute` (tracin.py:260-384). -/
noncomputable def selfAttributeP (pyInt : List Char → Option ℤ) (env : Env) (A : PAttributor X C D) (tr : Loader X) : Except Err (Vec ℝ) :=
  if A.ckpts.length ≠ A.weights.length then .error .valueError
  else (A.ckpts.zipIdx.zip A.weights).foldlM (fun v x => projSliceLoop pyInt env A tr x.1.2 x.1.1 x.2 v) ⟨tr.data.length, fun _ => 0⟩

end Verif.TracIn
