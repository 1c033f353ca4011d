import Verif.TRAK.Model
import Verif.TracIn.ProjModel

/-!
# Model of `TRAKAttributor` with the random projection inside (`dattri/algorithm/trak.py`, `dattri/params/projection.py`)

`Verif/TRAK/Model` starts from projected gradients. Here the projection is part of the model: as in `TracInAttributor`, a projector is built anew for every batch
and applied with the number of the checkpoint as ensemble id. Real arithmetic; the gradient functions return finite gradients (`nan_to_num` is the identity
on them).
-/

namespace Verif.TRAK

open Verif.Projection

variable {X C : Type} {D : ℕ}

/-- An attributor (trak.py:30-103): gradients of the loss and of the target per checkpoint, before scaling and projection, the correct probability, the checkpoints,
the regulariser, the number of trainable parameters, the projection parameters and the device. `TRAKProjectionParams` (params/projection.py:102-116) has the
fields and the defaults of `TracInProjectionParams`. -/
structure PTrak (X C : Type) (D : ℕ) where
  gLoss : C → X → Fin D → ℝ
  gTarget : C → X → Fin D → ℝ
  prob : C → X → ℝ
  ckpts : List C
  reg : ℝ := 0
  numParams : ℕ
  projParams : Option TracIn.ProjParams := none
  dev : Dev := .cpu

/-- What the projection reads of the attributor: `proj_params or TRAKProjectionParams()` and the device (trak.py:92, 94, 168-176). The calls are those of
`TracInAttributor`. -/
def PTrak.projector (A : PTrak X C D) : TracIn.PAttributor X C D := ⟨A.gLoss, A.gTarget, A.ckpts, [], false, A.projParams, A.dev⟩

/-- The number of columns of projected gradients: all of them for the identity, the picked ones for a mask, otherwise `proj_dim` (func/projection.py:283-369). -/
def PTrak.width (A : PTrak X C D) : ℕ :=
  match A.projector.params.ptype with
  | .identity => D
  | .randomMask => min A.projector.params.projDim D
  | _ => A.projector.params.projDim

/-- `grad_t /= self.norm_scaler`, the square root of the number of trainable parameters (trak.py:84-91, 166, 298, 355, 486). -/
noncomputable def PTrak.scaled (A : PTrak X C D) (g : Fin D → ℝ) : Fin D → ℝ := fun a => g a / Real.sqrt A.numParams

/-- The projected gradients of all batches, concatenated (trak.py:142-193, 271-327, 331-370, 441-497): `TypeError` on an unsupported batch, what the projection
raises, and `RuntimeError` from `torch.cat([])` on an empty loader. Rows become vectors with `width` entries. -/
noncomputable def catProj (pyInt : List Char → Option ℤ) (env : Env) (A : PTrak X C D) (k : ℕ) (l : Loader X) (g : X → Fin D → ℝ) :
    Except Err (List (Fin A.width → ℝ)) := do
  let rows ← (List.range l.nb).foldlM (fun acc b =>
    if !l.supported then .error .typeError
    else do
      let us ← TracIn.projected pyInt env A.projector k ((l.batch b).map fun x => A.scaled (g x))
      pure (acc ++ [us.map (toVec A.width)])) ([] : List (List (Fin A.width → ℝ)))
  if rows.length = 0 then .error .runtimeError else pure rows.flatten

/-- Train part of checkpoint number `k` (trak.py:140-193, 270-327, 440-497). -/
noncomputable def trainPartP (pyInt : List Char → Option ℤ) (env : Env) (A : PTrak X C D) (c : C) (k : ℕ) (tr : Loader X) :
    Except Err (List (Fin A.width → ℝ) × List ℝ) := do
  let Φ ← catProj pyInt env A k tr (A.gLoss c)
  let q ← catRows tr (fun x => 1 - A.prob c x)
  pure (Φ, q)

/-- `cache` (trak.py:105-202). -/
noncomputable def cacheP (pyInt : List Char → Option ℤ) (env : Env) (A : PTrak X C D) (full : Loader X) : Except Err (State ℝ X A.width) := do
  let s ← A.ckpts.zipIdx.foldlM (fun (s : List (List (Fin A.width → ℝ)) × Option (List ℝ)) ci => do
    let (Φ, q) ← trainPartP pyInt env A ci.1 ci.2 full
    let inv ← solveT A.reg Φ
    pure (s.1 ++ [inv], some (runQ s.2 ci.2 q))) ([], none)
  pure ⟨some full, s.1, s.2⟩

/-- One iteration of the checkpoint loop of `attribute` (trak.py:251-390). -/
noncomputable def attrStepP (pyInt : List Char → Option ℤ) (env : Env) (A : PTrak X C D) (st : State ℝ X A.width) (tr : Option (Loader X)) (te : Loader X)
    (s : Option (Mat ℝ) × Option (List ℝ)) (ci : C × ℕ) : Except Err (Option (Mat ℝ) × Option (List ℝ)) :=
  match tr with
  | some tr => do
    let (Φ, q) ← trainPartP pyInt env A ci.1 ci.2 tr
    let Ψ ← catProj pyInt env A ci.2 te (A.gTarget ci.1)
    let inv ← solveT A.reg Φ
    pure (some (runMat s.1 ci.2 (prod Ψ inv)), some (runQ s.2 ci.2 q))
  | none => do
    let Ψ ← catProj pyInt env A ci.2 te (A.gTarget ci.1)
    match st.inv[ci.2]? with
    | none => .error .indexError
    | some inv => pure (some (runMat s.1 ci.2 (prod Ψ inv)), s.2)

/-- `attribute` (trak.py:204-393). -/
noncomputable def attributeP (pyInt : List Char → Option ℤ) (env : Env) (A : PTrak X C D) (st : State ℝ X A.width) (te : Loader X) (tr : Option (Loader X)) :
    Except Err (Mat ℝ) :=
  if tr.isSome && st.full.isSome then .error .valueError
  else if tr.isNone && st.full.isNone then .error .valueError
  else do
    let s ← A.ckpts.zipIdx.foldlM (attrStepP pyInt env A st tr te) (none, none)
    if tr.isSome then finish s.1 s.2 else finish s.1 st.Q

/-- One iteration of the checkpoint loop of `self_attribute` (trak.py:439-545). -/
noncomputable def selfStepP (pyInt : List Char → Option ℤ) (env : Env) (A : PTrak X C D) (tr : Loader X)
    (s : Option (Mat ℝ) × Option (List ℝ)) (ci : C × ℕ) : Except Err (Option (Mat ℝ) × Option (List ℝ)) := do
  let (Φ, q) ← trainPartP pyInt env A ci.1 ci.2 tr
  let inv ← solveT A.reg Φ
  let diag : Mat ℝ := ⟨1, Φ.length, fun _ i => match Φ[i]?, inv[i]? with | some φ, some v => φ ⬝ᵥ v | _, _ => 0⟩
  pure (some (runMat s.1 ci.2 diag), some (runQ s.2 ci.2 q))

/-- `self_attribute` (trak.py:395-548). -/
noncomputable def selfAttributeP (pyInt : List Char → Option ℤ) (env : Env) (A : PTrak X C D) (st : State ℝ X A.width) (tr : Option (Loader X)) :
    Except Err (Mat ℝ) :=
  match tr with
  | none => .error .attributeError
  | some tr =>
    if st.full.isSome then .error .valueError
    else do
      let s ← A.ckpts.zipIdx.foldlM (selfStepP pyInt env A tr) (none, none)
      finish s.1 s.2

end Verif.TRAK
