import Verif.Base.Tensor
import Verif.Attr.IFModel

/-!
# Model of `TRAKAttributor` (`dattri/algorithm/trak.py`)

Simplifications: exact field arithmetic; `phiLoss c x` / `phiTarget c x` are the projected, `nan_to_num`-ed and scaled gradients of
one sample at checkpoint `c`; the projection is assumed not to depend on the batch it is applied to; the correct-probability
function returns one number per sample.
-/

namespace Verif.TRAK

open Matrix

variable {R X C : Type} {d : Nat}

/-- Configuration of an attributor (trak.py:30-103). -/
structure Attributor (R X C : Type) (d : Nat) where
  phiLoss : C → X → Fin d → R
  phiTarget : C → X → Fin d → R
  prob : C → X → R
  ckpts : List C
  reg : R

/-- Mutable state: the cached loader, the per-checkpoint matrices `(ΦᵀΦ+λI)⁻¹Φᵀ` (stored column by column) and the averaged `Q`
(`none` is the Python integer `0` the running average starts from) (trak.py:102, 201-202). -/
structure State (R X : Type) (d : Nat) where
  full : Option (Loader X)
  inv : List (List (Fin d → R))
  Q : Option (List R)

/-- A fresh attributor: nothing cached. -/
def fresh : State R X d := ⟨none, [], none⟩

/-- Collect per-sample rows over all batches and `torch.cat` them (trak.py:141-193, 269-329, 331-370): `TypeError` on an
unsupported batch, `RuntimeError` from `torch.cat([])` on an empty loader. -/
def catRows {α : Type} (l : Loader X) (f : X → α) : Except Err (List α) := do
  let rows ← (List.range l.nb).foldlM (fun acc b =>
    if !l.supported then .error .typeError else .ok (acc ++ [(l.batch b).map f])) ([] : List (List α))
  if rows.length = 0 then .error .runtimeError else pure rows.flatten

/-- `kernel_matrix = Φ.T @ Φ; kernel_matrix.diagonal().add_(reg)` (trak.py:194-195, 372-373). -/
def kernel [Field R] (reg : R) (Φ : List (Fin d → R)) : Matrix (Fin d) (Fin d) R :=
  fun a b => (Φ.map (fun φ => φ a * φ b)).sum + if a = b then reg else 0

/-- `torch.linalg.solve(kernel_matrix, Φ.T)`, column by column (trak.py:196, 377). -/
noncomputable def solveT [Field R] (reg : R) (Φ : List (Fin d → R)) : Except Err (List (Fin d → R)) :=
  open Classical in
  if (kernel reg Φ).det = 0 then .error .runtimeError else .ok (Φ.map ((kernel reg Φ)⁻¹ *ᵥ ·))

/-- `test_projected_grad @ inv_XTX_XT` (trak.py:376-377, 382). -/
def prod [Field R] (Ψ inv : List (Fin d → R)) : Mat R :=
  ⟨Ψ.length, inv.length, fun j i => match Ψ[j]?, inv[i]? with | some ψ, some v => ψ ⬝ᵥ v | _, _ => 0⟩

/-- `running = (running * count + A) / (count + 1)` where `running` starts as the integer `0` (trak.py:374-390); the shapes of all
terms agree. -/
def runMat [Field R] (acc : Option (Mat R)) (k : Nat) (A : Mat R) : Mat R :=
  ⟨A.r, A.c, fun i j => ((match acc with | some M => M.f i j | none => 0) * k + A.f i j) / ((k + 1 : Nat) : R)⟩

/-- The same for the vector `Q` (trak.py:198-200, 385-389). -/
def runQ [Field R] (acc : Option (List R)) (k : Nat) (q : List R) : List R :=
  q.mapIdx (fun i x => ((match acc with | some l => (l[i]?).getD 0 | none => 0) * k + x) / ((k + 1 : Nat) : R))

/-- Train part of one checkpoint: features and `Q = 1 - p` (trak.py:141-193, 270-329). -/
def trainPart [Field R] (A : Attributor R X C d) (c : C) (tr : Loader X) : Except Err (List (Fin d → R) × List R) := do
  let Φ ← catRows tr (A.phiLoss c)
  let q ← catRows tr (fun x => 1 - A.prob c x)
  pure (Φ, q)

/-- `cache` (trak.py:105-202). -/
noncomputable def cache [Field R] (A : Attributor R X C d) (_st : State R X d) (full : Loader X) : Except Err (State R X d) := do
  let s ← A.ckpts.zipIdx.foldlM (fun (s : List (List (Fin d → R)) × Option (List R)) ci => do
    let (Φ, q) ← trainPart A ci.1 full
    let inv ← solveT A.reg Φ
    pure (s.1 ++ [inv], some (runQ s.2 ci.2 q))) ([], none)
  pure ⟨some full, s.1, s.2⟩

/-- One iteration of the checkpoint loop of `attribute` (trak.py:251-390). -/
noncomputable def attrStep [Field R] (A : Attributor R X C d) (st : State R X d) (tr : Option (Loader X)) (te : Loader X)
    (s : Option (Mat R) × Option (List R)) (ci : C × Nat) : Except Err (Option (Mat R) × Option (List R)) :=
  match tr with
  | some tr => do
    let (Φ, q) ← trainPart A ci.1 tr
    let Ψ ← catRows te (A.phiTarget ci.1)
    let inv ← solveT A.reg Φ
    pure (some (runMat s.1 ci.2 (prod Ψ inv)), some (runQ s.2 ci.2 q))
  | none => do
    let Ψ ← catRows te (A.phiTarget ci.1)
    match st.inv[ci.2]? with
    | none => .error .indexError
    | some inv => pure (some (runMat s.1 ci.2 (prod Ψ inv)), s.2)

/-- `(running * Q.unsqueeze(0)).T`; without checkpoints `Q` is still an integer and `.to` raises `AttributeError`
(trak.py:391-393). -/
def finish [Field R] (s : Option (Mat R)) (Q : Option (List R)) : Except Err (Mat R) :=
  match s, Q with
  | some M, some q => .ok ⟨M.c, M.r, fun i j => M.f j i * (q[i]?).getD 0⟩
  | _, _ => .error .attributeError

/-- `attribute` (trak.py:204-393). -/
noncomputable def attribute' [Field R] (A : Attributor R X C d) (st : State R X d) (te : Loader X) (tr : Option (Loader X)) :
    Except Err (Mat R) :=
  if tr.isSome && st.full.isSome then .error .valueError
  else if tr.isNone && st.full.isNone then .error .valueError
  else do
    let s ← A.ckpts.zipIdx.foldlM (attrStep A st tr te) (none, none)
    if tr.isSome then finish s.1 s.2 else finish s.1 st.Q

/-- One iteration of the checkpoint loop of `self_attribute` with a loader (trak.py:439-545): the einsum of the features with the
solved columns, as a row vector. -/
noncomputable def selfStep [Field R] (A : Attributor R X C d) (tr : Loader X)
    (s : Option (Mat R) × Option (List R)) (ci : C × Nat) : Except Err (Option (Mat R) × Option (List R)) := do
  let (Φ, q) ← trainPart A ci.1 tr
  let inv ← solveT A.reg Φ
  let diag : Mat R := ⟨1, Φ.length, fun _ i => match Φ[i]?, inv[i]? with | some φ, some v => φ ⬝ᵥ v | _, _ => 0⟩
  pure (some (runMat s.1 ci.2 diag), some (runQ s.2 ci.2 q))

/-- `self_attribute` (trak.py:395-548). Line 419 calls `_check_shuffle(test_dataloader)`, which reads `.sampler` of the argument
(algorithm/utils.py:23-27), so a missing loader raises `AttributeError` before anything else. The final
`(running * Q.unsqueeze(0)).T` of a length-`n` vector has shape `(n, 1)`. -/
noncomputable def selfAttribute [Field R] (A : Attributor R X C d) (st : State R X d) (tr : Option (Loader X)) :
    Except Err (Mat R) :=
  match tr with
  | none => .error .attributeError
  | some tr =>
    if st.full.isSome then .error .valueError
    else do
      let s ← A.ckpts.zipIdx.foldlM (selfStep A tr) (none, none)
      finish s.1 s.2

end Verif.TRAK
