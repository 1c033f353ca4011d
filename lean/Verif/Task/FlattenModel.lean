import Mathlib.Algebra.BigOperators.Group.List.Basic
import Verif.Base.Tensor

/-!
# Model of parameter flattening (`dattri/func/utils.py`)

A tensor is its shape and its entries in row-major order.  A dictionary is an association list in insertion order.
Device and dtype are not modelled.
-/

namespace Verif.Task

/-- A dense tensor: shape and row-major data (a well-formed tensor has `data.length = shape.prod`). -/
structure Tens (R : Type) where
  shape : List ℕ
  data : List R
  deriving DecidableEq

/-- `t.numel()`. -/
def Tens.numel {R : Type} (t : Tens R) : ℕ := t.data.length

/-- `t.reshape(shape)` / `t.view(shape)`: fails when the number of elements differs. -/
def reshape {R : Type} (data : List R) (shape : List ℕ) : Except Err (Tens R) :=
  if data.length = shape.prod then .ok ⟨shape, data⟩ else .error .runtimeError

variable {N R : Type}

/-- The write loop of `_vectorize(g, batch_dim=False)` (utils.py:74-76, 86-89): `arr[pointer : pointer + n] = param.reshape(-1)`. -/
def vecLoop : List R → ℕ → List (N × Tens R) → List R
  | arr, _, [] => arr
  | arr, p, (_, t) :: g => vecLoop (arr.take p ++ t.data ++ arr.drop (p + t.numel)) (p + t.numel) g

/-- `flatten_params` (utils.py:152-174) with `_vectorize(batch_dim=False)` (utils.py:68-72 allocation: `num_params` uninitialised
entries, here the arbitrary list `junk`); an empty dictionary fails at `next(iter(...))` (line 173). -/
def flattenParams (junk : ℕ → List R) (g : List (N × Tens R)) : Except Err (List R) :=
  if g.isEmpty then .error .stopIteration
  else .ok (vecLoop (junk (g.map (fun p => p.2.numel)).sum) 0 g)

/-- The model's `named_parameters()`: name, shape and `requires_grad`. -/
structure PInfo (N : Type) where
  name : N
  shape : List ℕ
  requiresGrad : Bool

/-- The generator of `_unflatten_params` (utils.py:199-204). -/
def unflattenGen (v : List R) : ℕ → List (PInfo N) → Except Err (List (N × Tens R))
  | _, [] => .ok []
  | i, p :: ps => do
    let t ← reshape ((v.drop i).take p.shape.prod) p.shape
    let r ← unflattenGen v (i + p.shape.prod) ps
    pure ((p.name, t) :: r)

/-- `_unflatten_params` (utils.py:177-206): only the trainable parameters (line 196). -/
def unflattenParams (v : List R) (model : List (PInfo N)) : Except Err (List (N × Tens R)) :=
  unflattenGen v 0 (model.filter (·.requiresGrad))

/-- The loop of `_unflatten_params_layerwise` (utils.py:225-230): `tensors[i].view(shape)`, `IndexError` when the tuple is short. -/
def layerwiseGen : List (List R) → List (PInfo N) → Except Err (List (N × Tens R))
  | _, [] => .ok []
  | [], _ :: _ => .error .indexError
  | t :: ts, p :: ps => do
    let x ← reshape t p.shape
    let r ← layerwiseGen ts ps
    pure ((p.name, x) :: r)

/-- `_unflatten_params_layerwise` (utils.py:209-230). -/
def unflattenLayerwise (ts : List (List R)) (model : List (PInfo N)) : Except Err (List (N × Tens R)) :=
  layerwiseGen ts (model.filter (·.requiresGrad))

/-- The parameter argument of a flattened function: one flat tensor or a tuple of tensors. -/
inductive FlatArg (R : Type)
  | flat (v : List R)
  | tuple (ts : List (List R))

/-- `flatten_func(model)(function)` (utils.py:260-270). -/
def flattenFunc {O : Type} (model : List (PInfo N)) (function : List (N × Tens R) → Except Err O) : FlatArg R → Except Err O
  | .tuple ts => unflattenLayerwise ts model >>= function
  | .flat v => unflattenParams v model >>= function

end Verif.Task
