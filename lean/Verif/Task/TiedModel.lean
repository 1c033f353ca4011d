import Verif.Base.Tensor
import Mathlib.Data.List.FinRange

/-!
# Models in which several layers share a parameter

`/repo/dattri/task.py` (checkpoint loading, `get_param`, the flattened and the layer-restricted loss), `/repo/dattri/func/utils.py` (`flatten_params`,
`_unflatten_params`, `partial_param`) and the names EK-FAC asks for, for networks in which one parameter tensor has several names (nanoGPT's `lm_head.weight` is
`transformer.wte.weight`, `/repo/dattri/benchmark/models/nanoGPT/model.py` line 138). From PyTorch: `named_parameters` lists every tensor once, under its first name;
`state_dict` and `load_state_dict` go through all names; `functional_call` gives a value passed for one name to all names of the same tensor.
-/

namespace Verif.Tied

open Verif

/-- A network: `n` places where a parameter is used, in the order of registration, each with a name; `m` parameter tensors; which tensor each place uses; which
tensors require gradients. -/
structure Net where
  n : ℕ
  m : ℕ
  name : Fin n → String
  obj : Fin n → Fin m
  trainable : Fin m → Bool
  name_inj : Function.Injective name
  obj_surj : Function.Surjective obj

variable {R : Type} (N : Net)

/-- `model.named_parameters()`: every tensor under the first of its names (torch, `remove_duplicate=True`). -/
def namedParameters : List (Fin N.n) := (List.finRange N.n).filter fun s => decide (∀ t, t < s → N.obj t ≠ N.obj s)

/-- `{k: p for k, p in model.named_parameters() if p.requires_grad}` (task.py:175-177, utils.py:196). -/
def params : List (Fin N.n) := (namedParameters N).filter fun s => N.trainable (N.obj s)

/-- A dictionary from names to tensors. -/
abbrev Dict (R : Type) := List (String × List R)

/-- The task's dictionary `self.named_parameters` when the tensors are `w` (task.py:175-177). -/
def taskParams (w : Fin N.m → List R) : Dict R := (params N).map fun s => (N.name s, w (N.obj s))

/-- `flatten_params` (utils.py:152-174): the device is that of the first tensor, so an empty dictionary raises `StopIteration`. -/
def flattenParams (d : Dict R) : Except Err (List R) := if d = [] then .error .stopIteration else .ok (d.map (·.2)).flatten

/-- The selection in `get_param` (task.py:428-435). -/
def select (d : Dict R) : Option (List String) → Dict R
  | none => d
  | some ls => ls.eraseDups.filterMap fun k => (d.lookup k).map fun x => (k, x)

/-- `_unflatten_params` (utils.py:177-206): the pieces of the vector for the names and sizes of the model's trainable parameters; a piece that is too short cannot be
reshaped. -/
def unflatten (w : Fin N.m → List R) : List (Fin N.n) → List R → Except Err (Dict R)
  | [], _ => .ok []
  | s :: ss, v =>
    if (v.take (w (N.obj s)).length).length = (w (N.obj s)).length then
      match unflatten w ss (v.drop (w (N.obj s)).length) with
      | .error e => .error e
      | .ok d => .ok ((N.name s, v.take (w (N.obj s)).length) :: d)
    else .error .runtimeError

/-- What `torch.func.functional_call(model, d, ...)` puts in place `s`: the value given for its name, else one given for another name of the same tensor, else the
module's own tensor. -/
def filled (w : Fin N.m → List R) (d : Dict R) (s : Fin N.n) : List R :=
  match d.lookup (N.name s) with
  | some x => x
  | none =>
    match (List.finRange N.n).findSome? fun t => if N.obj t = N.obj s then d.lookup (N.name t) else none with
    | some x => x
    | none => w (N.obj s)

/-- The flattened loss (task.py:117, 122, utils.py:233-274) of a user's loss `L` that uses `functional_call`: `L` is what it computes from the values in all places. -/
def lossAt {A : Type} (L : (Fin N.n → List R) → A) (w : Fin N.m → List R) (v : List R) : Except Err A :=
  match unflatten N w (params N) v with
  | .error e => .error e
  | .ok d => .ok (L (filled N w d))

/-- The loop of `partial_param` (utils.py:313-319): entries of the full dictionary are replaced by pieces of the vector; a name that is not in the dictionary
raises `KeyError`. (The dictionary is the task's own and keeps the pieces, C34; here one call on a fresh dictionary is modelled.) -/
def replaceLayers : Dict R → List String → List R → Except Err (Dict R)
  | d, [], _ => .ok d
  | d, k :: ks, v =>
    match d.lookup k with
    | none => .error .keyError
    | some x => replaceLayers (d.map fun p => if p.1 = k then (k, v.take x.length) else p) ks (v.drop x.length)

/-- The layer-restricted loss (task.py:325-331, 376-382, utils.py:277-324). -/
def partialAt {A : Type} (L : (Fin N.n → List R) → A) (w : Fin N.m → List R) (ls : List String) (v : List R) : Except Err A :=
  match replaceLayers (taskParams N w) ls v with
  | .error e => .error e
  | .ok d =>
    match flattenParams d with
    | .error e => .error e
    | .ok u => lossAt N L w u

/-- The function differentiated for a request (task.py:325-345, 376-382). -/
def lossFn {A : Type} (L : (Fin N.n → List R) → A) (w : Fin N.m → List R) : Option (List String) → List R → Except Err A
  | none => lossAt N L w
  | some ls => partialAt N L w ls

/-- What an inner-product attributor does for one sample (base.py:184-189): it takes the selected parameters and evaluates (and differentiates) the loss there. -/
def evaluate {A : Type} (L : (Fin N.n → List R) → A) (w : Fin N.m → List R) (lay : Option (List String)) : Except Err A :=
  match flattenParams (select (taskParams N w) lay) with
  | .error e => .error e
  | .ok v => lossFn N L w lay v

/-- The names EK-FAC asks for, given the places of the weights and biases of its modules (influence_function.py:920-926). -/
def ekfacNames (mods : List (Fin N.n × Option (Fin N.n))) : List String :=
  mods.flatMap fun q => N.name q.1 :: (q.2.map N.name).toList

/-- `load_state_dict` (task.py:35; torch): the entries of the checkpoint are copied place by place, a missing name raises `RuntimeError` after the others have been
copied. -/
def loadStateDict (c : Dict R) (w : Fin N.m → List R) : (Fin N.m → List R) × Except Err Unit :=
  ((List.finRange N.n).foldl (fun u s => match c.lookup (N.name s) with
    | some x => fun o => if o = N.obj s then x else u o
    | none => u) w,
   if ∀ s, (c.lookup (N.name s)).isSome then .ok () else .error .runtimeError)

/-- `state_dict()` (torch): all names. -/
def stateDict (w : Fin N.m → List R) : Dict R := (List.finRange N.n).map fun s => (N.name s, w (N.obj s))

end Verif.Tied
