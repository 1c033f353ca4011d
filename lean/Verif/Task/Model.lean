import Mathlib.Data.List.Basic
import Verif.Base.Tensor

/-!
# Model of `AttributionTask` as a state machine (`dattri/task.py`, `partial_param` of `dattri/func/utils.py`)

Aliasing is modelled explicitly: the model's `Parameter` objects are cells that `load_state_dict` overwrites in place (the default
checkpoint loader, task.py:20-36; custom loaders are not modelled), a parameter dictionary holds for each name either a reference to
the cell or a tensor written by `partial_param`.  Tensors are their flat entries.  The user's loss/target function is a parameter of
the theorems: evaluating a function yields the full flat parameter vector that is handed to it.
All checkpoints contain exactly the model's parameters (`load_state_dict` raises otherwise).
-/

namespace Verif.Task

variable {N R D : Type} [DecidableEq N]

/-- A dictionary value: the model's own `Parameter` (by reference) or a tensor stored by `partial_param`. -/
inductive Entry (R : Type)
  | ref
  | val (v : List R)
  deriving DecidableEq

/-- A parameter dictionary object. -/
abbrev Dict (N R : Type) := List (N × Entry R)

/-- The current value of an entry of parameter `n`. -/
def Entry.read (cells : N → List R) (n : N) : Entry R → List R
  | .ref => cells n
  | .val v => v

/-- `d[k]`. -/
def dget (d : Dict N R) (k : N) : Option (Entry R) := (d.find? (fun p => p.1 = k)).map (·.2)

/-- `d[k] = e` for an existing key (position kept). -/
def dset (d : Dict N R) (k : N) (e : Entry R) : Dict N R := d.map fun p => if p.1 = k then (p.1, e) else p

/-- `flatten_params(d)` for a non-empty dictionary (utils.py:152-174; see `FlattenModel`). -/
def dflat (cells : N → List R) (d : Dict N R) : List R := (d.map fun p => p.2.read cells p.1).flatten

/-- The loop of `_function_partial` (utils.py:312-318): for each layer, `full_param[layer] = arg[i : i + numel]`.  A missing name is a
`KeyError`; earlier writes persist. -/
def writeLayers (cells : N → List R) (x : List R) : List N → ℕ → Dict N R → Dict N R × Except Err Unit
  | [], _, d => (d, .ok ())
  | l :: ls, i, d =>
    match dget d l with
    | none => (d, .error .keyError)
    | some e =>
      let n := (e.read cells l).length
      writeLayers cells x ls (i + n) (dset d l (.val ((x.drop i).take n)))

/-- A function object returned by the task: loss or target; the vmapped dimensions for gradients; for `partial_param` the layer list and
the identity of the captured dictionary. -/
structure Closure (N D : Type) where
  target : Bool
  dims : Option D
  part : Option (List N × ℕ)
  deriving DecidableEq

/-- The key of the one-slot memo (task.py:247-251, 333-337). -/
structure Key (N D : Type) where
  dims : D
  layer : Option (List N)
  ckpt : Option ℕ
  deriving DecidableEq

/-- State of the task object, of its model and of the dictionaries and functions handed out so far. `loads` is a log of checkpoint loads. -/
structure St (N R D : Type) where
  cells : N → List R
  heap : List (Dict N R)
  cur : Option ℕ
  dict : ℕ
  memo : Bool → Key N D × Closure N D
  loads : List ℕ
  handles : List (Closure N D)

/-- Requests of a user of the task. -/
inductive Op (N R D : Type)
  /-- `task.get_param(c, layer_name=L)` -/
  | getParam (c : ℕ) (L : Option (List N))
  /-- `task.get_loss_func / get_target_func(layer_name=L, ckpt_idx=c)` -/
  | getFunc (target : Bool) (L : Option (List N)) (c : Option ℕ)
  /-- `task.get_grad_loss_func / get_grad_target_func(dims, L, c)` -/
  | getGrad (target : Bool) (d : D) (L : Option (List N)) (c : Option ℕ)
  /-- call the `h`-th function obtained so far at parameters `x` -/
  | eval (h : ℕ) (x : List R)

/-- Observable results. -/
inductive Out (N R D : Type)
  | params (v : List R)
  | func (f : Closure N D)
  /-- the user's loss/target function was called with the full flat parameters `full` -/
  | called (target : Bool) (dims : Option D) (full : List R)

/-- Static data: names of the trainable parameters in order, checkpoints. -/
structure Env (N R : Type) where
  names : List N
  ckpts : List (N → List R)

/-- `AttributionTask.__init__` (task.py:112-158): nothing loaded, memo for `in_dims=(None, 1)` (`d0`) over all parameters. -/
def init (d0 : D) (cells : N → List R) : St N R D where
  cells := cells
  heap := []
  cur := none
  dict := 0
  memo := fun t => (⟨d0, none, none⟩, ⟨t, some d0, none⟩)
  loads := []
  handles := []

/-- `_load_checkpoints` (task.py:160-177). -/
def load (env : Env N R) (s : St N R D) (c : Option ℕ) : St N R D × Except Err Unit :=
  if s.cur = none ∨ s.cur ≠ c then
    match c with
    | none => (s, .error .typeError)
    | some i =>
      match env.ckpts[i]? with
      | none => (s, .error .indexError)
      | some ck =>
        ({ s with cells := ck, cur := some i, heap := s.heap ++ [env.names.map fun n => (n, .ref)], dict := s.heap.length,
                  loads := s.loads ++ [i] }, .ok ())
  else (s, .ok ())

/-- The dictionary selected by `get_param` (task.py:428-435). -/
def select (d : Dict N R) : Option (List N) → Dict N R
  | none => d
  | some ls => ls.filterMap fun k => (dget d k).map fun e => (k, e)

/-- `get_param` without `layer_split` (task.py:426-435, 452). Repetitions in `layer_name` are not modelled (see `LayerMapModel`). -/
def getParam (env : Env N R) (s : St N R D) (c : ℕ) (L : Option (List N)) : St N R D × Except Err (Out N R D) :=
  match load env s (some c) with
  | (s, .error e) => (s, .error e)
  | (s, .ok ()) =>
    let d := select (s.heap.getD s.dict []) L
    if d.isEmpty then (s, .error .stopIteration) else (s, .ok (.params (dflat s.cells d)))

/-- Hand out a function (record it so that it can be called later). -/
def give (s : St N R D) (f : Closure N D) : St N R D × Except Err (Out N R D) :=
  ({ s with handles := s.handles ++ [f] }, .ok (.func f))

/-- `get_target_func` / `get_loss_func` with `flatten=True` (task.py:291-297, 376-382). -/
def getFunc (env : Env N R) (s : St N R D) (t : Bool) (L : Option (List N)) (c : Option ℕ) : St N R D × Except Err (Out N R D) :=
  match L with
  | none => give s ⟨t, none, none⟩
  | some ls =>
    match load env s c with
    | (s, .error e) => (s, .error e)
    | (s, .ok ()) => give s ⟨t, none, some (ls, s.dict)⟩

/-- The memo update (task.py:252-259, 338-345). -/
def memoize [DecidableEq D] (s : St N R D) (t : Bool) (k : Key N D) (f : Closure N D) : St N R D × Except Err (Out N R D) :=
  if (s.memo t).1 ≠ k then
    give { s with memo := fun t' => if t' = t then (k, f) else s.memo t' } f
  else give s (s.memo t).2

/-- `get_grad_target_func` / `get_grad_loss_func` (task.py:237-259, 325-345). -/
def getGrad [DecidableEq D] (env : Env N R) (s : St N R D) (t : Bool) (d : D) (L : Option (List N)) (c : Option ℕ) :
    St N R D × Except Err (Out N R D) :=
  match L with
  | none => memoize s t ⟨d, none, c⟩ ⟨t, some d, none⟩
  | some ls =>
    match load env s c with
    | (s, .error e) => (s, .error e)
    | (s, .ok ()) => memoize s t ⟨d, some ls, c⟩ ⟨t, some d, some (ls, s.dict)⟩

/-- Calling a function object (utils.py:310-320 for a partial one): the parameters the user's function finally sees. -/
def evalC (s : St N R D) (f : Closure N D) (x : List R) : St N R D × Except Err (Out N R D) :=
  match f.part with
  | none => (s, .ok (.called f.target f.dims x))
  | some (ls, i) =>
    match writeLayers s.cells x ls 0 (s.heap.getD i []) with
    | (d, .error e) => ({ s with heap := s.heap.set i d }, .error e)
    | (d, .ok ()) => ({ s with heap := s.heap.set i d }, .ok (.called f.target f.dims (dflat s.cells d)))

/-- One request. Calling a function that was never handed out is not a request (no effect; reported as `TypeError`). -/
def step [DecidableEq D] (env : Env N R) (s : St N R D) : Op N R D → St N R D × Except Err (Out N R D)
  | .getParam c L => getParam env s c L
  | .getFunc t L c => getFunc env s t L c
  | .getGrad t d L c => getGrad env s t d L c
  | .eval h x =>
    match s.handles[h]? with
    | none => (s, .error .typeError)
    | some f => evalC s f x

/-- A history of requests (exceptions are caught by the user, the state persists). -/
def run [DecidableEq D] (env : Env N R) (s : St N R D) (ops : List (Op N R D)) : St N R D :=
  ops.foldl (fun s op => (step env s op).1) s

end Verif.Task
