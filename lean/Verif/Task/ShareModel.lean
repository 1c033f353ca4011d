import Verif.Base.Tensor

/-!
# Tasks and attributors that share a model object

Models which weights the calls of attributors see when several tasks, attributors and the user work on the same model objects: `_load_checkpoints` and `get_param`
(`dattri/task.py:160-180, 426-452`), the loops over checkpoints of the attributors, and the attributors that keep the model object themselves
(`dattri/algorithm/rps.py:61-63`, `dattri/algorithm/block_projected_if/block_projected_if.py:111-112`, `dattri/algorithm/dvemb.py:90`).

Simplifications: the weights of a model are one value of type `W` (a state dict with all keys); files given as checkpoints are values; restrictions to layers
(see `Model.lean`) and devices are left out.
-/

namespace Verif.Share

open Verif

variable {W : Type}

/-- A checkpoint given to a task: a state dict of its own (a file or a copy), or `model.state_dict()` of a live model, whose tensors are the model's own. -/
inductive Ckpt (W : Type)
  | own (w : W)
  | alias (m : ℕ)

/-- What a task is made from: its checkpoints, and whether `checkpoints_load_func` builds a new model (as in the documentation for huggingface models,
task.py:102-110) or loads into the given one (the default, task.py:20-37). -/
structure Cfg (W : Type) where
  ckpts : List (Ckpt W)
  fresh : Bool

/-- Model objects with their weights (`next`: first unused object), the model and `current_checkpoint_idx` of every task, and the model object every attributor
keeps in `self.model`. -/
structure World (W : Type) where
  cells : ℕ → W
  next : ℕ
  model : ℕ → ℕ
  cur : ℕ → Option ℕ
  held : ℕ → ℕ

/-- Updating one place of a table. -/
def put {A : Type} (f : ℕ → A) (k : ℕ) (a : A) : ℕ → A := fun i => if i = k then a else f i

/-- The weights in a checkpoint at the time it is loaded. -/
def Ckpt.read (w : World W) : Ckpt W → W
  | .own v => v
  | .alias m => w.cells m

/-- `_load_checkpoints` (task.py:160-180). -/
def load (cfg : ℕ → Cfg W) (w : World W) (t c : ℕ) : World W × Except Err Unit :=
  if w.cur t = none ∨ w.cur t ≠ some c then
    match (cfg t).ckpts[c]? with
    | none => (w, .error .indexError)
    | some k =>
      if (cfg t).fresh then
        ({ w with cells := put w.cells w.next (k.read w), next := w.next + 1, model := put w.model t w.next, cur := put w.cur t (some c) }, .ok ())
      else ({ w with cells := put w.cells (w.model t) (k.read w), cur := put w.cur t (some c) }, .ok ())
  else (w, .ok ())

/-- `get_param(c)[0]`: the flattened parameters are a copy (task.py:426-452). -/
def getParam (cfg : ℕ → Cfg W) (w : World W) (t c : ℕ) : World W × Except Err W :=
  match load cfg w t c with
  | (w, .error e) => (w, .error e)
  | (w, .ok ()) => (w, .ok (w.cells (w.model t)))

/-- What happens: `get_param(c)` of a task; anything that writes the weights of a model object (the user trains it); construction of an RPS, a block-projected and a
DVEmb attributor on a task; a call of such an attributor, which reads the object it keeps. -/
inductive Op (W : Type)
  | param (t c : ℕ)
  | write (m : ℕ) (v : W)
  | rps (a t : ℕ)
  | block (a t : ℕ)
  | dvemb (a t : ℕ)
  | live (a : ℕ)

/-- One operation and the weights it reads.  RPS takes the model and then loads checkpoint 0 (rps.py:62-63), the block-projected attributor loads and then takes the
model (block_projected_if.py:111-112), DVEmb only takes it (dvemb.py:90). -/
def step (cfg : ℕ → Cfg W) (w : World W) : Op W → World W × Except Err (Option W)
  | .param t c => ((getParam cfg w t c).1, (getParam cfg w t c).2.map some)
  | .write m v => ({ w with cells := put w.cells m v }, .ok none)
  | .rps a t =>
    let w1 := { w with held := put w.held a (w.model t) }
    ((getParam cfg w1 t 0).1, (getParam cfg w1 t 0).2.map fun _ => none)
  | .block a t =>
    match load cfg w t 0 with
    | (w1, .error e) => (w1, .error e)
    | (w1, .ok ()) => ({ w1 with held := put w1.held a (w1.model t) }, .ok none)
  | .dvemb a t => ({ w with held := put w.held a (w.model t) }, .ok none)
  | .live a => (w, .ok (some (w.cells (w.held a))))

/-- A sequence of operations: the last state and the result of each. -/
def run (cfg : ℕ → Cfg W) : World W → List (Op W) → World W × List (Except Err (Option W))
  | w, [] => (w, [])
  | w, o :: l =>
    let r := run cfg (step cfg w o).1 l
    (r.1, (step cfg w o).2 :: r.2)

/-- The loop over the checkpoints of the influence functions, TracIn, TRAK, ... on task `t` (base.py:341, tracin.py:109-116, trak.py:123-128, 251-256):
`get_param` for `0, 1, ...`; a second `get_param` of the same checkpoint in the body of the loop reads the same weights. -/
def attributeAll (cfg : ℕ → Cfg W) (t : ℕ) : List (Op W) := (List.range (cfg t).ckpts.length).map fun c : ℕ => .param t c

end Verif.Share
