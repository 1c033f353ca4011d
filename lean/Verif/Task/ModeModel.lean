import Verif.ModelUtil.DropoutModel

/-!
# Training and evaluation mode of the model during attribution

The loss function given to a task calls the user's model object; whether its dropout layers are active is decided by the mode of the modules at that moment.  The mode is
set by the user, by `activate_dropout` (`dattri/model_util/dropout.py:15-68`), by the loading function of a task (`dattri/task.py:21-37, 102-110, 160-177`) and by
`DVEmbAttributor.attribute` (`dattri/algorithm/dvemb.py:834`).

Simplifications: the weights are the subject of C218; all tasks and attributors work on one model object, the one the loss functions call; a task has at least the
checkpoints it loops over.
-/

namespace Verif.Modes

open Verif Verif.Dropout

/-- `model.eval()` / `model.train()` on the modules of a model (`torch.nn.Module.train` visits all submodules). -/
def setMode (b : Bool) (ms : List Module) : List Module := ms.map fun m => { m with training := b }

/-- Loading functions: the default (task.py:21-37), one that also activates dropout layers (examples/pretrained_benchmark/trak_dropout_lds.py:28-35), one that builds a new
model as in the documentation of the task (task.py:105-110), and one that only loads the weights. -/
inductive LoadFn
  | default
  | dropout (positions : Option (List (List Char))) (prob : ℚ)
  | fresh
  | weights

/-- Effect of a loading function on the modes of the model object the loss functions call.  A new model is a different object. -/
def LoadFn.apply : LoadFn → List Module → List Module × Except Err Unit
  | .default, ms => (setMode false ms, .ok ())
  | .dropout positions prob, ms => activateDropout (setMode false ms) positions prob
  | .fresh, ms => (ms, .ok ())
  | .weights, ms => (ms, .ok ())

/-- A task: its loading function and the number of its checkpoints. -/
structure Cfg where
  fn : LoadFn
  n : ℕ

/-- The modules of the model and `current_checkpoint_idx` of every task. -/
structure St where
  ms : List Module
  cur : ℕ → Option ℕ

/-- `_load_checkpoints` (task.py:160-177): nothing happens if the checkpoint is the current one; if the loading function raises, the modes it has set stay. -/
def load (cfg : ℕ → Cfg) (s : St) (t c : ℕ) : St × Except Err Unit :=
  if s.cur t = none ∨ s.cur t ≠ some c then
    match (cfg t).fn.apply s.ms with
    | (ms, .ok ()) => (⟨ms, fun u => if u = t then some c else s.cur u⟩, .ok ())
    | (ms, .error e) => (⟨ms, s.cur⟩, .error e)
  else (s, .ok ())

/-- The loop over checkpoints of the attributors (base.py:341, 500, tracin.py:109-116, trak.py:123-128, 251-256): `get_param(c)` loads, then the loss is evaluated with the
modes the model has now; the modes at each checkpoint are collected. -/
def loop (cfg : ℕ → Cfg) (t : ℕ) : St → List ℕ → St × List (List Module) × Except Err Unit
  | s, [] => (s, [], .ok ())
  | s, c :: cs =>
    match load cfg s t c with
    | (s', .error e) => (s', [], .error e)
    | (s', .ok ()) =>
      let r := loop cfg t s' cs
      (r.1, s'.ms :: r.2.1, r.2.2)

/-- What happens: an attributor works on task `t`; the user calls `train()`, `eval()` or `activate_dropout`; `DVEmbAttributor.attribute` (dvemb.py:834: `self.model.eval()`,
then test gradients). -/
inductive Op
  | call (t : ℕ)
  | train
  | eval
  | activate (positions : Option (List (List Char))) (prob : ℚ)
  | dvemb

/-- One operation: new state, modes at each evaluation of the loss, exception. -/
def step (cfg : ℕ → Cfg) (s : St) : Op → St × List (List Module) × Except Err Unit
  | .call t => loop cfg t s (List.range (cfg t).n)
  | .train => (⟨setMode true s.ms, s.cur⟩, [], .ok ())
  | .eval => (⟨setMode false s.ms, s.cur⟩, [], .ok ())
  | .activate positions prob => (⟨(activateDropout s.ms positions prob).1, s.cur⟩, [], (activateDropout s.ms positions prob).2)
  | .dvemb => (⟨setMode false s.ms, s.cur⟩, [setMode false s.ms], .ok ())

/-- The state after a sequence of operations (exceptions are caught by the user). -/
def run (cfg : ℕ → Cfg) (s : St) (ops : List Op) : St := ops.foldl (fun s o => (step cfg s o).1) s

end Verif.Modes
