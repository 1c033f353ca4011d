import Verif.Base.Tensor

/-! # Freezing and unfreezing parameters of a task's model (`dattri/task.py`, `dattri/func/utils.py`)

A parameter of the model has values and the flag `requires_grad`, which the user can change at any time.  The task remembers
the names of the parameters that were trainable when it last loaded a checkpoint; the values it reads through these names are
the model's current ones.  Simplified: `layer_name` is `None`; the checkpoints are dictionaries that fit the model and are
loaded with `load_state_dict`. -/

namespace Verif.Freeze

open Verif

/-- A parameter: its entries, whether it was trainable when the task remembered the names (`was`), and whether it is now
(`now`). -/
structure Par (R : Type) where
  val : List R
  was : Bool
  now : Bool

variable {R : Type}

/-- `flatten_params(self.named_parameters)`, utils.py:152-174 with task.py:435, 452: the entries of the parameters that were
trainable, one after the other. -/
def flat (ps : List (Par R)) : List R := (ps.map fun p => if p.was then p.val else []).flatten

/-- `_unflatten_params` and `functional_call`, utils.py:196-206: parameters that are trainable now get the next entries of
the vector (a slice that is too short cannot be reshaped), the others keep the values in the model. -/
def unflat : List (Par R) → List R → Except Err (List (List R))
  | [], _ => .ok []
  | p :: ps, v =>
    if p.now then
      if v.length < p.val.length then .error .runtimeError
      else do
        let r ← unflat ps (v.drop p.val.length)
        pure (v.take p.val.length :: r)
    else do
      let r ← unflat ps v
      pure (p.val :: r)

/-- The loss (or target) function of the task on a flat vector, utils.py:261-270 with task.py:117, 122. -/
def lossAt {A : Type} (L : List (List R) → A) (ps : List (Par R)) (v : List R) : Except Err A := do
  let r ← unflat ps v
  pure (L r)

/-! ## The task over time -/

/-- The state of model and task: values and flags of the parameters, the loaded checkpoint, and the remembered flags. -/
structure St (R : Type) where
  vals : List (List R)
  now : List Bool
  cur : Option ℕ
  was : List Bool

/-- What a user does: set `requires_grad` of a parameter, or have the parameters of a checkpoint read (as every attributor
does). -/
inductive Op where
  | setFlag (i : ℕ) (b : Bool)
  | getParam (c : ℕ)

/-- `_load_checkpoints`, task.py:160-177. -/
def load (ckpts : ℕ → List (List R)) (s : St R) (c : ℕ) : St R :=
  if s.cur = none ∨ s.cur ≠ some c then { s with vals := ckpts c, cur := some c, was := s.now } else s

/-- One step. -/
def step (ckpts : ℕ → List (List R)) (s : St R) : Op → St R
  | .setFlag i b => { s with now := s.now.set i b }
  | .getParam c => load ckpts s c

/-- A session. -/
def run (ckpts : ℕ → List (List R)) (s : St R) (ops : List Op) : St R := ops.foldl (step ckpts) s

/-- The parameters in a state. -/
def pars (s : St R) : List (Par R) :=
  (s.vals.zip (s.was.zip s.now)).map fun x => ⟨x.1, x.2.1, x.2.2⟩

/-- `get_param(c)` and then the loss at the returned vector: what every attributor evaluates (and differentiates).  Without any
remembered name `flatten_params` asks for the first one, utils.py:173, and raises `StopIteration`. -/
def evalCkpt {A : Type} (L : List (List R) → A) (ckpts : ℕ → List (List R)) (s : St R) (c : ℕ) : Except Err A :=
  let s' := load ckpts s c
  if (pars s').any Par.was then lossAt L (pars s') (flat (pars s')) else .error .stopIteration

end Verif.Freeze
