import Mathlib.Data.List.Basic
import Mathlib.Logic.Function.Basic
import Verif.Base.Tensor

/-!
# What a hooked pass captures (`/repo/dattri/algorithm/block_projected_if/core/hook.py`)

The storage `inputs` and `compressed_grads` of a manager during forward and backward passes, and the
gradients the attributor reads after each batch (`block_projected_if.py`, lines 248-297 and 848-897).

A layer is named by its index.  Layer inputs (`X`), output gradients (`Y`) and compressed gradients (`G`)
are opaque; the compressor of a layer is a function, or `none` when its set-up failed
(`core/compressor.py`, lines 358-364).  The manager is enabled and in the registry.
-/

namespace Verif.Hook

open Verif

variable {X Y G : Type}

/-- `hook_manager.inputs` and `hook_manager.compressed_grads` (hook.py:247-248). -/
structure Cap (X G : Type) where
  inputs : ℕ → Option X
  grads : ℕ → Option G

/-- A new manager (hook.py:247-248). -/
def Cap.empty : Cap X G := ⟨fun _ => none, fun _ => none⟩

/-- The forward of a hooked layer (hook.py:79). -/
def fwdUse (c : Cap X G) (u : ℕ × X) : Cap X G := { c with inputs := Function.update c.inputs u.1 (some u.2) }

/-- The backward of a hooked layer (hook.py:124-149).  `None.to` and `None.forward` raise
`AttributeError`. -/
def bwdUse (comp : ℕ → Option (X → Y → G)) (c : Cap X G) (u : ℕ × Y) : Except Err (Cap X G) :=
  match c.inputs u.1 with
  | none => .error .attributeError
  | some x =>
    match comp u.1 with
    | none => .error .attributeError
    | some f => .ok ⟨Function.update c.inputs u.1 none, Function.update c.grads u.1 (some (f x u.2))⟩

/-- One batch: the hooked layers in the order they are applied, with their inputs, and the applications
that take part in the backward pass in the order autograd visits them, with the output gradients. -/
structure Batch (X Y : Type) where
  fw : List (ℕ × X)
  bw : List (ℕ × Y)

/-- Loss and backward pass of one batch (block_projected_if.py:254-257, 868-874). -/
def pass (comp : ℕ → Option (X → Y → G)) (c : Cap X G) (b : Batch X Y) : Except Err (Cap X G) :=
  b.bw.foldlM (bwdUse comp) (b.fw.foldl fwdUse c)

/-- The loop over the batches: what `get_compressed_grads` gives after each batch
(block_projected_if.py:248-297, 848-897). -/
def capture (comp : ℕ → Option (X → Y → G)) : Cap X G → List (Batch X Y) → Except Err (List (ℕ → Option G))
  | _, [] => .ok []
  | c, b :: bs =>
    match pass comp c b with
    | .error e => .error e
    | .ok c' =>
      match capture comp c' bs with
      | .error e => .error e
      | .ok r => .ok (c'.grads :: r)

end Verif.Hook
