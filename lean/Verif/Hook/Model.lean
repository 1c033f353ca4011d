import Mathlib.Data.List.Basic
import Mathlib.Logic.Function.Basic
import Verif.Base.Tensor

/-!
# Patching linear layers (`/repo/dattri/algorithm/block_projected_if/core/hook.py`)

The parts of `HookManager` that replace and restore the `forward` of the modules of one model, and
what a call of a module then does.  What a captured pass computes is in `PassModel.lean`.

A manager is named by its creation number.  The code names it by `id(self)` (line 261); the registry
and every wrapper refer to the manager itself, so its `id` is not reused while anything below can
mention it.  For the same reason `__del__` (386-392) runs only after `remove_hooks` and changes nothing.
Devices and logging are left out.
-/

namespace Verif.Hook

open Verif

/-- The model: `named_modules()` as a list of names with the answer to
`isinstance(module, nn.Linear)`; a module is named by its position.  `named_modules` yields each module
once. -/
abbrev Net := List (String × Bool)

/-- A value of `module.forward`: the module's own method, or the wrapper made by a manager for the layer
index `idx` (hook.py:296-300). -/
inductive Fwd where
  | native
  | wrap (m idx : ℕ)
  deriving DecidableEq

/-- A module: its `forward` and the attribute `_original_forward`, if it has one. -/
structure ModSt where
  fwd : Fwd
  orig : Option Fwd
  deriving DecidableEq

/-- A manager: `layer_names`, whether `layer_name_to_module` has been filled (it is filled by the first
registration and never emptied), `hooks_registered`, `hooks_enabled`, and whether the global registry
has it. -/
structure Mgr where
  names : List String
  filled : Bool
  registered : Bool
  enabled : Bool
  live : Bool

/-- The state: the modules and the managers created so far. -/
structure St where
  mods : ℕ → ModSt
  mgrs : List Mgr

/-- A model nobody has patched. -/
def St.init : St := ⟨fun _ => ⟨.native, none⟩, []⟩

/-- `name in self.layer_names` for the module at position `i` (hook.py:280-281). -/
def named (net : Net) (names : List String) (i : ℕ) : Bool :=
  match net[i]? with
  | none => false
  | some p => names.contains p.1

/-- Is the module at position `i` an `nn.Linear`? -/
def isLinear (net : Net) (i : ℕ) : Bool :=
  match net[i]? with
  | none => false
  | some p => p.2

/-- `self.layer_name_to_idx[name]` (hook.py:240): the last position of the name. -/
def layerIdx (names : List String) (name : String) : ℕ :=
  names.length - 1 - names.reverse.idxOf name

/-- The index used for the module at position `i`. -/
def idxAt (net : Net) (names : List String) (i : ℕ) : ℕ :=
  match net[i]? with
  | none => 0
  | some p => layerIdx names p.1

/-- The loop of `_register_hooks` (hook.py:280-303), module by module. -/
def patch (net : Net) (m : ℕ) (names : List String) (mods : ℕ → ModSt) (i : ℕ) : ModSt :=
  if named net names i && isLinear net i then ⟨.wrap m (idxAt net names i), some (mods i).fwd⟩
  else mods i

/-- The loop of `remove_hooks` (hook.py:372-375), module by module; `filled` says that
`layer_name_to_module` holds the named modules. -/
def unpatch (net : Net) (g : Mgr) (mods : ℕ → ModSt) (i : ℕ) : ModSt :=
  if g.filled && named net g.names i then
    match (mods i).orig with
    | some f => ⟨f, none⟩
    | none => mods i
  else mods i

/-- `_register_hooks` (hook.py:270-306). -/
def register (net : Net) (st : St) (m : ℕ) (g : Mgr) : St :=
  if g.registered then st
  else ⟨patch net m g.names st.mods, st.mgrs.set m { g with filled := true, registered := true }⟩

/-- `remove_hooks` (hook.py:370-384). -/
def remove (net : Net) (st : St) (m : ℕ) (g : Mgr) : St :=
  ⟨unpatch net g st.mods, st.mgrs.set m { g with registered := false, live := false }⟩

/-- The calls of a user. -/
inductive Op where
  /-- `HookManager(model, names, register_hooks=reg)` (hook.py:219-268) -/
  | new (names : List String) (reg : Bool)
  /-- `_register_hooks()` -/
  | register (m : ℕ)
  /-- `remove_hooks()` -/
  | remove (m : ℕ)
  /-- `enable_hooks()` / `disable_hooks()` (hook.py:354-360) -/
  | setEnabled (m : ℕ) (b : Bool)

/-- A new manager (hook.py:235-262). -/
def Mgr.fresh (names : List String) : Mgr := ⟨names, false, false, true, true⟩

/-- `__init__` (hook.py:219-268). -/
def construct (net : Net) (st : St) (names : List String) (reg : Bool) : St :=
  let st1 : St := { st with mgrs := st.mgrs ++ [Mgr.fresh names] }
  if reg then register net st1 st.mgrs.length (Mgr.fresh names) else st1

/-- One call; `none` if there is no such manager. -/
def step (net : Net) (st : St) : Op → Option St
  | .new names reg => some (construct net st names reg)
  | .register m => (st.mgrs[m]?).map (register net st m)
  | .remove m => (st.mgrs[m]?).map (remove net st m)
  | .setEnabled m b => (st.mgrs[m]?).map fun g => { st with mgrs := st.mgrs.set m { g with enabled := b } }

/-- A history of calls. -/
def exec (net : Net) (st : St) (ops : List Op) : Option St := ops.foldlM (step net) st

/-- What calling a module does. -/
inductive Outcome where
  /-- the module's own forward, with ordinary gradients -/
  | own
  /-- `F.linear` (hook.py:344) -/
  | plain
  /-- `CompressedLinearBackward` for a manager: no weight gradients, the compressed gradient is
  captured under the index -/
  | captured (m idx : ℕ)
  /-- `RuntimeError`: manager not in the registry (hook.py:72-75) -/
  | notFound
  deriving DecidableEq

/-- Calling `f` as the forward of module `i` (hook.py:308-344, 72-75); `none` when `fuel` nested calls
were not enough. -/
def call (st : St) (i : ℕ) : ℕ → Fwd → Option Outcome
  | 0, _ => none
  | _ + 1, .native => some .own
  | fuel + 1, .wrap m idx =>
    match st.mgrs[m]? with
    | none => some .notFound
    | some g =>
      if g.enabled then some (if g.live then .captured m idx else .notFound)
      else
        match (st.mods i).orig with
        | none => some .plain
        | some f => call st i fuel f

end Verif.Hook
