import Mathlib.Data.Nat.Sqrt
import Mathlib.Algebra.Ring.Basic
import Verif.Base.Tensor

/-!
# Constructing a DVEmb attributor and choosing its layers

`dattri/algorithm/dvemb.py:39-155` (`__init__`), `:192-214` (`_get_target_linear_layers`), the shapes that `:157-190`
(`_setup_projectors`) and `:216-252` (hooks) read off a chosen layer, and the row that `:506-541` (`_reconstruct_gradients`) builds
from the chosen layers, with the size check of the product at `:786`.

A module is described by what these lines look at: whether it is an `nn.Linear`, its attributes `weight` and `bias`, and the sizes of
its parameters.
-/

namespace Verif.DVEmbLayers

open Verif

/-- What the attributor reads off a module.  `weight` is the shape of the attribute `weight` (`none`: there is no such tensor), `bias`
is `none` if there is no attribute of that name, `some none` if it is `None`, and otherwise its length; `numels` are the sizes of
`layer.parameters()` (dvemb.py:129-133, 168-169, 202, 238). -/
structure Layer where
  isLinear : Bool
  weight : Option (List ℕ)
  bias : Option (Option ℕ)
  numels : List ℕ
  deriving DecidableEq

/-- Modules of a model: every path under which a module is registered, in the order of the traversal, with the identity of the module
(input of dvemb.py:202, 205). -/
abbrev Paths := List (String × ℕ)

/-- `named_modules()` reports every module object once, under the first path that leads to it (dvemb.py:202, 205; torch's memo). -/
def namedModules : List ℕ → Paths → Paths
  | _, [] => []
  | memo, (s, i) :: rest => if i ∈ memo then namedModules memo rest else (s, i) :: namedModules (i :: memo) rest

/-- The argument `layer_names` (dvemb.py:44, 101-106). -/
inductive Names where
  | all
  | one (s : String)
  | many (l : List String)

/-- `self.layer_names` (dvemb.py:101-106): a single string becomes a list of one. -/
def Names.normal : Names → Option (List String)
  | .all => none
  | .one s => some [s]
  | .many l => some l

/-- The loop over the requested names (dvemb.py:206-214): the layers found, and the names a warning is issued for. -/
def pick (d : Paths) : List String → List ℕ × List String
  | [] => ([], [])
  | s :: rest => match d.lookup s with
    | some i => (i :: (pick d rest).1, (pick d rest).2)
    | none => ((pick d rest).1, s :: (pick d rest).2)

/-- `_get_target_linear_layers` (dvemb.py:192-214). -/
def targets (info : ℕ → Layer) (paths : Paths) (names : Names) : List ℕ × List String :=
  match names.normal with
  | none => (((namedModules [] paths).map Prod.snd).filter fun i => (info i).isLinear, [])
  | some l => pick (namedModules [] paths) l

/-- The state after `__init__`: whether factors are recorded, the layers, `projection_dim_per_layer`, `_params_dim` (unset without
factorisation) and the warnings. -/
structure Cfg where
  factored : Bool
  layers : List ℕ
  projDim : Option ℤ
  paramsDim : Option ℤ
  warned : List String
  deriving DecidableEq

/-- Number of parameters of a signature without default (dvemb.py:109-110).  `*args` and `**kwargs` have no default and count. -/
def required (sig : List Bool) : ℕ := (sig.filter fun hasDefault => !hasDefault).length

/-- `DVEmbAttributor.__init__` (dvemb.py:39-155).  `sig` says for every parameter of the loss function whether it has a default.
`ftype = none` is Python's `None`.  Simplified: `int(math.sqrt(d))` is the integer square root (the float computation differs only
beyond `2^52`). -/
def construct (info : ℕ → Layer) (paths : Paths) (sig : List Bool) (proj : Option ℤ) (ftype : Option String) (names : Names) :
    Except Err Cfg :=
  if ftype ≠ some "none" then
    if required sig ≠ 3 then .error .valueError
    else
      let t := targets info paths names
      if t.1 = [] then .error .valueError
      else match proj with
        | none => .ok ⟨true, t.1, none, some ((t.1.flatMap fun i => (info i).numels).sum : ℕ), t.2⟩
        | some d =>
          if ftype = some "kronecker" then
            if d < 0 then .error .valueError
            else
              let r : ℤ := (Nat.sqrt d.toNat : ℕ)
              .ok ⟨true, t.1, some r, some (t.1.length * r * r), t.2⟩
          else if ftype = some "elementwise" then .ok ⟨true, t.1, some d, some (t.1.length * d), t.2⟩
          else .error .valueError
  else if required sig ≠ 2 then .error .valueError
  else .ok ⟨false, [], proj, none, []⟩

/-- The shapes `_setup_projectors` reads (dvemb.py:167-169): output and input size of every layer. -/
def projectorSizes (info : ℕ → Layer) : List ℕ → Except Err (List (ℕ × ℕ))
  | [] => .ok []
  | i :: rest => match (info i).weight with
    | none => .error .attributeError
    | some [] => .error .indexError
    | some [_] => .error .indexError
    | some (o :: n :: _) => match projectorSizes info rest with
      | .error e => .error e
      | .ok l => .ok ((o, n) :: l)

variable {K : Type} [Ring K]

/-- One sample's row for one layer, two-dimensional activations (dvemb.py:531-539): the outer product of output gradient and input, row
by row, then the output gradient if the layer has a bias. -/
def layerRow (bias : Bool) (a b : List K) : List K := (b.flatMap fun o : K => a.map fun x : K => o * x) ++ if bias then b else []

/-- The forward hooks look at `layer.bias` (dvemb.py:238), the rows are built and concatenated (dvemb.py:521-541).  `act i` are the
input and the output gradient seen at module `i`. -/
def row (info : ℕ → Layer) (act : ℕ → List K × List K) : List ℕ → Except Err (List K)
  | [] => .ok []
  | i :: rest => match (info i).bias with
    | none => .error .attributeError
    | some b => match row info act rest with
      | .error e => .error e
      | .ok r => .ok (layerRow b.isSome (act i).1 (act i).2 ++ r)

/-- Recording a sample without projection and using it in `cache()`: the product `grads_t @ m_matrix.T` needs rows of length
`_params_dim` (dvemb.py:738, 750-754, 786). -/
def usableRow (info : ℕ → Layer) (act : ℕ → List K × List K) (c : Cfg) : Except Err (List K) :=
  match row info act c.layers with
  | .error e => .error e
  | .ok r => if (r.length : ℤ) = c.paramsDim.getD 0 then .ok r else .error .runtimeError

end Verif.DVEmbLayers
