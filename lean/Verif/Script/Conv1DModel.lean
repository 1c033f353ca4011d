import Verif.Base.Tensor

/-!
# Replacing Conv1D layers and listing the layers of a model

Model of the two helpers with which the GPT-2 scripts prepare a model for LoGra:
`experiments/gpt2_wikitext/score_logra.py:620-725` and
`examples/pretrained_benchmark/logra_wikitext2_gpt2_lds.py:24-47`.
-/

namespace Verif.Conv1D

open Verif

/-- Object identity of a module.  `old` are the objects that exist when the
function is called.  `fresh p s` is the layer that the function creates and
stores under the name `s` of the module `p`
(`experiments/gpt2_wikitext/score_logra.py:718-724`). -/
inductive Id where
  | old (n : ℕ)
  | fresh (parent : Id) (name : String)
  deriving DecidableEq

/-- The other leaf modules that `find_layers` distinguishes
(`experiments/gpt2_wikitext/score_logra.py:638-651`). -/
inductive Leaf where
  | layerNorm
  | embedding
  | other
  deriving DecidableEq

mutual
/-- A module tree, as seen through `named_children`.  A module that is registered
at several places occurs several times with the same identity.
Simplified: Conv1D and Linear have no children, and a weight matrix is a function
of two indices together with its two sizes
(`experiments/gpt2_wikitext/score_logra.py:703-725`). -/
inductive Mod (α : Type) where
  | conv (id : Id) (rows cols : ℕ) (w : ℕ → ℕ → α) (b : ℕ → α)
  | linear (id : Id) (rows cols : ℕ) (w : ℕ → ℕ → α) (b : ℕ → α)
  | leaf (id : Id) (k : Leaf)
  | node (id : Id) (kids : Kids α)
/-- The children of a module in registration order
(`experiments/gpt2_wikitext/score_logra.py:713`). -/
inductive Kids (α : Type) where
  | nil
  | cons (name : String) (m : Mod α) (rest : Kids α)
end

variable {α : Type}

/-- The identity of a module (`experiments/gpt2_wikitext/score_logra.py:713`). -/
def Mod.ident : Mod α → Id
  | .conv i _ _ _ _ => i
  | .linear i _ _ _ _ => i
  | .leaf i _ => i
  | .node i _ => i

/-- `isinstance(module, Conv1D)` (`experiments/gpt2_wikitext/score_logra.py:717`). -/
def Mod.isConv : Mod α → Bool
  | .conv _ _ _ _ _ => true
  | _ => false

/-- `isinstance(module, nn.Linear)` (`experiments/gpt2_wikitext/score_logra.py:639`). -/
def Mod.isLinear : Mod α → Bool
  | .linear _ _ _ _ _ => true
  | _ => false

/-- `isinstance(module, nn.LayerNorm)` (`experiments/gpt2_wikitext/score_logra.py:640`). -/
def Mod.isNorm : Mod α → Bool
  | .leaf _ .layerNorm => true
  | _ => false

/-- `isinstance(module, nn.Embedding)` (`experiments/gpt2_wikitext/score_logra.py:641`). -/
def Mod.isEmbedding : Mod α → Bool
  | .leaf _ .embedding => true
  | _ => false

mutual
/-- The effect of `replace_conv1d_modules(module)` on a module: it changes the
children in place, and a module without children stays what it is
(`experiments/gpt2_wikitext/score_logra.py:713-725`,
`examples/pretrained_benchmark/logra_wikitext2_gpt2_lds.py:35-47`). -/
def replace : Mod α → Mod α
  | .node i kids => .node i (replaceKids i [] kids)
  | .conv i r c w b => .conv i r c w b
  | .linear i r c w b => .linear i r c w b
  | .leaf i k => .leaf i k
/-- The loop over `model.named_children()`: `p` is the identity of `model`,
`seen` the identities met so far, which `named_children` does not yield a second
time.  A Conv1D with weight of shape (in, out) becomes a Linear with weight of
shape (out, in).  A module with children is changed in place, which is visible
under every name it has
(`experiments/gpt2_wikitext/score_logra.py:713-724`,
`examples/pretrained_benchmark/logra_wikitext2_gpt2_lds.py:35-46`). -/
def replaceKids (p : Id) (seen : List Id) : Kids α → Kids α
  | .nil => .nil
  | .cons name m rest =>
      .cons name
        (match m with
          | .conv i r c w b =>
              if i ∈ seen then .conv i r c w b
              else .linear (.fresh p name) c r (fun o k => w k o) b
          | .linear i r c w b => .linear i r c w b
          | .leaf i k => .leaf i k
          | .node i kids => .node i (replaceKids i [] kids))
        (replaceKids p (seen ++ [m.ident]) rest)
end

/-- The name of a child in `named_modules`: prefix, a dot unless the prefix is
empty, and the registered name (`experiments/gpt2_wikitext/score_logra.py:637`). -/
def join (pre name : String) : String :=
  if pre = "" then name else pre ++ "." ++ name

mutual
/-- `named_modules()`: preorder walk that skips every module already in the memo;
the memo is returned as well (`experiments/gpt2_wikitext/score_logra.py:637, 645`). -/
def walk (memo : List Id) (pre : String) : Mod α → List Id × List (String × Mod α)
  | .conv i r c w b =>
      if i ∈ memo then (memo, []) else (memo ++ [i], [(pre, .conv i r c w b)])
  | .linear i r c w b =>
      if i ∈ memo then (memo, []) else (memo ++ [i], [(pre, .linear i r c w b)])
  | .leaf i k =>
      if i ∈ memo then (memo, []) else (memo ++ [i], [(pre, .leaf i k)])
  | .node i kids =>
      if i ∈ memo then (memo, [])
      else
        ((walkKids (memo ++ [i]) pre kids).1,
          (pre, .node i kids) :: (walkKids (memo ++ [i]) pre kids).2)
/-- The loop of `named_modules()` over the children of one module
(`experiments/gpt2_wikitext/score_logra.py:637, 645`). -/
def walkKids (memo : List Id) (pre : String) : Kids α → List Id × List (String × Mod α)
  | .nil => (memo, [])
  | .cons name m rest =>
      ((walkKids (walk memo (join pre name) m).1 pre rest).1,
        (walk memo (join pre name) m).2 ++
          (walkKids (walk memo (join pre name) m).1 pre rest).2)
end

/-- What `find_layers` returns (`experiments/gpt2_wikitext/score_logra.py:692-697`). -/
inductive Out (α : Type) where
  | instances (l : List (Mod α))
  | names (l : List String)
  | pairs (l : List (String × Mod α))

/-- The layers kept for one `layer_type`
(`experiments/gpt2_wikitext/score_logra.py:654-675` and, for instances, `:677-690`). -/
def select (layerType : String) (l : List (String × Mod α)) :
    Except Err (List (String × Mod α)) :=
  if layerType = "Linear" then .ok (l.filter fun x => x.2.isLinear)
  else if layerType = "Linear_LayerNorm" then
    .ok (l.filter fun x => x.2.isLinear || x.2.isNorm)
  else if layerType = "LayerNorm" then .ok (l.filter fun x => x.2.isNorm)
  else .error .valueError

/-- `find_layers` (`experiments/gpt2_wikitext/score_logra.py:620-701`).
Simplified: the branch for instances walks `modules()`, which is `named_modules()`
without the names; the model keeps the names until the end. -/
def findLayers (m : Mod α) (layerType returnType : String) : Except Err (Out α) :=
  match select layerType
      ((walk [] "" m).2.filter fun x => x.2.isLinear || x.2.isNorm || x.2.isEmbedding) with
  | .error e => .error e
  | .ok l =>
      if returnType = "instance" then .ok (.instances (l.map Prod.snd))
      else if returnType = "name" then .ok (.names (l.map Prod.fst))
      else if returnType = "name_instance" then .ok (.pairs l)
      else .error .valueError

end Verif.Conv1D
