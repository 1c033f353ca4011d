import Verif.Base.Tensor
import Mathlib.Data.Rat.Defs
import Mathlib.Data.List.Basic
import Mathlib.Data.List.Infix

/-!
# Loading pretrained GPT-2 weights (`dattri/benchmark/models/nanoGPT/model.py`, `GPT.from_pretrained`)

The entries of a state dict are views of the tensors of the model, and the token embedding and the output layer share one tensor (model.py:138), so the state dict
maps names to places and the model is a heap of tensors.  Simplifications: rational entries; the model made from the configuration and the downloaded state dict are
given; printing is left out.
-/

namespace Verif.Pretrained

/-- A tensor: its shape and its entries. -/
structure Tens where
  shape : List ℕ
  val : List ℕ → ℚ

/-- `t.t()` for tensors with at most two axes (model.py:260). -/
def Tens.t (a : Tens) : Tens := ⟨a.shape.reverse, fun idx => a.val idx.reverse⟩

/-- `k.endswith(w)`. -/
def endsWith (k w : String) : Bool := w.toList.isSuffixOf k.toList

/-- The weights that are transposed (model.py:251). -/
def transposed : List String := ["attn.c_attn.weight", "attn.c_proj.weight", "mlp.c_fc.weight", "mlp.c_proj.weight"]

/-- `any(k.endswith(w) for w in transposed)` (model.py:256). -/
def isTransposed (k : String) : Bool := transposed.any (endsWith k)

/-- The model: names with their places, in order, and the tensors. -/
structure Net where
  keys : List (String × ℕ)
  heap : ℕ → Tens

/-- `sd_keys` (model.py:240-241). -/
def ownKeys (net : Net) : List (String × ℕ) := net.keys.filter fun k => !endsWith k.1 ".attn.bias"

/-- The entries behind `sd_keys_hf` (model.py:248-250). -/
def hfKeys (hf : List (String × Tens)) : List (String × Tens) :=
  (hf.filter fun k => !endsWith k.1 ".attn.masked_bias").filter fun k => !endsWith k.1 ".attn.bias"

/-- One turn of the loop (model.py:255-265). -/
def copyStep (keys : List (String × ℕ)) (heap : ℕ → Tens) (k : String × Tens) : Except Err (ℕ → Tens) :=
  match keys.lookup k.1 with
  | none => .error .keyError
  | some a =>
    if isTransposed k.1 then
      if k.2.shape.reverse = (heap a).shape then
        if k.2.shape.length ≤ 2 then .ok (Function.update heap a k.2.t) else .error .runtimeError
      else .error .assertionError
    else if k.2.shape = (heap a).shape then .ok (Function.update heap a k.2)
    else .error .assertionError

/-- `from_pretrained` after the model was made (model.py:239-267). -/
def load (net : Net) (hf : List (String × Tens)) : Except Err Net := do
  if (hfKeys hf).length ≠ (ownKeys net).length then throw .assertionError
  let heap ← (hfKeys hf).foldlM (copyStep net.keys) net.heap
  pure ⟨net.keys, heap⟩

/-- Layers, heads and width for a model type (model.py:214, 222-227). -/
def config (modelType : String) : Except Err (ℕ × ℕ × ℕ) :=
  if modelType = "gpt2" then .ok (12, 12, 768)
  else if modelType = "gpt2-medium" then .ok (24, 16, 1024)
  else if modelType = "gpt2-large" then .ok (36, 20, 1280)
  else if modelType = "gpt2-xl" then .ok (48, 25, 1600)
  else .error .assertionError

end Verif.Pretrained
