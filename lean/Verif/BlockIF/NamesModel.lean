import Verif.BlockIF.ConcatModel
import Verif.Compress.Model
import Verif.Hook.PassModel

/-!
# Caching with a given list of layer names

`/repo/dattri/algorithm/block_projected_if/block_projected_if.py` lines 158-185 and 208-300, with the set-up of the compressors
(`Compress/Model.lean`), the hooks (`Hook/PassModel.lean`) and the concatenated storage (`ConcatModel.lean`): which layer names make
`cache` work, and what is stored.

A module is named by its position in `named_modules()`.  The compressor of a layer is an arbitrary function of its seeds, its
input and its output gradient.  Simplified: setting up a layer norm is taken to succeed (its projector is tried on a sample,
compressor.py:773-778, and may raise for inputs with a sequence dimension).
-/

namespace Verif.BlockIF

open Verif Verif.Compress

variable {K X Y : Type} [Zero K]

/-- Which entry of the hook manager's lists the module at position `i` of the model writes to: only named linear layers are
wrapped, with the index `layer_name_to_idx[name]` (hook.py:237, 279-306). -/
def slot (net : List Module) (names : List String) (i : ℕ) : Option ℕ :=
  match net[i]? with
  | none => none
  | some m => if m.name ∈ names ∧ m.kind = .linear then some (indexOf names m.name) else none

/-- A use of a module as the hook manager sees it. -/
def toSlot {Z : Type} (net : List Module) (names : List String) (u : ℕ × Z) : Option (ℕ × Z) :=
  (slot net names u.1).map fun k => (k, u.2)

/-- A batch as the hook manager sees it: the uses of the wrapped modules (hook.py:79, 124-149). -/
def hooked (net : List Module) (names : List String) (b : Hook.Batch X Y) : Hook.Batch X Y :=
  ⟨b.fw.filterMap (toSlot net names), b.bw.filterMap (toSlot net names)⟩

/-- The dimension found for a layer on the first batch (block_projected_if.py:265-272): zero for `None`. -/
def foundDim : Option (Grad K) → ℕ
  | none => 0
  | some g => dimOf g

/-- The loop over the batches (block_projected_if.py:248-300) with in-memory storage: the dimensions are those of the first batch,
each batch is stored concatenated. -/
def namedLoop (comp : ℕ → Option (X → Y → Grad K)) (n : ℕ) : Hook.Cap X (Grad K) → Option (List ℕ) →
    List (Hook.Batch X Y) → Except Err (Option (List ℕ) × List (Grad K))
  | _, dims, [] => .ok (dims, [])
  | c, dims, b :: bs => do
    let c' ← Hook.pass comp c b
    let gs := (List.range n).map fun k : ℕ => c'.grads k
    let ds := dims.getD (gs.map foundDim)
    let t ← concat (some ds) gs
    let r ← namedLoop comp n c' (some ds) bs
    .ok (r.1, t.2 :: r.2)

/-- The compressors handed to the hook manager (block_projected_if.py:236-238): entry `k` if it was set up. -/
def compsOf (f : Seeds → X → Y → Grad K) (comps : List (Option Seeds)) (k : ℕ) : Option (X → Y → Grad K) :=
  (comps[k]?.join).map f

/-- The default `layer_names`: the linear layers, in the order of the model (block_projected_if.py:115-121). -/
def defaultNames (net : List Module) : List String := (net.filter fun m => m.kind = .linear).map Module.name

/-- `cache` up to the stored gradients (block_projected_if.py:158-185, 208-300). -/
def cacheNamed (net : List Module) (names : List String) (s p : ℤ) (f : Seeds → X → Y → Grad K) (bs : List (Hook.Batch X Y)) :
    Except Err (Option (List ℕ) × List (Grad K)) := do
  let comps ← setup net names s p
  namedLoop (compsOf f comps) names.length Hook.Cap.empty none (bs.map (hooked net names))

end Verif.BlockIF
