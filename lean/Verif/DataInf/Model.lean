import Verif.Base.Tensor
import Mathlib.Algebra.BigOperators.Fin
import Mathlib.Algebra.Field.Defs
import Mathlib.Data.Rat.Defs
import Mathlib.Data.Rat.Floor

/-!
# Model of `IFAttributorDataInf` (`dattri/algorithm/influence_function.py:651-852`)

Simplifications: exact field arithmetic; one test row at a time (the code treats the rows of the test batch independently, but the
number of rows is the chunk size used for the cached gradients). A division by zero gives a non-finite tensor entry, modelled as
`none`.
-/

namespace Verif.DataInf

variable {R X C : Type} {n : Nat}

/-- `ceil(len(loader) * ratio)` (influence_function.py:701-703). -/
def iterNumber (nb : Nat) (ratio : ℚ) : Nat := ⌈(nb : ℚ) * ratio⌉.toNat

/-- `cache` for one checkpoint (influence_function.py:699-735): every sampled BATCH gets an extra leading dimension
(`unsqueeze(0)`), so the vectorised gradient sees a single "sample" per batch and one representation per batch is stored.
`batchGrad` is that gradient. `torch.cat([])` raises when nothing was sampled. -/
def cacheReps {α : Type} (batchGrad : C → List X → α) (full : Loader X) (ratio : ℚ) (c : C) : Except Err (List α) := do
  let reps ← (List.range (min (iterNumber full.nb ratio) full.nb)).foldlM (fun acc b =>
    if !full.supported then .error .typeError else .ok (acc ++ [batchGrad c (full.batch b)])) ([] : List α)
  if reps.length = 0 then .error .runtimeError else pure reps

/-- `_transform_single_test_rep` (influence_function.py:755-784): `coef = v·g / (r + ‖g‖²)`, result `(v - coef g) / r`. -/
def single [Field R] [DecidableEq R] (v g : Fin n → R) (r : R) : Option (Fin n → R) :=
  let den := r + ∑ k, g k ^ 2
  if den = 0 ∨ r = 0 then none
  else some (fun k => (v k - (∑ k, v k * g k) / den * g k) / r)

/-- `grad_layer.split(batch_size, dim=0)`. -/
def split {α : Type} (bs : Nat) (l : List α) : List (List α) := batches bs l

/-- The per-layer loop (influence_function.py:798-820): sum the contributions chunk by chunk, then divide by the number of cached
gradients. `regularization = None` means `0.1` (line 809). Without cached gradients the code would divide by zero, but `cacheReps` never stores an empty
list. -/
def transformLayer [Field R] [DecidableEq R] (tenth : R) (bs : Nat) (grads : List (Fin n → R)) (reg : Option R) (v : Fin n → R) :
    Option (Fin n → R) := do
  let r := reg.getD tenth
  let total ← (split bs grads).foldlM (fun acc chunk => do
    let parts ← chunk.mapM (fun g => single v g r)
    pure (acc + parts.sum)) (0 : Fin n → R)
  pure (fun k => total k / (grads.length : R))

/-- `split_index` (influence_function.py:844-846): total size of each layer of the map. -/
def layerSizes (paramSizes map : List Nat) : List Nat :=
  (List.range (map.getLastD 0 + 1)).map (fun l => ((paramSizes.zip map).filterMap (fun pm => if pm.2 = l then some pm.1 else none)).sum)

/-- Number of columns of the slice `query[:, off : off + size]` of a query with `D` columns. -/
def sliceLen (D off size : Nat) : Nat := min (off + size) D - min off D

/-- The slice `query[off : off + size]` of one row (influence_function.py:850). -/
def slice {D : Nat} (q : Fin D → R) (off size : Nat) : Fin (sliceLen D off size) → R :=
  fun k => q ⟨off + k, by have := k.2; unfold sliceLen at this; omega⟩

/-- `transform_test_rep` of one row (influence_function.py:786-821): per layer slice, transform, concatenate. -/
def transform [Field R] [DecidableEq R] (tenth : R) {D : Nat} (bs : Nat) (sizes : List Nat) (grads : List (Fin D → R))
    (reg : Option R) (v : Fin D → R) : Option (List R) := do
  let parts ← (List.range sizes.length).mapM (fun l =>
    let off := (sizes.take l).sum
    let size := sizes.getD l 0
    (transformLayer tenth bs (grads.map (fun g => slice g off size)) reg (slice v off size)).map List.ofFn)
  pure parts.flatten

end Verif.DataInf
