import Verif.Attr.IFModel
import Mathlib.Analysis.Real.Sqrt

/-!
# Model of the relative-influence denominators (`dattri/algorithm/influence_function.py`)

`IFAttributorExplicit`, `IFAttributorCG` and `IFAttributorLiSSA` have the same `_compute_denom`. Simplifications: real arithmetic; the
per-batch solver is a function of checkpoint, batch and vector (for LiSSA this fixes the random draws).
-/

namespace Verif.Attr

open Matrix

variable {X C : Type} {p : Nat}

/-- `_compute_denom` for one training sample (influence_function.py:134-174, 277-317, 608-648). The training representation is
transformed first, then the method is looked at: `"l"` is `(test_rep * transformed).sum().clamp_min(1e-12).sqrt()`, `"theta"` is
`transformed.norm().clamp_min(1e-12)`, anything else raises. (`None * tensor` would raise a `TypeError`; `attribute` always passes the
second representation for `"l"`, base.py:375-381.) -/
noncomputable def computeDenom (solve : List X → (Fin p → ℝ) → Option (Fin p → ℝ)) (full : Loader X) (m : String) (gTrain : Fin p → ℝ)
    (gTest : Option (Fin p → ℝ)) : Except Err ℝ := do
  let t ← accumulate solve full gTrain
  if m = "l" then
    match gTest with
    | some g => .ok (Real.sqrt (max (∑ k, g k * t k) (10 ^ (-12 : ℤ))))
    | none => .error .typeError
  else if m = "theta" then .ok (max (Real.sqrt (∑ k, t k ^ 2)) (10 ^ (-12 : ℤ)))
  else .error .valueError

/-- The attributors as subclasses of the inner-product attributor (influence_function.py:50-174, 177-317, 489-648). The total interface
`Sub` takes `0` resp. `1` where the solver raises; the theorems using it assume that it does not. -/
noncomputable def relSub (gTrain gTest : C → X → Fin p → ℝ) (solve : C → List X → (Fin p → ℝ) → Option (Fin p → ℝ)) : Sub ℝ X C p p where
  genTrain := gTrain
  genTest := gTest
  transTrain := fun _ v => v
  transTest := fun c full v => match accumulate (solve c) full v with | .ok u => u | .error _ => 0
  methodOk := fun m => m == "l" || m == "theta"
  denom := fun c full m g g' => match computeDenom (solve c) full m g g' with | .ok r => r | .error _ => 1

/-- Subclasses that keep the `_compute_denom` of the base class (base.py:258-288: a vector of ones for every method string):
`IFAttributorArnoldi`, `IFAttributorDataInf` and `IFAttributorEKFAC`. -/
def plainSub {R : Type} [Field R] {d : Nat} (gTrain gTest : C → X → Fin p → R) (tTrain : C → (Fin p → R) → Fin d → R)
    (tTest : C → Loader X → (Fin p → R) → Fin d → R) : Sub R X C p d where
  genTrain := gTrain
  genTest := gTest
  transTrain := tTrain
  transTest := tTest
  methodOk := fun _ => true
  denom := fun _ _ _ _ _ => 1

end Verif.Attr
