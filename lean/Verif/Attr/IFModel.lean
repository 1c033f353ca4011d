import Verif.Attr.Model
import Mathlib.LinearAlgebra.Matrix.NonsingularInverse

/-!
# Model of the influence-function subclasses (`dattri/algorithm/influence_function.py`)
-/

namespace Verif.Attr

open Matrix

variable {R X C : Type} {p : Nat}

/-- `torch.linalg.solve(A, v)`: raises (`none`) on a singular matrix. -/
noncomputable def linSolve [Field R] (A : Matrix (Fin p) (Fin p) R) (v : Fin p → R) : Option (Fin p → R) :=
  open Classical in if A.det = 0 then none else some (A⁻¹ *ᵥ v)

/-- `ihvp_explicit` (hessian.py:224-272): solve with `H + regularization * I`. -/
noncomputable def ihvpExplicit [Field R] (H : Matrix (Fin p) (Fin p) R) (reg : R) (v : Fin p → R) : Option (Fin p → R) :=
  linSolve (H + reg • (1 : Matrix (Fin p) (Fin p) R)) v

/-- The accumulation `vector_product = 0; for batch in full_train_dataloader: vector_product += ihvp(batch)(v)` shared by
`IFAttributorExplicit` (influence_function.py:81-132), `IFAttributorCG` (223-275) and `IFAttributorLiSSA` (538-589); `solve`
is the per-batch solver. -/
def accumulate [Field R] (solve : List X → (Fin p → R) → Option (Fin p → R)) (full : Loader X) (v : Fin p → R) :
    Except Err (Fin p → R) :=
  (List.range full.nb).foldlM (fun acc b =>
    if !full.supported then .error .typeError
    else match solve (full.batch b) v with
      | some u => .ok (acc + u)
      | none => .error .runtimeError) 0

/-- `IFAttributorExplicit.transform_test_rep` (influence_function.py:81-132); `hess c batch` is the Hessian of the batch loss at
checkpoint `c`. -/
noncomputable def explicitTransTest [Field R] (hess : C → List X → Matrix (Fin p) (Fin p) R) (reg : R) (c : C) (full : Loader X)
    (v : Fin p → R) : Except Err (Fin p → R) :=
  accumulate (fun batch v => ihvpExplicit (hess c batch) reg v) full v

/-- `IFAttributorExplicit` as a subclass of the inner-product attributor. The total interface `Sub` returns `0` where the solver
raises; the theorems using it assume nonsingular batches. The `relatif` part is not modelled here (`methodOk = false`). -/
noncomputable def explicitSub [Field R] (gTrain gTest : C → X → Fin p → R) (hess : C → List X → Matrix (Fin p) (Fin p) R)
    (reg : R) : Sub R X C p p where
  genTrain := gTrain
  genTest := gTest
  transTrain := fun _ v => v
  transTest := fun c full v => match explicitTransTest hess reg c full v with | .ok u => u | .error _ => 0
  methodOk := fun _ => false
  denom := fun _ _ _ _ _ => 1

end Verif.Attr
