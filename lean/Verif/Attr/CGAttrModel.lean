import Verif.Attr.DerivModel
import Verif.Hessian.CGModel

/-!
# `IFAttributorCG` of a task (`dattri/algorithm/influence_function.py:176-275`)

The Hessian-vector product of `ihvp_cg` is that of the regularised Hessian in both modes (C133, a loss of one argument). Simplifications as in `DerivModel`; a division by
zero makes the whole vector non-finite, modelled as `none`.
-/

namespace Verif.Attr

open Verif.Hessian

variable {X C : Type} {p : ℕ}

/-- `IFAttributorCG.transform_test_rep` (influence_function.py:223-275) for one test representation: the sum over the cached batches; one non-finite summand makes the sum
non-finite. -/
noncomputable def cgTransTest (hess : C → List X → Matrix (Fin p) (Fin p) ℝ) (maxIter : ℕ) (tol reg : ℝ) (c : C) (full : Loader X) (v : Fin p → ℝ) :
    Except Err (Option (Fin p → ℝ)) :=
  (List.range full.nb).foldlM (fun acc b =>
    if !full.supported then .error .typeError
    else
      let u := ihvpCG (hess c (full.batch b) + reg • (1 : Matrix (Fin p) (Fin p) ℝ)) maxIter tol v
      .ok (acc.bind fun a => u.map fun u => a + u)) (some 0)

/-- `IFAttributorCG` of a task with this loss function and target function (task.py:139-158, influence_function.py:176-275). The total interface `Sub` has `0` where the
transformation raises or is not finite; the theorems assume that it is finite. The `relatif` part is not modelled here (`methodOk = false`). -/
noncomputable def cgTaskSub (loss : (Fin p → ℝ) → List X → ℝ) (target : (Fin p → ℝ) → X → ℝ) (maxIter : ℕ) (tol reg : ℝ) : Sub ℝ X (Fin p → ℝ) p p where
  genTrain := fun θ x => gradAt (fun t => loss t [x]) θ
  genTest := fun θ y => gradAt (fun t => target t y) θ
  transTrain := fun _ v => v
  transTest := fun θ full v => match cgTransTest (fun θ b => hessAt (fun t => loss t b) θ) maxIter tol reg θ full v with
    | .ok (some u) => u
    | _ => 0
  methodOk := fun _ => false
  denom := fun _ _ _ _ _ => 1

end Verif.Attr
