import Verif.DataInf.Model
import Verif.Task.LayerMapModel

/-! # DataInf with `layer_name` (`dattri/algorithm/influence_function.py:737-852`)

The representations have one column per entry of the selected parameters, but `_get_layer_wise_reps` asks for the parameters of
the whole model. -/

namespace Verif.DataInf

/-- The names and sizes of parameters give the sizes of the blocks, influence_function.py:840-846 with task.py:437-451. -/
def blockSizes (named : List (List Char × ℕ)) : List ℕ :=
  layerSizes (named.map (·.2)) ((Verif.Task.genMap (named.map (·.1))).map Int.toNat)

/-- Number of columns of a representation: the entries of the parameters selected by `layer_name`. -/
def width (named : List (List Char × ℕ)) (arg : Verif.Task.LayerArg) : ℕ :=
  ((Verif.Task.selectParams named arg).map (·.2)).sum

/-- `transform_test_rep` of one row, influence_function.py:786-821: the blocks are those of the whole model, whatever `layer_name`
is (lines 840-843 do not pass it on).  The model has at least one parameter. -/
def transformNamed {R : Type} [Field R] [DecidableEq R] (tenth : R) (bs : ℕ) (named : List (List Char × ℕ)) (arg : Verif.Task.LayerArg)
    (grads : List (Fin (width named arg) → R)) (reg : Option R) (v : Fin (width named arg) → R) : Option (List R) :=
  transform tenth bs (blockSizes named) grads reg v

end Verif.DataInf
