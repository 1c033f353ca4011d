import Verif.EKFAC.Model

/-!
# EK-FAC with several modules (`IFAttributorEKFAC`, `dattri/algorithm/influence_function.py`)

Simplifications: the modules are linear layers, given by name, sizes and whether they have a bias; a module has one name and is requested
once; one row of the representation at a time
(all operations act row by row).
-/

namespace Verif.EKFAC

open Matrix

variable {R : Type}

/-- A linear layer: `q` outputs, `p` inputs. -/
structure Lin where
  name : String
  q : ℕ
  p : ℕ
  bias : Bool
  deriving DecidableEq

/-- Columns of the matrix of a layer, with the column of ones for a bias (influence_function.py:975-982, 1070-1082). -/
def Lin.cols (m : Lin) : ℕ := if m.bias then m.p + 1 else m.p

/-- A parameter: `(name, false)` for `name + ".weight"`, `(name, true)` for `name + ".bias"`. -/
abbrev Param := String × Bool

/-- The entries of `layer_name` for a module, with their numbers of elements (influence_function.py:920-925, 1054-1060). -/
def Lin.params (m : Lin) : List (Param × ℕ) :=
  if m.bias then [((m.name, false), m.q * m.p), ((m.name, true), m.q)] else [((m.name, false), m.q * m.p)]

/-- `layer_test_rep[name] = test_rep[:, current_index : current_index + size]` in the order of the names; a later assignment to a key replaces an earlier one
(influence_function.py:1057-1065). -/
def slices : List (Param × ℕ) → List R → (Param → Option (List R))
  | [], _ => fun _ => none
  | (k, n) :: ks, v => fun k' => match slices ks (v.drop n) k' with
    | some x => some x
    | none => if k' = k then some (v.take n) else none

/-- Eigenvectors and eigenvalues stored for a layer (influence_function.py:1007-1017). -/
structure Stats (R : Type) (q c : ℕ) where
  qa : Matrix (Fin c) (Fin c) R
  qs : Matrix (Fin q) (Fin q) R
  lam : Matrix (Fin q) (Fin c) R

/-- `reshape(-1, dim_out, dim_in)` of one row (influence_function.py:1080; without bias the shape of the weight, 1062-1064). -/
def toMat [Zero R] (q c : ℕ) (v : List R) : Matrix (Fin q) (Fin c) R := fun i j => v.getD (i.1 * c + j.1) 0

/-- One module in the loop of `transform_test_rep` (influence_function.py:1069-1088): missing statistics raise `KeyError`; `none` for non-finite numbers. -/
def moduleStep [Field R] [DecidableEq R] (cached : (m : Lin) → Option (Stats R m.q m.cols)) (damping : R) (rep : Param → Option (List R)) (m : Lin) :
    Except Err (Option (List R)) :=
  match rep (m.name, false), (if m.bias then rep (m.name, true) else some []) with
  | some w, some b =>
    match cached m with
    | none => .error .keyError
    | some s => .ok ((ifvp s.qa s.qs s.lam damping (toMat m.q m.cols (w ++ b))).map fun x => flat (fun i j => x i j))
  | _, _ => .error .keyError

/-- `torch.cat` of the transformed layers; a non-finite part makes the row non-finite. -/
def catParts : List (Option (List R)) → Option (List R)
  | [] => some []
  | x :: xs => match x, catParts xs with
    | some a, some b => some (a ++ b)
    | _, _ => none

/-- `transform_test_rep` for one row and the only checkpoint (influence_function.py:1050-1093): `trainable` tells which parameters require gradients (1051-1056: `KeyError`
for others). -/
def transformRow [Field R] [DecidableEq R] (trainable : Param → Bool) (cached : (m : Lin) → Option (Stats R m.q m.cols)) (damping : R) (mods : List Lin) (v : List R) :
    Except Err (Option (List R)) := do
  let keys := mods.flatMap Lin.params
  if keys.all fun k => trainable k.1 then
    let parts ← mods.mapM (moduleStep cached damping (slices keys v))
    pure (catParts parts)
  else .error .keyError

/-- The entry of the result for a training row `u` and a test row `v`: `train_batch_rep @ test_batch_rep.T` (base.py:445-449). -/
def score [Field R] [DecidableEq R] (trainable : Param → Bool) (cached : (m : Lin) → Option (Stats R m.q m.cols)) (damping : R) (mods : List Lin) (u v : List R) :
    Except Err (Option R) := do
  let t ← transformRow trainable cached damping mods v
  pure (t.map fun t => (List.zipWith (· * ·) u t).sum)

end Verif.EKFAC
