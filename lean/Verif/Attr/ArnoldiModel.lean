import Verif.Attr.RelatifModel
import Verif.Projection.ArnoldiProjModel
import Mathlib.Algebra.Order.Floor.Ring
import Mathlib.Data.Rat.Floor

/-!
# Model of `IFAttributorArnoldi` (`dattri/algorithm/influence_function.py:320-486`)

Simplifications: `precompute_data_ratio` is a rational, products with it are exact. A projector is determined by its checkpoint and the
data its loss function was closed over; it is evaluated at its first use (`func/projection.py:1054-1056`), always from the same start
vector because the seed is set before drawing it (projection.py:1013-1016).
-/

namespace Verif.Attr

open Matrix Verif.Hessian Verif.Projection

variable {X C : Type} {p : Nat}

/-- What a batch of the loader is. -/
inductive Kind
  | list
  | tuple
  | dict
  deriving DecidableEq

/-- State of the attributor: the full loader and, once `cache` has begun, for each projector the samples it was built on. -/
structure ASt (X : Type) where
  full : Option (Loader X)
  projs : Option (List (List X))

/-- The batches drawn by `cache` (influence_function.py:385-391): `ceil(len(loader) * ratio)` calls of `next`, fewer if the loader ends.
A negative number of iterations is none. -/
def drawn (ratio : ℚ) (full : Loader X) : List (List X) :=
  ((List.range full.nb).map full.batch).take (⌈(full.nb : ℚ) * ratio⌉).toNat

/-- `cache` (influence_function.py:372-432) of an attributor with `k` checkpoints. The loader and an empty list of projectors are stored
first. `data_target_pair_list[0]` fails on an empty list; then the batches are concatenated by assigning to the positions `0, 1, ...`
of the first one, which fails for dictionaries (`KeyError`; batches with string keys) and tuples. A tuple or dictionary fails even if
it is the only batch (lines 406-409). -/
def acache (ratio : ℚ) (k : Nat) (kind : Kind) (full : Loader X) (_ : ASt X) : ASt X × Except Err Unit :=
  match drawn ratio full with
  | [] => (⟨some full, some []⟩, .error .indexError)
  | b :: bs =>
    match kind with
    | .tuple => (⟨some full, some []⟩, .error .typeError)
    | .dict => (⟨some full, some []⟩, .error .keyError)
    | .list =>
      let data := bs.foldl (fun acc b => acc ++ b) b
      (⟨some full, some (List.replicate k data)⟩, .ok ())

/-- The constants of an Arnoldi attributor (influence_function.py:323-370) with the numerical parts it uses: `hess c data` is the Hessian
of the loss on `data` at checkpoint `c` (without regularisation), `start` the seeded random vector, `eigh` the eigenpairs of the
symmetrised matrix of an Arnoldi run, sorted by absolute value. -/
structure ACfg (X C : Type) (p : Nat) where
  gTrain : C → X → Fin p → ℝ
  gTest : C → X → Fin p → ℝ
  hess : C → List X → Matrix (Fin p) (Fin p) ℝ
  start : Fin p → ℝ
  eigh : Arn p → List (ℝ × (Nat → ℝ))
  projDim : Nat
  maxIter : Nat
  normConst : ℝ
  tol : ℝ
  reg : ℝ

/-- A projector applied to one row (influence_function.py:413-432, 459, 486; func/projection.py:1236-1268, 1054-1064). Simplification: the
columns `0 .. proj_dim - 1`; missing columns and non-finite entries are `0` here, the theorems assume that all entries are finite. A
projector of dimension 0 (which keeps all eigenpairs) is not covered. -/
noncomputable def ACfg.project (g : ACfg X C p) (c : C) (data : List X) (v : Fin p → ℝ) : Fin g.projDim → ℝ :=
  match arnoldi (g.hess c data + g.reg • (1 : Matrix (Fin p) (Fin p) ℝ)) g.start g.maxIter g.normConst g.tol with
  | .ok (some out) => fun k => (((eigenspace out g.projDim g.tol (g.eigh out)).project v).getD k.1 none).getD 0
  | _ => fun _ => 0

/-- The subclass at one checkpoint whose projector was built on `data`; `_compute_denom` is the one of the base class. -/
noncomputable def ACfg.sub (g : ACfg X C p) (data : List X) : Sub ℝ X C p g.projDim :=
  plainSub g.gTrain g.gTest (fun c => g.project c data) (fun c _ => g.project c data)

/-- `attribute` (base.py:321-452 with influence_function.py:434-486): as in `attributeLoop`, the first training batch of a checkpoint needs
its projector: `ValueError` before any `cache`, `IndexError` if the list of projectors is too short. -/
noncomputable def aattribute (g : ACfg X C p) (ckpts : List C) (st : ASt X) (m : Option String) (tr te : Loader X) :
    ASt X × Except Err (Mat ℝ) :=
  let full := st.full.getD tr
  (⟨some full, st.projs⟩,
    ckpts.zipIdx.foldlM (fun M ci => do
      let M := Mat.scale M (ci.2 : ℝ)
      let M ←
        if tr.nb = 0 then pure M
        else if !tr.supported then .error .typeError
        else match st.projs with
          | none => .error .valueError
          | some l => match l[ci.2]? with
            | none => .error .indexError
            | some data => trainLoop (g.sub data) full ci.1 m tr te M
      pure (Mat.divBy M ((ci.2 + 1 : Nat) : ℝ))) (Mat.zeros tr.data.length te.data.length))

end Verif.Attr
