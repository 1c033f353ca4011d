import Verif.Attr.Model
import Verif.TracIn.Model
import Verif.Base.DropLoader

/-!
# `BaseInnerProductAttributor.attribute` and `TracInAttributor.attribute` with loaders that may use `drop_last`

Same simplifications as in `Verif/Attr/Model.lean` and `Verif/TracIn/Model.lean`; batches are tuples, lists or dicts. A subclass only
iterates over the full training loader (influence_function.py:236-238, 453-455, 676-678), so it is passed the samples that loader
yields.
-/

namespace Verif.Attr

variable {R X C : Type} {p d : Nat}

/-- Loop over train batches for one checkpoint (base.py:343-448). -/
def trainLoopD [Field R] (S : Sub R X C p d) (full : Loader X) (c : C) (m : Option String) (tr te : DLoader X)
    (M : Mat R) : Except Err (Mat R) :=
  if badMethod S m ∧ 0 < tr.nb then .error .valueError
  else pairLoopD tr te (block S full c m) M

/-- `attribute` of the inner-product attributor (base.py:290-452): the result has one row per sample of the train sampler and one column
per sample of the test sampler (334-337). `st` is the cached full loader. -/
def attributeD [Field R] (S : Sub R X C p d) (ckpts : List C) (st : Option (DLoader X)) (m : Option String)
    (tr te : DLoader X) : Except Err (Mat R) :=
  ckpts.zipIdx.foldlM (fun M ci => do
    let M := Mat.scale M (ci.2 : R)
    let M ← trainLoopD S (st.getD tr).seen ci.1 m tr te M
    pure (Mat.divBy M ((ci.2 + 1 : Nat) : R))) (Mat.zeros tr.data.length te.data.length)

end Verif.Attr

namespace Verif.TracIn

variable {X C : Type} {d : Nat}

/-- `TracInAttributor.attribute` (tracin.py:69-258). -/
noncomputable def attributeD (A : Attributor X C d) (tr te : DLoader X) : Except Err (Mat ℝ) :=
  if A.ckpts.length ≠ A.weights.length then .error .valueError
  else (A.ckpts.zip A.weights).foldlM (fun M cw => pairLoopD tr te (block A cw.1 cw.2) M)
    (Mat.zeros tr.data.length te.data.length)

end Verif.TracIn
