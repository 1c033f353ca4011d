import Verif.Base.Tensor
import Mathlib.Algebra.BigOperators.Group.Finset.Basic
import Mathlib.Algebra.Field.Defs
import Mathlib.Data.Fintype.Basic

/-!
# Model of `BaseInnerProductAttributor` (`dattri/algorithm/base.py`)

Simplifications: exact field arithmetic; representation functions act sample by sample (they are `vmap`s over the batch), so a
batch representation is the list of sample representations. The shuffle check (`algorithm/utils.py:17-29`) only warns and is
omitted. Devices are ignored.
-/

namespace Verif.Attr

variable {R X C : Type} {p d : Nat}

/-- What a subclass of `BaseInnerProductAttributor` supplies (base.py:122-288): initial and transformed representations and the
`relatif` denominator, all row-wise. `transTest` and `denom` may consult the full training loader. `methodOk` says whether
`_compute_denom` accepts the method string (influence_function.py:171-173 raises `ValueError` otherwise). -/
structure Sub (R X C : Type) (p d : Nat) where
  genTrain : C → X → Fin p → R
  genTest : C → X → Fin p → R
  transTrain : C → (Fin p → R) → Fin d → R
  transTest : C → Loader X → (Fin p → R) → Fin d → R
  methodOk : String → Bool
  denom : C → Loader X → String → (Fin p → R) → Option (Fin p → R) → R

/-- Inner product of two rows (`@` with a transpose, base.py:445-447; `einsum("ij,ij->i")`, base.py:575-578). -/
def dot [AddCommMonoid R] [Mul R] (u v : Fin d → R) : R := ∑ k, u k * v k

/-- The denominator for one training sample (base.py:373-387): the second representation is only computed for method `"l"`. -/
def denomOf (S : Sub R X C p d) (full : Loader X) (c : C) (m : String) (x : X) : R :=
  S.denom c full m (S.genTrain c x) (if m = "l" then some (S.genTest c x) else none)

/-- Block written for one (train batch, test batch) pair (base.py:368-371, 389-393, 421-429, 444-448). -/
def block [Field R] (S : Sub R X C p d) (full : Loader X) (c : C) (m : Option String) (trb teb : List X) : Mat R :=
  ⟨trb.length, teb.length, fun i j => match trb[i]?, teb[j]? with
    | some x, some y =>
      let v := dot (S.transTrain c (S.genTrain c x)) (S.transTest c full (S.genTest c y))
      match m with
      | none => v
      | some m => v / denomOf S full c m x
    | _, _ => 0⟩

/-- Multiply every entry (`tda_output *= c`, base.py:342) resp. divide (`tda_output /= c`, base.py:450). -/
def Mat.scale [Mul R] (M : Mat R) (a : R) : Mat R := ⟨M.r, M.c, fun i j => M.f i j * a⟩
def Mat.divBy [Div R] (M : Mat R) (a : R) : Mat R := ⟨M.r, M.c, fun i j => M.f i j / a⟩

/-- Loop over test batches (base.py:395-448). -/
def testLoop [Field R] (S : Sub R X C p d) (full : Loader X) (c : C) (m : Option String) (tr te : Loader X) (b : Nat)
    (M : Mat R) : Except Err (Mat R) :=
  (List.range te.nb).foldlM (fun M t =>
    if !te.supported then .error .typeError
    else liftO (M.addBlock (b * tr.bs) (min ((b + 1) * tr.bs) tr.data.length)
      (t * te.bs) (min ((t + 1) * te.bs) te.data.length) (block S full c m (tr.batch b) (te.batch t)))) M

/-- A `relatif` method string that `_compute_denom` rejects. -/
def badMethod (S : Sub R X C p d) : Option String → Bool
  | some m => !S.methodOk m
  | none => false

/-- Loop over train batches for one checkpoint (base.py:343-448). -/
def trainLoop [Field R] (S : Sub R X C p d) (full : Loader X) (c : C) (m : Option String) (tr te : Loader X)
    (M : Mat R) : Except Err (Mat R) :=
  (List.range tr.nb).foldlM (fun M b =>
    if !tr.supported then .error .typeError
    else if badMethod S m then .error .valueError
    else testLoop S full c m tr te b M) M

/-- Body of `attribute` once the full loader is fixed (base.py:334-452): running average over checkpoints. -/
def attributeLoop [Field R] (S : Sub R X C p d) (full : Loader X) (ckpts : List C) (m : Option String)
    (tr te : Loader X) : Except Err (Mat R) :=
  ckpts.zipIdx.foldlM (fun M ci => do
    let M := Mat.scale M (ci.2 : R)
    let M ← trainLoop S full ci.1 m tr te M
    pure (Mat.divBy M ((ci.2 + 1 : Nat) : R))) (Mat.zeros tr.data.length te.data.length)

/-- `attribute` on the attributor's mutable state, the cached full loader (base.py:290-452, the assignment is 322-323). -/
def attribute' [Field R] (S : Sub R X C p d) (ckpts : List C) (st : Option (Loader X)) (m : Option String)
    (tr te : Loader X) : Option (Loader X) × Except Err (Mat R) :=
  let full := st.getD tr
  (some full, attributeLoop S full ckpts m tr te)

/-- `cache` (base.py:243-256). -/
def cache (_st : Option (Loader X)) (full : Loader X) : Option (Loader X) := some full

/-- Inner body of `self_attribute` for one train batch (base.py:509-584). With a `relatif` method the quotient
`einsum(...) / denom.unsqueeze(-1)` is a `(b,b)` matrix, and adding a 2-D tensor in place to the 1-D output raises for every
`b ≥ 1` (PyTorch: output shape `[n]` does not match broadcast shape). -/
def selfBatch [Field R] (S : Sub R X C p d) (full : Loader X) (c : C) (m : Option String) (tr : Loader X) (b : Nat)
    (v : Vec R) : Except Err (Vec R) :=
  if !tr.supported then .error .typeError
  else match m with
  | some m => if !S.methodOk m then .error .valueError else .error .runtimeError
  | none =>
    let batch := tr.batch b
    liftO (v.addIn ⟨batch.length, fun i => match batch[i]? with
      | some x => dot (S.transTrain c (S.genTrain c x)) (S.transTest c full (S.genTest c x))
      | none => 0⟩)

/-- Body of `self_attribute` (base.py:496-589). -/
def selfLoop [Field R] (S : Sub R X C p d) (full : Loader X) (ckpts : List C) (m : Option String) (tr : Loader X) :
    Except Err (Vec R) :=
  ckpts.zipIdx.foldlM (fun v ci => do
    let v : Vec R := ⟨v.n, fun i => v.f i * (ci.2 : R)⟩
    let v ← (List.range tr.nb).foldlM (fun v b => selfBatch S full ci.1 m tr b v) v
    pure (⟨v.n, fun i => v.f i / ((ci.2 + 1 : Nat) : R)⟩ : Vec R)) ⟨tr.data.length, fun _ => 0⟩

/-- `self_attribute` on the attributor's state (base.py:454-589, the assignment is 484-485). -/
def selfAttribute [Field R] (S : Sub R X C p d) (ckpts : List C) (st : Option (Loader X)) (m : Option String)
    (tr : Loader X) : Option (Loader X) × Except Err (Vec R) :=
  let full := st.getD tr
  (some full, selfLoop S full ckpts m tr)

/-- Calls a user can make on one attributor. -/
inductive Op (X : Type)
  | cache (full : Loader X)
  | attribute (m : Option String) (tr te : Loader X)
  | selfAttribute (m : Option String) (tr : Loader X)

/-- Effect of a call on the attributor's state. -/
def step [Field R] (S : Sub R X C p d) (ckpts : List C) (st : Option (Loader X)) : Op X → Option (Loader X)
  | .cache full => cache st full
  | .attribute m tr te => (attribute' S ckpts st m tr te).1
  | .selfAttribute m tr => (selfAttribute S ckpts st m tr).1

/-- State after a history of calls on a fresh attributor (`full_train_dataloader = None`, base.py:91). -/
def run [Field R] (S : Sub R X C p d) (ckpts : List C) (ops : List (Op X)) : Option (Loader X) :=
  ops.foldl (step S ckpts) none

end Verif.Attr
