import Mathlib.Algebra.BigOperators.Group.List.Basic
import Mathlib.Algebra.Group.Defs
import Mathlib.Data.List.Basic

/-!
# Shared vocabulary: exceptions, unshuffled data loaders, 2-D tensors with in-place slice updates

These are models of the PyTorch / Python primitives that several parts of `dattri` use.
-/

namespace Verif

/-- Python exceptions that the modelled code can raise. -/
inductive Err
  | valueError
  | typeError
  | keyError
  | indexError
  | attributeError
  | zeroDivisionError
  | notImplementedError
  | runtimeError
  | unboundLocalError
  | assertionError
  | stopIteration
  | fileNotFoundError
  deriving DecidableEq, Repr

/-- `torch.utils.data.DataLoader` without shuffling and with `drop_last=False`:
batch `b` holds the samples `b*bs, ..., min((b+1)*bs, n)-1`; there are `ceil(n/bs)` batches.
(PyTorch primitive; `bs ≥ 1` is enforced by its constructor.) -/
def numBatches (bs n : Nat) : Nat := (n + bs - 1) / bs

/-- The `b`-th batch of an unshuffled loader. -/
def batchAt {α : Type*} (bs : Nat) (xs : List α) (b : Nat) : List α := (xs.drop (b * bs)).take bs

/-- All batches of an unshuffled loader, in order. -/
def batches {α : Type*} (bs : Nat) (xs : List α) : List (List α) :=
  (List.range (numBatches bs xs.length)).map (batchAt bs xs)

/-- A 2-D tensor: shape and entries (entries outside the shape are irrelevant). -/
structure Mat (R : Type*) where
  r : Nat
  c : Nat
  f : Nat → Nat → R

/-- `torch.zeros(size=(r,c))`. -/
def Mat.zeros {R : Type*} [Zero R] (r c : Nat) : Mat R := ⟨r, c, fun _ _ => 0⟩

/-- `torch` broadcasting of a source dimension `s` to a target dimension `t`. -/
def bcast (s t : Nat) : Bool := s == t || s == 1

/-- `M[r0:r1, c0:c1] += B` (PyTorch in-place slice update): slice bounds are clamped to the shape, `B` is broadcast
to the slice, any other shape mismatch raises (`none`). -/
def Mat.addBlock {R : Type*} [Add R] (M : Mat R) (r0 r1 c0 c1 : Nat) (B : Mat R) : Option (Mat R) :=
  let r1' := min r1 M.r
  let c1' := min c1 M.c
  if bcast B.r (r1' - r0) && bcast B.c (c1' - c0) then
    some ⟨M.r, M.c, fun i j =>
      if r0 ≤ i ∧ i < r1' ∧ c0 ≤ j ∧ j < c1' then
        M.f i j + B.f (if B.r = 1 then 0 else i - r0) (if B.c = 1 then 0 else j - c0)
      else M.f i j⟩
  else none

end Verif

namespace Verif

/-- A PyTorch shape error (`none`) surfaces as `RuntimeError`. -/
def liftO {α : Type*} (o : Option α) : Except Err α :=
  match o with
  | some a => .ok a
  | none => .error .runtimeError

/-- An unshuffled loader: the samples visited by its sampler, its batch size, and whether its batches are tuples, lists or
dicts (the only batch types the attributors accept). -/
structure Loader (X : Type) where
  data : List X
  bs : Nat
  supported : Bool := true

/-- Number of batches of a loader. -/
def Loader.nb {X : Type} (l : Loader X) : Nat := numBatches l.bs l.data.length

/-- `b`-th batch of a loader. -/
def Loader.batch {X : Type} (l : Loader X) (b : Nat) : List X := batchAt l.bs l.data b

/-- 1-D tensor. -/
structure Vec (R : Type*) where
  n : Nat
  f : Nat → R

/-- `v += w` for 1-D tensors: in-place broadcasting only allows `w` of the same length or of length one. -/
def Vec.addIn {R : Type*} [Add R] (v w : Vec R) : Option (Vec R) :=
  if w.n = v.n then some ⟨v.n, fun i => v.f i + w.f i⟩
  else if w.n = 1 then some ⟨v.n, fun i => v.f i + w.f 0⟩
  else none

/-- `v[r0:r1] += w` for 1-D tensors: the slice is clamped, `w` must have the slice's length or length one. -/
def Vec.addSlice {R : Type*} [Add R] (v : Vec R) (r0 r1 : Nat) (w : Vec R) : Option (Vec R) :=
  let r1' := min r1 v.n
  if bcast w.n (r1' - r0) then
    some ⟨v.n, fun i => if r0 ≤ i ∧ i < r1' then v.f i + w.f (if w.n = 1 then 0 else i - r0) else v.f i⟩
  else none

/-- The double loop over (train batch, test batch) pairs shared by the attributors: `TypeError` on unsupported batches, and
`out[row_st:row_ed, col_st:col_ed] += blk(train_batch, test_batch)`. -/
def pairLoop {X R : Type} [Add R] (tr te : Loader X) (blk : List X → List X → Mat R) (M : Mat R) : Except Err (Mat R) :=
  (List.range tr.nb).foldlM (fun M b =>
    if !tr.supported then .error .typeError
    else (List.range te.nb).foldlM (fun M t =>
      if !te.supported then .error .typeError
      else liftO (M.addBlock (b * tr.bs) (min ((b + 1) * tr.bs) tr.data.length)
        (t * te.bs) (min ((t + 1) * te.bs) te.data.length) (blk (tr.batch b) (te.batch t)))) M) M

/-- The single loop over train batches: `out[row_st:row_ed] += blk(train_batch)`. -/
def sliceLoop {X R : Type} [Add R] (tr : Loader X) (blk : List X → Vec R) (v : Vec R) : Except Err (Vec R) :=
  (List.range tr.nb).foldlM (fun v b =>
    if !tr.supported then .error .typeError
    else liftO (v.addSlice (b * tr.bs) (min ((b + 1) * tr.bs) tr.data.length) (blk (tr.batch b)))) v

end Verif
