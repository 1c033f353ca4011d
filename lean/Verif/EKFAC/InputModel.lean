import Verif.EKFAC.Model

/-!
# Inputs of the Fisher products (`dattri/func/fisher.py:138-236`)

A tensor is its shape together with its entries as a function of the list of indices.
-/

namespace Verif.EKFAC

/-- The exceptions that can occur. -/
inductive InErr where
  | usage
  | index
  deriving DecidableEq

/-- A tensor. -/
structure Arr (α : Type) where
  shape : List ℕ
  val : List ℕ → α

/-- The axis that a Python index means, counting from the end if it is negative; `none`: `IndexError`
(fisher.py:171-172, 232). -/
def axis (rank : ℕ) (d : ℤ) : Option ℕ :=
  if 0 ≤ d then (if d < rank then some d.toNat else none)
  else if 0 ≤ d + rank then some (d + rank).toNat else none

/-- `x_in.shape[dim]` (fisher.py:171-172). -/
def dimSize (shape : List ℕ) (d : ℤ) : Option ℕ := (axis shape.length d).bind fun a => shape[a]?

/-- The loop over the arguments (fisher.py:165-177). -/
def checkLoop : Option ℕ → List (List ℕ × Option ℤ) → Except InErr (Option ℕ)
  | bs, [] => .ok bs
  | bs, (_, none) :: rest => checkLoop bs rest
  | none, (s, some d) :: rest =>
      match dimSize s d with
      | none => .error .index
      | some n => checkLoop (some n) rest
  | some b, (s, some d) :: rest =>
      match dimSize s d with
      | none => .error .index
      | some n => if b ≠ n then .error .usage else checkLoop (some b) rest

/-- `in_dims` with its default (fisher.py:157-158, 221-222). -/
def dimsOf (n : ℕ) (inDims : Option (List (Option ℤ))) : List (Option ℤ) :=
  inDims.getD (List.replicate n (some 0))

/-- `_check_input_size` (fisher.py:138-183). -/
def checkInputSize (shapes : List (List ℕ)) (inDims : Option (List (Option ℤ))) : Except InErr ℕ :=
  if (dimsOf shapes.length inDims).length ≠ shapes.length then .error .usage
  else
    match checkLoop none (shapes.zip (dimsOf shapes.length inDims)) with
    | .error e => .error e
    | .ok bs => .ok (bs.getD 1)

variable {α : Type}

/-- `x_in.index_select(dim, sampled_indices) if dim is not None else x_in` for an existing axis (fisher.py:231-234).
Simplified: an axis or index out of range selects nothing here; both are excluded by the theorems. -/
def indexSelect (x : Arr α) (d : Option ℤ) (idx : List ℕ) : Arr α :=
  match d with
  | none => x
  | some d =>
    match axis x.shape.length d with
    | none => x
    | some a => ⟨x.shape.set a idx.length, fun i => x.val (i.set a (idx.getD (i.getD a 0) 0))⟩

/-- One batch of `_random_batch_iterator` (fisher.py:227-236). -/
def collate (xs : List (Arr α)) (inDims : Option (List (Option ℤ))) (idx : List ℕ) : List (Arr α) :=
  (xs.zip (dimsOf xs.length inDims)).map fun x => indexSelect x.1 x.2 idx

/-- `_random_batch_iterator` (fisher.py:186-236). -/
def batchIterator (perm : List ℕ) (xs : List (Arr α)) (n : ℕ) (inDims : Option (List (Option ℤ))) (bs : ℕ) :
    Except Err (List (List (Arr α))) :=
  match randomBatches perm n bs with
  | .error e => .error e
  | .ok bsx => .ok (bsx.map (collate xs inDims))

end Verif.EKFAC
