import Mathlib.Algebra.BigOperators.Group.List.Basic
import Mathlib.Data.Real.Basic
import Verif.Base.Tensor

/-!
# Model of `get_parameter_chunk_sizes` (`dattri/func/utils.py`) and `ChunkedCudaProjector` (`dattri/func/projection.py`)

Loops that may diverge take a fuel argument; `none` means "not finished within the fuel". NumPy's 64-bit integers are natural numbers.
-/

namespace Verif.Projection

/-- `max_chunk_size = iinfo(uint32).max // (batch_size * 2)` (utils.py:116); `None` for the `ZeroDivisionError` of batch size 0. -/
def maxChunk (batch : ℕ) : Option ℕ := if batch = 0 then none else some ((2 ^ 32 - 1) / (batch * 2))

/-- The `while current_ps >= max_chunk_size` loop (utils.py:134-136): returns the list of chunks and the remainder. -/
def splitLoop (m : ℕ) : ℕ → List ℕ → ℕ → Option (List ℕ × ℕ)
  | 0, _, _ => none
  | fuel + 1, acc, ps => if m ≤ ps then splitLoop m fuel (acc ++ [m]) (ps - m) else some (acc, ps)

/-- One iteration of the `for ps in param_shapes` loop (utils.py:121-139) on the state (params_per_chunk, chunk_sum). -/
def chunkStep (fuel m : ℕ) (s : List ℕ × ℕ) (ps : ℕ) : Option (List ℕ × ℕ) :=
  let s1 := if m ≤ s.2 + ps then ((if 0 < s.2 then s.1 ++ [s.2] else s.1), 0) else s
  match splitLoop m fuel s1.1 ps with
  | none => none
  | some (acc, rem) => some (acc, s1.2 + rem)

/-- The final chunk and the empty edge case (utils.py:141-149). -/
def chunkFinish (s : List ℕ × ℕ) : List ℕ :=
  let l := if 0 < s.2 then s.1 ++ [s.2] else s.1
  if l = [] then [0] else l

/-- `get_parameter_chunk_sizes` with limit `m` (utils.py:93-149). -/
def chunkSizes (fuel m : ℕ) (sizes : List ℕ) : Option (List ℕ) :=
  (sizes.foldlM (chunkStep fuel m) ([], 0)).map chunkFinish

/-- A chunked projector (projection.py:658-686). `proj k` is the row map of the `k`-th projector for the ensemble at hand (the CUDA
projector acts row by row, `C77_cuda_history`); `dims` is `dim_per_chunk`; `fbs` is `feature_batch_size`. -/
structure Chunked (V : Type) where
  proj : ℕ → List ℝ → V
  limit : ℕ
  dims : List ℕ
  fbs : ℕ

/-- One entry of the feature dictionary, flattened to two dimensions: number of columns and entries (projection.py:736-742). -/
structure Param where
  cols : ℕ
  val : ℕ → ℕ → ℝ

/-- State of the `dict_project` loop: the input buffer (rows × columns), the output accumulator (one entry per row), the pointer and the
projector index (projection.py:724-733). -/
structure DState (V : Type) where
  buf : ℕ → ℕ → ℝ
  out : ℕ → V
  ptr : ℕ
  idx : ℕ

variable {V : Type} [AddCommMonoid V]

/-- Projection of the first `ptr` buffer columns of every row with projector `idx`, accumulated (projection.py:747-757, 772-782). The
check against `dim_per_chunk[projector_index]` comes first. -/
def Chunked.flush (c : Chunked V) (rows : ℕ) (s : DState V) : Except Err (DState V) :=
  match c.dims[s.idx]? with
  | none => .error .indexError
  | some n =>
    if s.ptr ≠ n then .error .valueError
    else .ok { s with out := fun r => if r < rows then s.out r + c.proj s.idx ((List.range s.ptr).map (s.buf r)) else s.out r }

/-- One iteration of the loop over the dictionary (projection.py:735-767). Copying more columns than the buffer slice holds (or more
rows than the buffer has) raises `RuntimeError`. All entries have `bs` rows. -/
def Chunked.dictStep (c : Chunked V) (bs : ℕ) (s : DState V) (p : Param) : Except Err (DState V) := do
  let s1 ← if c.limit < s.ptr + p.cols then do
      let s' ← c.flush c.fbs s
      pure { s' with ptr := 0, idx := s'.idx + 1 }
    else pure s
  if min (s1.ptr + p.cols) c.limit - s1.ptr ≠ p.cols ∨ c.fbs < bs then .error .runtimeError
  else pure { s1 with
    buf := fun r j => if r < bs ∧ s1.ptr ≤ j ∧ j < s1.ptr + p.cols then p.val r (j - s1.ptr) else s1.buf r j
    ptr := s1.ptr + p.cols }

/-- `dict_project` (projection.py:709-784), started with whatever an earlier call left in the buffer. An empty dictionary fails on the
unbound `actual_bs` (after the dimension check). The result is the list of output rows. -/
def Chunked.dictProject (c : Chunked V) (buf0 : ℕ → ℕ → ℝ) (bs : ℕ) (ps : List Param) : Except Err (List V) := do
  let s ← ps.foldlM (c.dictStep bs) ⟨buf0, fun _ => 0, 0, 0⟩
  if ps = [] then
    if c.dims[0]? = some 0 then .error .unboundLocalError else if c.dims = [] then .error .indexError else .error .valueError
  else do
    let s' ← c.flush bs s
    pure ((List.range bs).map s'.out)

/-- `project` on flat rows (projection.py:786-833): column slices in order, one projector each (slices past the end are empty). -/
def Chunked.project (c : Chunked V) (rows : List (List ℝ)) : List V :=
  rows.map fun x => ((List.range c.dims.length).map fun k =>
    c.proj k ((x.drop (c.dims.take k).sum).take ((c.dims[k]?).getD 0))).sum

end Verif.Projection
