import Mathlib.Data.Matrix.Mul
import Mathlib.LinearAlgebra.Matrix.NonsingularInverse
import Mathlib.LinearAlgebra.Matrix.Trace
import Verif.BlockIF.MetaModel

/-!
# The block-projected influence attributor with in-memory storage
(`/repo/dattri/algorithm/block_projected_if/block_projected_if.py`, `offload/memory.py`,
`core/utils.py`)

Exact arithmetic over a field.  A row is the concatenation of the compressed gradients of the
layers; it is kept as a family indexed by the layers (`ConcatProps.lean` shows that the concatenated
storage is the same thing).  The per-sample compressed gradients of a batch are inputs of the model
(their computation is in `Hook/PassModel.lean` and `DVEmb/FactorModel.lean`).
-/

namespace Verif.BlockIF

open Verif

variable {K : Type} [Field K] [DecidableEq K] {L : ℕ} {d : Fin L → ℕ}

/-- A stored row: per layer a vector of the layer's compressed dimension. -/
abbrev Row (K : Type) {L : ℕ} (d : Fin L → ℕ) := (l : Fin L) → Fin (d l) → K

/-- The `hessian` argument (block_projected_if.py:52). -/
inductive Hessian
  | identity
  | efim
  deriving DecidableEq

/-- A loader: what the metadata manager asks of it, and the compressed gradients of its batches. -/
structure Data (K : Type) {L : ℕ} (d : Fin L → ℕ) where
  spec : Loader
  batches : List (List (Row K d))

/-- Attributor state: metadata, whether `full_train_dataloader`, `compressors` and `layer_dims` are
set, and the contents of the offload manager (block_projected_if.py:135-151, memory.py:36-44). -/
structure St (K : Type) {L : ℕ} (d : Fin L → ℕ) where
  md : Meta
  cached : Bool
  comp : Bool
  known : Bool
  grads : List (ℕ × List (Row K d))
  pre : (l : Fin L) → Option (Matrix (Fin (d l)) (Fin (d l)) K)
  ifvp : List (ℕ × List (Row K d))

/-- `__init__` in a directory whose metadata file is `file` (block_projected_if.py:135-151). -/
def St.new (K : Type) {L : ℕ} (d : Fin L → ℕ) (file : Option File) : St K d :=
  ⟨Meta.new file, false, false, false, [], fun _ => none, []⟩

/-! ### The loader over stored batches (memory.py:216-303) -/

/-- The cached batches in the order of their indices (memory.py:245-270). -/
def sortedItems {R : Type} (c : List (ℕ × R)) : List (ℕ × R) :=
  ((PyDict.keys c).mergeSort fun a b => decide (a ≤ b)).filterMap
    fun k => (PyDict.get? c k).map fun v => (k, v)

/-- Row ranges of the batches in the combined tensor (memory.py:284-293; for a single item the
range is `(0, rows)`, memory.py:272, 281-282). -/
def offsets {R : Type} (off : ℕ) : List (ℕ × List R) → List (ℕ × ℕ × ℕ)
  | [] => []
  | (k, t) :: r => (k, off, off + t.length) :: offsets (off + t.length) r

/-- `collate_fn` (memory.py:278-296). -/
def collate {R : Type} (items : List (ℕ × List R)) : List R × List (ℕ × ℕ × ℕ) :=
  (items.flatMap Prod.snd, offsets 0 items)

/-- `create_gradient_dataloader` with `g` stored batches per item (memory.py:216-303). -/
def chunks {R : Type} (g : ℕ) (c : List (ℕ × List R)) : List (List R × List (ℕ × ℕ × ℕ)) :=
  (Verif.batches g (sortedItems c)).map collate

/-- `tensor[start:end]`. -/
def rowsOf {R : Type} (t : List R) (s e : ℕ) : List R := (t.drop s).take (e - s)

/-! ### Preconditioners -/

/-- `layer_data.t() @ layer_data` (block_projected_if.py:411). -/
def gram (l : Fin L) (rows : List (Row K d)) : Matrix (Fin (d l)) (Fin (d l)) K :=
  Matrix.of fun a b => (rows.map fun g => g l a * g l b).sum

/-- The accumulation over the chunks for layer `l` (block_projected_if.py:391-411): an empty chunk
is skipped. -/
def accumulate (l : Fin L) (cs : List (List (Row K d) × List (ℕ × ℕ × ℕ))) :
    Matrix (Fin (d l)) (Fin (d l)) K × ℕ :=
  cs.foldl (fun acc c => if c.1.length = 0 then acc else (acc.1 + gram l c.1, acc.2 + c.1.length))
    (0, 0)

/-- `stable_inverse` (core/utils.py:14-47).  Cholesky and direct inversion both give the inverse; a
singular matrix makes the Cholesky factorisation fail and then `torch.inverse` raise. -/
noncomputable def stableInverse {n : ℕ} (damping : Option K) (A : Matrix (Fin n) (Fin n) K) :
    Except Err (Matrix (Fin n) (Fin n) K) :=
  let damped := A + (damping.getD (1 / 100000) * A.trace / n) • (1 : Matrix (Fin n) (Fin n) K)
  if damped.det = 0 then .error .runtimeError else .ok damped⁻¹

/-- The loop inverting the accumulated matrices (block_projected_if.py:417-431).  Layers of
dimension 0 or without samples keep whatever preconditioner is stored. -/
noncomputable def preLoop (damping : Option K) (cs : List (List (Row K d) × List (ℕ × ℕ × ℕ))) :
    List (Fin L) → ((l : Fin L) → Option (Matrix (Fin (d l)) (Fin (d l)) K)) →
    ((l : Fin L) → Option (Matrix (Fin (d l)) (Fin (d l)) K)) × Except Err Unit
  | [], p => (p, .ok ())
  | l :: ls, p =>
    if d l = 0 ∨ (accumulate l cs).2 = 0 then preLoop damping cs ls p
    else
      match stableInverse damping (((accumulate l cs).2 : K)⁻¹ • (accumulate l cs).1) with
      | .error e => (p, .error e)
      | .ok P => preLoop damping cs ls (Function.update p l (some P))

/-- `if not self.metadata.batch_info: self.metadata._load_metadata_if_exists()` and
`_sync_layer_dims` (block_projected_if.py:187-206, 340-345). -/
def St.sync (st : St K d) : St K d :=
  let md := if st.md.info = [] then st.md.load else st.md
  { st with md := md, known := st.known || md.dims.isSome }

/-- `compute_preconditioners` (block_projected_if.py:323-434) for `hessian="eFIM"`. -/
noncomputable def computePre (damping : Option K) (st0 : St K d) : St K d × Except Err Unit :=
  let st := st0.sync
  if st.known = false then (st, .error .valueError)
  else
    let r := preLoop damping (chunks 4 st.grads) (List.finRange L) st.pre
    ({ st with pre := r.1 }, r.2)

/-! ### Preconditioned gradients -/

/-- One layer of one row: zeros without preconditioner, else `P g`
(block_projected_if.py:501-533). -/
def applyLayer {n : ℕ} (P : Option (Matrix (Fin n) (Fin n) K)) (g : Fin n → K) : Fin n → K :=
  match P with
  | none => 0
  | some P => P.mulVec g

/-- One row. -/
def applyPre (pre : (l : Fin L) → Option (Matrix (Fin (d l)) (Fin (d l)) K)) (g : Row K d) :
    Row K d := fun l => applyLayer (pre l) (g l)

/-- The loops storing the preconditioned gradients: batches unknown to the metadata are skipped
(block_projected_if.py:488-538, 577-596). -/
def storeIfvp {R : Type} (known : List ℕ) (f : R → R) (cs : List (List R × List (ℕ × ℕ × ℕ)))
    (ifvp : List (ℕ × List R)) : List (ℕ × List R) :=
  cs.foldl (fun acc c => c.2.foldl (fun acc e =>
    if e.1 ∈ known then PyDict.set e.1 ((rowsOf c.1 e.2.1 e.2.2).map f) acc else acc) acc) ifvp

/-- `compute_ifvp` and `_copy_gradients_as_ifvp` (block_projected_if.py:436-604). -/
def computeIfvp (h : Hessian) (st0 : St K d) : St K d × Except Err Unit :=
  let st := st0.sync
  if st.known = false then (st, .error .valueError)
  else
    let mp := PyDict.keys st.md.mapping
    match h with
    | .identity => ({ st with ifvp := storeIfvp mp id (chunks 1 st.grads) st.ifvp }, .ok ())
    | .efim => ({ st with ifvp := storeIfvp mp (applyPre st.pre) (chunks 4 st.grads) st.ifvp }, .ok ())

/-! ### Caching -/

/-- One batch of the caching loop (block_projected_if.py:248-297). -/
def cacheBatch (st : St K d) (p : List (Row K d) × ℕ) : St K d :=
  let st1 := if st.known then st
    else { st with
      known := true
      md := (st.md.addBatchInfo p.2 p.1.length).setDims (List.ofFn d) }
  { st1 with grads := PyDict.set p.2 p.1 st1.grads }

/-- `cache` up to the preconditioners (block_projected_if.py:208-312).  Setting up the compressors
takes the first batch, so an empty loader raises `StopIteration` the first time. -/
def cacheGrads (st0 : St K d) (D : Data K d) : St K d × Except Err Unit :=
  let st := { st0 with cached := true }
  if st.comp = false ∧ D.batches = [] then (st, .error .stopIteration)
  else
    let st1 := { st with comp := true, md := st.md.initialize D.spec }
    let st2 := D.batches.zipIdx.foldl cacheBatch st1
    ({ st2 with md := st2.md.save }, .ok ())

/-- `cache` (block_projected_if.py:208-321). -/
noncomputable def cache (h : Hessian) (damping : Option K) (st : St K d) (D : Data K d) :
    St K d × Except Err Unit :=
  match cacheGrads st D with
  | (st1, .error e) => (st1, .error e)
  | (st1, .ok ()) =>
    match h with
    | .identity => (st1, .ok ())
    | .efim =>
      match computePre damping st1 with
      | (st2, .error e) => (st2, .error e)
      | (st2, .ok ()) => computeIfvp .efim st2

/-! ### Attribution -/

/-- Inner product of two rows: one entry of `chunk_tensor @ test_batch.t()`
(block_projected_if.py:792). -/
def dot (a b : Row K d) : K := ∑ l, ∑ k, a l k * b l k

/-- `if_score[a:b, ts:te] = batch_scores` (block_projected_if.py:800-803): the rows must match or be
a single one, which is broadcast.  The row ranges lie within the result (`C58_consecutive`). -/
def assign (S : Mat K) (a b : ℤ) (ts te : ℕ) (rows test : List (Row K d)) : Except Err (Mat K) :=
  if bcast rows.length (b - a).toNat then
    .ok { S with
      f := fun i j => if a ≤ i ∧ (i : ℤ) < b ∧ ts ≤ j ∧ j < te then
          dot (rows.getD (if rows.length = 1 then 0 else (i - a).toNat) 0) (test.getD j 0)
        else S.f i j }
  else .error .runtimeError

/-- `range(0, n, b)` with the ends `min(start + b, n)` (block_projected_if.py:784-785). -/
def testRanges (b n : ℕ) : List (ℕ × ℕ) :=
  (List.range ((n + b - 1) / b)).map fun q => (q * b, min (q * b + b) n)

/-- The nested loops of `attribute` (block_projected_if.py:774-807). -/
def scoreLoop (mp : List (ℕ × (ℤ × ℤ))) (cs : List (List (Row K d) × List (ℕ × ℕ × ℕ)))
    (test : List (Row K d)) (S : Mat K) : Except Err (Mat K) :=
  cs.foldlM (fun S c =>
    (testRanges (min 32 test.length) test.length).foldlM (fun S t =>
      c.2.foldlM (fun S e =>
        match PyDict.get? mp e.1 with
        | none => .ok S
        | some r => assign S r.1 r.2 t.1 t.2 (rowsOf c.1 e.2.1 e.2.2) test) S) S) S

/-- `attribute` after the train data has been cached (block_projected_if.py:710-813). -/
def attributeCached (h : Hessian) (st0 : St K d) (train test : Data K d) :
    St K d × Except Err (Mat K) :=
  let st := st0.sync
  if st.comp = false ∧ test.batches = [] then (st, .error .stopIteration)
  else
    let st1 := { st with comp := true }
    match (if st1.ifvp ≠ [] then (st1, .ok ()) else computeIfvp h st1) with
    | (st2, .error e) => (st2, .error e)
    | (st2, .ok ()) =>
      let t := test.batches.flatten
      if t = [] ∨ (∑ l, d l) = 0 then
        (st2, .ok (Mat.zeros train.spec.samples test.spec.samples))
      else
        (st2, scoreLoop st2.md.mapping (chunks 2 st2.ifvp) t
          (Mat.zeros st2.md.totalSamples.toNat t.length))

/-- `attribute` (block_projected_if.py:681-813). -/
noncomputable def attribute' (h : Hessian) (damping : Option K) (st : St K d)
    (train test : Data K d) : St K d × Except Err (Mat K) :=
  if st.cached then attributeCached h st train test
  else
    match cache h damping st train with
    | (st1, .error e) => (st1, .error e)
    | (st1, .ok ()) => attributeCached h st1 train test

end Verif.BlockIF
