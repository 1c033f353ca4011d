import Verif.Projection.ParseModel
import Verif.Projection.ChunkModel
import Verif.Projection.CudaModel

/-!
# Model of `random_project` and `make_random_projector` (`dattri/func/projection.py`)

The function returned by `random_project` is modelled by the projector it closes over and by `Projector.call`. Devices, dtypes and negative
integers are not modelled. Non-termination of `get_parameter_chunk_sizes` (a limit of 0) is `none`.
-/

namespace Verif.Projection

/-- A batch of features (projection.py:1311-1319): a tensor with `cols` columns, or a dictionary whose entries all have `bs` rows. -/
inductive Feat
  | tensor (cols : ℕ) (rows : List (List ℝ))
  | dict (bs : ℕ) (ps : List Param)

/-- `RandomProjectionParams` (params/projection.py:143-170) as read by `random_project`. -/
structure RandParams where
  fbs : ℕ
  projDim : ℕ
  maxBatch : ℕ
  seed : ℤ
  dev : Dev
  ptype : PTArg

/-- What freshly seeded generators produce: on the CPU, on the GPU, and the list of `k` chunk seeds drawn by `torch.randint` from a
generator seeded with `proj_seed` (projection.py:1131-1142). -/
structure Env where
  cpu : (d : ℕ) → Rng d
  gpu : (d : ℕ) → CRng d
  seeds : ℤ → ℕ → List ℤ

/-- A CUDA projector with its state. -/
structure Part where
  d : ℕ
  c : Cuda d
  st : CState d

/-- The object assigned by `make_random_projector` (projection.py:1114-1174). The buffer of the chunked projector is allocated with zeros
and kept between calls (projection.py:688-699). -/
inductive Projector
  | basic (d : ℕ) (c : Basic d) (st : BState d)
  | cuda (p : Part)
  | chunked (limit fbs projDim : ℕ) (parts : List Part) (buf : ℕ → ℕ → ℝ)

/-- `param_shape_list` (projection.py:1311-1319): element counts divided by the batch size given by the caller. Batch size 0 raises
`ZeroDivisionError`, an empty dictionary `StopIteration`. -/
def shapeList (fbs : ℕ) : Feat → Except Err (List ℕ)
  | .tensor cols rows => if fbs = 0 then .error .zeroDivisionError else .ok [rows.length * cols / fbs]
  | .dict bs ps =>
    if ps = [] then .error .stopIteration
    else if fbs = 0 then .error .zeroDivisionError
    else .ok (ps.map fun p => bs * p.cols / fbs)

/-- The per-chunk projectors (projection.py:1144-1155). -/
def mkParts (env : Env) (p : ℕ) (k : Kind) (mult : ℤ) (sizes : List ℕ) (seeds : List ℤ) : List Part :=
  (sizes.zip seeds).map fun s : ℕ × ℤ =>
    let c : Cuda s.1 := { projDim := p, seed := s.2, kind := k, mult := mult, rng := env.gpu s.1 }
    ⟨s.1, c, c.init⟩

/-- `make_random_projector` (projection.py:1070-1174). -/
def makeProjector (env : Env) (a : RandParams) (k : Kind) (mult : ℤ) (shapes : List ℕ) : Option (Except Err Projector) :=
  if a.dev = .cpu then
    let c : Basic shapes.sum := { projDim := a.projDim, seed := a.seed, kind := k, rng := env.cpu shapes.sum }
    some (c.init.map fun st => .basic shapes.sum c st)
  else
    match maxChunk a.maxBatch with
    | none => some (.error .zeroDivisionError)
    | some m =>
      match chunkSizes (shapes.sum + 1) m shapes with
      | none => none
      | some sizes =>
        if sizes.length = 1 then
          let c : Cuda shapes.sum := { projDim := a.projDim, seed := a.seed, kind := k, mult := mult, rng := env.gpu shapes.sum }
          some (.ok (.cuda ⟨shapes.sum, c, c.init⟩))
        else
          some (.ok (.chunked m a.fbs a.projDim (mkParts env a.projDim k mult sizes (env.seeds a.seed sizes.length)) fun _ _ => 0))

/-- `random_project` (projection.py:1273-1372). -/
def randomProject (pyInt : List Char → Option ℤ) (env : Env) (a : RandParams) (f : Feat) : Option (Except Err Projector) :=
  match shapeList a.fbs f with
  | .error x => some (.error x)
  | .ok shapes =>
    match checkArg pyInt a.dev a.ptype with
    | .error x => some (.error x)
    | .ok km => makeProjector env a km.1 km.2 shapes

/-- `_preprocess_features` (projection.py:84-105) with `_vectorize` (utils.py:20-90): number of columns and the rows; a dictionary is
flattened parameter after parameter. An empty dictionary raises `StopIteration`, one without rows `ZeroDivisionError`. -/
def preprocess : Feat → Except Err (ℕ × List (List ℝ))
  | .tensor cols rows => .ok (cols, rows)
  | .dict bs ps =>
    if ps = [] then .error .stopIteration
    else if bs = 0 then .error .zeroDivisionError
    else .ok ((ps.map Param.cols).sum, (List.range bs).map fun r : ℕ => ps.flatMap fun p => (List.range p.cols).map (p.val r))

/-- A row as a vector of `d` entries. -/
def toVec (d : ℕ) (x : List ℝ) : Fin d → ℝ := fun i => x.getD i 0

/-- Rows whose number of columns is not the dimension the projector was built for: the identity returns them, a mask picks columns
(`IndexError` if one is missing), a matrix product raises `RuntimeError`; the `sjlt` package is taken to raise too. -/
def mismatch {d : ℕ} (k : Kind) (mask : Option (List (Fin d))) (cols : ℕ) (rows : List (List ℝ)) : Except Err (List (List ℝ)) :=
  match k with
  | .identity => .ok rows
  | .randomMask =>
    match mask with
    | none => .error .attributeError
    | some idx => if ∀ i ∈ idx, (i : ℕ) < cols then .ok (rows.map fun x => idx.map fun i => x.getD i 0) else .error .indexError
  | _ => .error .runtimeError

/-- `BasicProjector.project` on any number of columns (projection.py:331-382). The state after a call with other than `d` columns is that
of a call without rows (the ensemble is switched before the product is formed). -/
noncomputable def basicCall {d : ℕ} (c : Basic d) (st : BState d) (cols : ℕ) (rows : List (List ℝ)) (e : ℤ) :
    BState d × Except Err (List (List ℝ)) :=
  if cols = d then c.project st (rows.map (toVec d)) e
  else
    let r := c.project st [] e
    (r.1, match r.2 with
      | .error x => .error x
      | .ok _ => mismatch c.kind r.1.mask cols rows)

/-- What `CudaProjector.project` returns, as rows; the spurious dimension of ensemble `-1` (see `C77_cuda_history`) is dropped here. -/
def COut.toRows {d : ℕ} : COut d → List (List ℝ)
  | .rows l => l
  | .unsqueezed l => l.map List.ofFn

/-- `CudaProjector.project` on any number of columns (projection.py:603-645); a mask stage of GraSS before the `sjlt` stage makes other
widths an `IndexError` or a `RuntimeError`, modelled as `RuntimeError`. -/
noncomputable def cudaCall (p : Part) (cols : ℕ) (rows : List (List ℝ)) (e : ℤ) : Part × Except Err (List (List ℝ)) :=
  if cols = p.d then
    let r := p.c.project p.st (rows.map (toVec p.d)) e
    (⟨p.d, p.c, r.1⟩, r.2.map COut.toRows)
  else
    let r := p.c.project p.st [] e
    (⟨p.d, p.c, r.1⟩, match r.2 with
      | .error x => .error x
      | .ok _ => mismatch p.c.kind r.1.mask cols rows)

/-- One row of a chunk through its projector. The three-dimensional result of ensemble `-1` cannot be added in place: `RuntimeError`. -/
noncomputable def partRow (p : Part) (e : ℤ) (x : List ℝ) : Except Err (List ℝ) :=
  match (p.c.project p.st [toVec p.d x] e).2 with
  | .error y => .error y
  | .ok (.rows l) => .ok (l.headD [])
  | .ok (.unsqueezed _) => .error .runtimeError

/-- `ch_output.add_(..)` (projection.py:753-758, 778-783, 823-828): a row of the width of the output, or of width 1, which is broadcast. -/
def widen (p : ℕ) (r : List ℝ) : Option (Fin p → ℝ) :=
  if r.length = p then some fun j => r.getD j 0 else if r.length = 1 then some fun _ => r.getD 0 0 else none

/-- The row map of a chunk as used by `Chunked`. -/
noncomputable def partMap (p : ℕ) (parts : List Part) (e : ℤ) (k : ℕ) (x : List ℝ) : Fin p → ℝ :=
  match parts[k]? with
  | none => 0
  | some q =>
    match partRow q e x with
    | .error _ => 0
    | .ok r => (widen p r).getD 0

/-- Whether the results of a chunk can be added to the output at all; the width does not depend on the rows. -/
noncomputable def partCheck (p : ℕ) (e : ℤ) (q : Part) : Except Err Unit :=
  match partRow q e [] with
  | .error x => .error x
  | .ok r => if (widen p r).isSome then .ok () else .error .runtimeError

/-- The state of a chunk after a call with ensemble `e`. -/
noncomputable def partAfter (e : ℤ) (q : Part) : Part := ⟨q.d, q.c, (q.c.project q.st [] e).1⟩

/-- `ChunkedCudaProjector.dict_project` and `project` (projection.py:709-833). Every chunk projector is called at most once per call, so
its row map is the one of its state before the call. Simplified: a chunk whose result cannot be added raises before anything else does, all
chunks switch to the new ensemble even if the call raises half-way. A tensor with fewer columns than the chunks together raises in the
first short slice (except for slices that a mask or the identity would accept: not modelled); further columns are ignored. -/
noncomputable def chunkedCall (m fbs p : ℕ) (parts : List Part) (buf : ℕ → ℕ → ℝ) (f : Feat) (e : ℤ) : Except Err (List (List ℝ)) :=
  match parts.mapM (partCheck p e) with
  | .error x => .error x
  | .ok _ =>
    let c : Chunked (Fin p → ℝ) := ⟨partMap p parts e, m, parts.map Part.d, fbs⟩
    match f with
    | .tensor cols rows =>
      if cols < (parts.map Part.d).sum then .error .runtimeError else .ok ((c.project rows).map List.ofFn)
    | .dict bs ps => (c.dictProject buf bs ps).map fun l => l.map List.ofFn

/-- `_random_project_func` (projection.py:1374-1396): new projector and result. `buf'` is whatever a chunked projector leaves in its buffer. -/
noncomputable def Projector.call (buf' : ℕ → ℕ → ℝ) (f : Feat) (e : ℤ) : Projector → Projector × Except Err (List (List ℝ))
  | .basic d c st =>
    match preprocess f with
    | .error x => (.basic d c st, .error x)
    | .ok r => let o := basicCall c st r.1 r.2 e
               (.basic d c o.1, o.2)
  | .cuda p =>
    match preprocess f with
    | .error x => (.cuda (partAfter e p), .error x)
    | .ok r => let o := cudaCall p r.1 r.2 e
               (.cuda o.1, o.2)
  | .chunked m fbs p parts buf => (.chunked m fbs p (parts.map (partAfter e)) buf', chunkedCall m fbs p parts buf f e)

/-- The projector after a sequence of calls. -/
noncomputable def Projector.run (h : List ((ℕ → ℕ → ℝ) × Feat × ℤ)) (p : Projector) : Projector :=
  h.foldl (fun p x => (p.call x.1 x.2.1 x.2.2).1) p

end Verif.Projection
