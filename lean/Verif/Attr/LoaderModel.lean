import Verif.Attr.DropModel
import Verif.KNN.DropModel
import Verif.TRAK.Model
import Verif.RPS.Model
import Verif.BlockIF.MetaModel
import Mathlib.Data.Finset.Basic
import Mathlib.Data.Finset.SDiff

/-!
# Loaders with a batch sampler, without automatic batching, or over iterable data sets

`DataLoader(ds, batch_sampler=...)`, `DataLoader(ds, batch_size=None)` and loaders over an `IterableDataset` are ordinary PyTorch loaders, but their
`batch_size` may be `None` and their `sampler` may have no length. Here the attributes the library reads off a loader are explicit.

PyTorch primitive: the constructor sets `batch_size` to `None` when a batch sampler is given (it then refuses a sampler), the sampler of a map-style data
set defaults to `SequentialSampler` (which has a length but no `indices`), and the sampler of an iterable data set has no length.

Simplifications: loaders are not shuffled unless stated; positions given by a sampler or a batch sampler are inside the data set; gradients,
representations and distances are computed without error and sample by sample; `relatif_method` is not used.
-/

namespace Verif.LoaderKind

open Verif

/-- What a loader hands out in one iteration: a collated batch of data set items, or one item as the data set returns it (no automatic batching). -/
inductive Out (X : Type)
  | collated (xs : List X)
  | raw (x : X)

/-- How a loader was constructed: over the data set `data 0, ..., data (n-1)`, with an optional sampler having the attribute `indices`
(`SubsetSampler`, benchmark/utils.py:83-113). -/
inductive DL (X : Type)
  | sized (data : ℕ → X) (n : ℕ) (indices : Option (List ℕ)) (bs : ℕ) (drop : Bool)
  | batchSampler (data : ℕ → X) (n : ℕ) (idx : List (List ℕ))
  | unbatched (data : ℕ → X) (n : ℕ) (indices : Option (List ℕ))
  | iterable (data : ℕ → X) (n : ℕ) (bs : Option ℕ)

variable {X S C R : Type}

/-- `loader.dataset[i]`. -/
def DL.data : DL X → ℕ → X
  | .sized d _ _ _ _ => d
  | .batchSampler d _ _ => d
  | .unbatched d _ _ => d
  | .iterable d _ _ => d

/-- A loader built by `DataLoader(subset, batch_size=bs)`: batches of `bs` items, or single items for `batch_size=None` (PyTorch primitive). -/
def group (bs : Option ℕ) (items : List X) : List (Out X) :=
  match bs with
  | some b => (batches b items).map Out.collated
  | none => items.map Out.raw

/-- The positions visited by the sampler, in order. -/
def order (n : ℕ) (indices : Option (List ℕ)) : List ℕ := indices.getD (List.range n)

/-- One pass over the loader (PyTorch primitive). -/
def DL.out : DL X → List (Out X)
  | .sized d n ix bs drop =>
    let l : DLoader X := ⟨(order n ix).map d, bs, drop⟩
    (List.range l.nb).map fun b => Out.collated (l.batch b)
  | .batchSampler d _ idx => idx.map fun b => Out.collated (b.map d)
  | .unbatched d n ix => ((order n ix).map d).map Out.raw
  | .iterable d n bs => group bs ((List.range n).map d)

/-- `loader.batch_size`. -/
def DL.batchSize : DL X → Option ℕ
  | .sized _ _ _ bs _ => some bs
  | .batchSampler _ _ _ => none
  | .unbatched _ _ _ => none
  | .iterable _ _ bs => bs

/-- `len(loader.sampler)`. -/
def DL.samplerLen : DL X → Except Err ℕ
  | .sized _ n ix _ _ => .ok (order n ix).length
  | .batchSampler _ n _ => .ok n
  | .unbatched _ n ix => .ok (order n ix).length
  | .iterable _ _ _ => .error .typeError

/-- `len(loader)`; iterable data sets are taken without a length. -/
def DL.len : DL X → Except Err ℕ
  | .sized d n ix bs drop => .ok (DLoader.nb (⟨(order n ix).map d, bs, drop⟩ : DLoader X))
  | .batchSampler _ _ idx => .ok idx.length
  | .unbatched _ n ix => .ok (order n ix).length
  | .iterable _ _ _ => .error .typeError

/-- `loader.sampler.indices`. -/
def DL.samplerIndices : DL X → Except Err (List ℕ)
  | .sized _ _ (some ix) _ _ => .ok ix
  | .unbatched _ _ (some ix) => .ok ix
  | _ => .error .attributeError

/-- `loader.drop_last`. -/
def DL.dropLast : DL X → Bool
  | .sized _ _ _ _ drop => drop
  | _ => false

/-! ## Attributors that place blocks by batch number -/

/-- `st = k * loader.batch_size; ed = min((k + 1) * loader.batch_size, len(loader.sampler))` (base.py:432-442, tracin.py:229-239, 365-369,
data_shapley.py:169-179): multiplying an integer with `None` raises `TypeError`. -/
def span (l : DL X) (k : ℕ) : Except Err (ℕ × ℕ) :=
  match l.batchSize with
  | none => .error .typeError
  | some b => do
    let n ← l.samplerLen
    pure (k * b, min ((k + 1) * b) n)

/-- The double loop over pairs of batches (base.py:343-448, tracin.py:130-256); `view` gives the samples of a batch. -/
def pairs [Add R] (view : Out X → List S) (tr te : DL X) (blk : List S → List S → Mat R) (M : Mat R) : Except Err (Mat R) :=
  tr.out.zipIdx.foldlM (fun M b => te.out.zipIdx.foldlM (fun M t => do
    let r ← span tr b.2
    let c ← span te t.2
    liftO (M.addBlock r.1 r.2 c.1 c.2 (blk (view b.1) (view t.1)))) M) M

/-- `attribute` of the inner-product attributors (base.py:321-452); `blk c` is the product of the representations of two batches at checkpoint `c`
(`Verif.Attr.block`). -/
def ifAttribute [Field R] (view : Out X → List S) (blk : C → List S → List S → Mat R) (ckpts : List C) (tr te : DL X) : Except Err (Mat R) := do
  let n ← tr.samplerLen
  let m ← te.samplerLen
  ckpts.zipIdx.foldlM (fun M ci => do
    let M := Attr.Mat.scale M (ci.2 : R)
    let M ← pairs view tr te (blk ci.1) M
    pure (Attr.Mat.divBy M ((ci.2 + 1 : ℕ) : R))) (Mat.zeros n m)

/-- `self_attribute` of the inner-product attributors (base.py:482-589): no batch numbers, the values of a batch are added to the whole vector; `sc c`
is the product of the two representations of a sample. -/
def ifSelf [Field R] (view : Out X → List S) (sc : C → S → R) (ckpts : List C) (tr : DL X) : Except Err (Vec R) := do
  let n ← tr.samplerLen
  ckpts.zipIdx.foldlM (fun v ci => do
    let v : Vec R := ⟨v.n, fun i => v.f i * (ci.2 : R)⟩
    let v ← tr.out.foldlM (fun v o =>
      liftO (v.addIn ⟨(view o).length, fun i => (((view o)[i]?).map (sc ci.1)).getD 0⟩)) v
    pure (⟨v.n, fun i => v.f i / ((ci.2 + 1 : ℕ) : R)⟩ : Vec R)) ⟨n, fun _ => 0⟩

/-- `TracInAttributor.attribute` (tracin.py:94-258); `blk` is `Verif.TracIn.block`. -/
noncomputable def tracin {d : ℕ} (view : Out X → List S) (A : TracIn.Attributor S C d) (tr te : DL X) : Except Err (Mat ℝ) :=
  if A.ckpts.length ≠ A.weights.length then .error .valueError
  else do
    let n ← tr.samplerLen
    let m ← te.samplerLen
    (A.ckpts.zip A.weights).foldlM (fun M cw => pairs view tr te (TracIn.block A cw.1 cw.2) M) (Mat.zeros n m)

/-- `TracInAttributor.self_attribute` (tracin.py:281-384). -/
noncomputable def tracinSelf {d : ℕ} (view : Out X → List S) (A : TracIn.Attributor S C d) (tr : DL X) : Except Err (Vec ℝ) :=
  if A.ckpts.length ≠ A.weights.length then .error .valueError
  else do
    let n ← tr.samplerLen
    (A.ckpts.zip A.weights).foldlM (fun v cw => tr.out.zipIdx.foldlM (fun v b => do
      let r ← span tr b.2
      liftO (v.addSlice r.1 r.2 (TracIn.selfBlock A cw.1 cw.2 (view b.1)))) v) ⟨n, fun _ => 0⟩

/-- A label list is compared with the length of the sampler when it is given (data_shapley.py:129-137). -/
def checkLabels {L : Type} (o : Option (List L)) (l : DL X) : Except Err Unit :=
  match o with
  | none => .ok ()
  | some ls => do
    let n ← l.samplerLen
    if ls.length ≠ n then .error .valueError else .ok ()

/-- The fitting loop of KNN-Shapley (data_shapley.py:156-189). -/
def knnFit {L : Type} (view : Out X → List S) (dist : S → S → ℚ) (lab : S → L) (tr te : DL X) (n m : ℕ) (st : KNN.Fit L) : Except Err (KNN.Fit L) :=
  te.out.zipIdx.foldlM (fun st t => do
    let st ← tr.out.zipIdx.foldlM (fun (st : KNN.Fit L) b => do
      let c ← span tr b.2
      let r ← span te t.2
      let D ← liftO (st.dist.addBlock r.1 r.2 c.1 c.2 (KNN.distBlock dist (view t.1) (view b.1)))
      pure (⟨D, if st.trl.length ≠ n then st.trl ++ (view b.1).map lab else st.trl, st.tel⟩ : KNN.Fit L)) st
    pure (⟨st.dist, st.trl, if st.tel.length ≠ m then st.tel ++ (view t.1).map lab else st.tel⟩ : KNN.Fit L)) st

/-- `KNNShapleyAttributor.attribute` (data_shapley.py:126-212); the part after the fitting loop as in `Verif.KNN.knnAttributeD`. -/
def knn {L : Type} [DecidableEq L] (view : Out X → List S) (K : ℕ) (dist : S → S → ℚ) (lab : S → L)
    (srt : (n : ℕ) → (Fin n → ℚ) → Equiv.Perm (Fin n)) (tr te : DL X) (trl tel : Option (List L)) : Except Err (Mat ℚ) := do
  checkLabels trl tr
  checkLabels tel te
  let n ← tr.samplerLen
  let m ← te.samplerLen
  let st ← knnFit view dist lab tr te n m ⟨Mat.zeros m n, trl.getD [], tel.getD []⟩
  if m = 0 then .ok (Mat.zeros 0 n)
  else if n = 0 then .error .indexError
  else if st.trl.length < n ∨ st.tel.length < m then .error .indexError
  else if K = 0 ∧ 2 ≤ n then .error .zeroDivisionError
  else .ok ⟨m, n, fun j => KNN.knnRow n K (KNN.nnOf srt n (st.dist.f j)) (fun a => decide (st.trl[a]? = st.tel[j]?))⟩

/-! ## Attributors that concatenate batches -/

/-- Collect the rows of all batches and `torch.cat` them (trak.py:141-193, 272-329, 332-370, 460-517): `torch.cat([])` raises `RuntimeError`. -/
def catOut {α : Type} (view : Out X → List S) (l : DL X) (f : S → α) : Except Err (List α) :=
  let rows := l.out.foldl (fun acc o => acc ++ [(view o).map f]) ([] : List (List α))
  if rows = [] then .error .runtimeError else .ok rows.flatten

/-- One checkpoint of `TRAKAttributor.attribute` without a cache (trak.py:251-390). -/
noncomputable def trakStep [Field R] {d : ℕ} (view : Out X → List S) (A : TRAK.Attributor R S C d) (tr te : DL X)
    (s : Option (Mat R) × Option (List R)) (ci : C × ℕ) : Except Err (Option (Mat R) × Option (List R)) := do
  let Φ ← catOut view tr (A.phiLoss ci.1)
  let q ← catOut view tr (fun x : S => 1 - A.prob ci.1 x)
  let Ψ ← catOut view te (A.phiTarget ci.1)
  let inv ← TRAK.solveT A.reg Φ
  pure (some (TRAK.runMat s.1 ci.2 (TRAK.prod Ψ inv)), some (TRAK.runQ s.2 ci.2 q))

/-- `TRAKAttributor.attribute(test, train)` of a fresh attributor (trak.py:231-392): it reads neither `batch_size` nor the length of the sampler. -/
noncomputable def trak [Field R] {d : ℕ} (view : Out X → List S) (A : TRAK.Attributor R S C d) (tr te : DL X) : Except Err (Mat R) := do
  let s ← A.ckpts.zipIdx.foldlM (trakStep view A tr te) (none, none)
  TRAK.finish s.1 s.2

/-- `RPSAttributor.attribute(train, test)` of a fresh attributor (rps.py:121-182, hook.py:59-67): iterates over the loaders only. -/
noncomputable def rps {p c : ℕ} (view : Out X → List S) (A : RPS.Attributor S p c) (tr te : DL X) :
    RPS.St p c × Except Err (List (List (Option ℝ))) :=
  A.attribute' RPS.St.init (tr.out.map view) (te.out.map view)

/-! ## The block-projected attributor -/

/-- `initialize_complete_dataset` (metadata.py:61-107) on a metadata manager `m`: the sizes of the batches are computed from `batch_size`, unless the
manager already knows as many batches as the loader has. -/
def metaInit (m : BlockIF.Meta) (l : DL X) : Except Err BlockIF.Meta := do
  let total ← l.len
  if m.info.length = total then pure m
  else do
    let n ← l.samplerLen
    match l.batchSize with
    | some b => pure (m.initialize ⟨total, b, n, l.dropLast, true⟩)
    | none => if total = 0 then pure (m.initialize ⟨0, 0, n, l.dropLast, true⟩) else .error .typeError

/-! ## Retraining -/

/-- The loaders `retrain_loo` hands to `train_func`, one per index (retrain.py:95-126). -/
def looLoaders (l : DL X) (indices : Option (List ℤ)) : Except Err (List (ℤ × List (Out X))) := do
  let n ← l.samplerLen
  pure ((indices.getD ((List.range n).map Int.ofNat)).map fun index =>
    (index, group l.batchSize (((List.range n).filter fun idx : ℕ => (idx : ℤ) ≠ index).map l.data)))

/-- The loaders `retrain_lds` hands to `train_func` (retrain.py:229-265): `choice n i` are the positions drawn for subset `i`, and `shuffle` is the order in
which a pass over the (shuffled) loader visits its items. -/
def ldsLoaders (l : DL X) (choice : ℕ → ℕ → List ℕ) (shuffle : ℕ → List ℕ → List ℕ) (start num : ℕ) : Except Err (List (List (Out X))) := do
  let n ← l.samplerLen
  pure ((List.range num).map fun i => group l.batchSize ((shuffle (start + i) (choice n (start + i))).map l.data))

/-- The loader `check_if_flip` hands to `train_func` (britteness.py:98-108). -/
def flipLoader (enum : Finset ℕ → List ℕ) (l : DL X) (remove : List ℕ) : Except Err (List (Out X)) := do
  let ix ← l.samplerIndices
  pure (group l.batchSize ((enum (ix.toFinset \ remove.toFinset)).map l.data))

end Verif.LoaderKind
