import Verif.Base.Tensor
import Verif.TracIn.RoundModel

/-! # Precision of the numbers an attributor computes with

Every tensor is represented by the precision of its entries only.  The model's parameters, the data and so the per-sample
gradients have the precision `m`.

Primitives (PyTorch's rules, part of the trusted base): element-wise operations and concatenation of two tensors give the wider
precision; Python numbers and zero-dimensional tensors do not widen; matrix products, dot products and `einsum` of two
tensors raise `RuntimeError` unless the precisions agree; `torch.linalg.solve` and `torch.linalg.eigh` in addition are not
implemented for half precision; operations in place keep the precision of the tensor they write to; `torch.zeros`, `torch.ones`,
`torch.eye` and `torch.rand` give single precision. -/

namespace Verif.Prec

open Verif

/-- The precisions: float16, float32, float64. -/
inductive DT where
  | half
  | single
  | double
deriving DecidableEq

namespace DT

/-- Position in the order of the precisions. -/
def rank : DT → ℕ
  | half => 0
  | single => 1
  | double => 2

/-- Element-wise operation of two tensors (with dimensions). -/
def ew (a b : DT) : DT := if a.rank ≤ b.rank then b else a

end DT

open DT

/-- Matrix product, dot product or `einsum` of two tensors. -/
def mm (a b : DT) : Except Err DT := if a = b then .ok a else .error .runtimeError

/-- `torch.linalg.solve(a, b)`. -/
def solve (a b : DT) : Except Err DT :=
  match a with
  | half => .error .runtimeError
  | _ => mm a b

/-- `torch.linalg.eigh(a)`. -/
def eigh (a : DT) : Except Err DT :=
  match a with
  | half => .error .runtimeError
  | _ => .ok a

/-- An operation in place, `target op= source`. -/
def inPlace (target _source : DT) : DT := target

/-- `torch.cat` or `torch.stack` of a list. -/
def cat : List DT → Except Err DT
  | [] => .error .runtimeError
  | a :: l => .ok (l.foldl ew a)

/-- Do something `n` times. -/
def times {S : Type} (n : ℕ) (body : S → Except Err S) (s : S) : Except Err S :=
  (List.range n).foldlM (fun s _ => body s) s

/-- `acc += x` where `acc` starts as the Python number 0 (`none`). -/
def accum (acc : Option DT) (x : DT) : Option DT :=
  match acc with
  | none => some x
  | some a => some (inPlace a x)

/-- `rep.T` of what `transform_test_rep` returns: if the loader of the full training set is empty this is still the number 0,
which has no attribute `T`. -/
def asTensor : Option DT → Except Err DT
  | none => .error .attributeError
  | some a => .ok a

/-! ## The transformations -/

/-- `ihvp_explicit`, hessian.py:265-270: the identity matrix is in single precision. -/
def ihvpExplicit (m v : DT) : Except Err DT := solve (ew m single) v

/-- `hvp_at_x`, hessian.py:176-221 (the product is formed in the parameters' precision, `regularization * v` is added). -/
def hvpAt (m v : DT) : DT := ew m v

/-- One pass of the loop of `ihvp_cg`, hessian.py:477-485.  State: `(ihvp_res, g_pre, d_pre, d)`. -/
def cgStep (m : DT) (s : DT × DT × DT × DT) : Except Err (DT × DT × DT × DT) := do
  let ad := hvpAt m s.2.2.2
  let _ ← mm s.2.1 s.2.2.1
  let _ ← mm s.2.2.2 ad
  let res := inPlace s.1 s.2.2.2
  let g := ew s.2.1 ad
  let _ ← mm g g
  let _ ← mm s.2.1 s.2.1
  pure (res, g, g, ew g s.2.2.2)

/-- `ihvp_cg`, hessian.py:466-486 (the quotients of dot products have no dimensions). -/
def ihvpCG (iters : ℕ) (m v : DT) : Except Err DT := do
  let g := ew v (hvpAt m v)
  let s ← times iters (cgStep m) (v, g, g, g)
  pure s.1

/-- `lissa_collate_fn`, influence_function.py:591-606: the parameters as they are, the data `.float()`. -/
def lissaCollate (m _data : DT) : DT × DT := (m, single)

/-- The loss of the user's model on parameters and data of given precisions: the weights are multiplied with the data. -/
def lossOf (params data : DT) : Except Err DT := mm params data

/-- One step of the recursion of `ihvp_lissa`, hessian.py:905-915. -/
def lissaStep (m data vec cur : DT) : Except Err DT := do
  let p := lissaCollate m data
  let _ ← lossOf p.1 p.2
  pure (ew (ew vec cur) m)

/-- `ihvp_lissa`, hessian.py:900-921, for given numbers of repetitions and steps. -/
def ihvpLissa (repeats depth : ℕ) (m data v : DT) : Except Err DT := do
  let ests ← times repeats (fun l : List DT => do
    let cur ← times depth (lissaStep m data v) v
    pure (l ++ [cur])) []
  cat ests

/-- `transform_test_rep` of the explicit, CG and LiSSA attributors, influence_function.py:81-132, 223-275, 538-589: a sum over
the batches of the full training set. -/
def overFull (full : ℕ) (ihvp : DT → Except Err DT) (v : DT) : Except Err (Option DT) :=
  times full (fun acc : Option DT => do
    let x ← ihvp v
    pure (accum acc x)) none

/-- The inner loop of `_arnoldi_iter`, projection.py:954-956: `h_vec` against each earlier vector. -/
def arnoldiOrth (h : DT) (proj : List DT) : Except Err DT :=
  proj.foldlM (fun h p => do
    let _ ← mm h p
    pure (inPlace h p)) h

/-- One pass of the loop of `_arnoldi_iter`, projection.py:951-967.  The vectors so far and whether the loop was left; `small`
says whether the new vector's norm is below the tolerance. -/
def arnoldiStep (m : DT) (small : ℕ → Bool) (s : List DT × Bool) (n : ℕ) : Except Err (List DT × Bool) :=
  if s.2 then pure s
  else do
    let h ← arnoldiOrth (hvpAt m (s.1.getLastD single)) s.1
    pure (s.1 ++ [h], small n)

/-- `get_eigenspace` and `_distill`, projection.py:943-1030, with `iters` passes of the loop: the start vector and the matrix are
in single precision. -/
def arnoldiSpace (m : DT) (small : ℕ → Bool) (iters : ℕ) : Except Err DT := do
  let s ← (List.range iters).foldlM (arnoldiStep m small) ([single], false)
  let proj ← cat s.1
  let q ← eigh single
  mm q proj

/-- `project` of the Arnoldi projector, projection.py:1052-1064. -/
def arnoldiProject (m : DT) (small : ℕ → Bool) (iters : ℕ) (features : DT) : Except Err DT := do
  let q ← arnoldiSpace m small iters
  let r ← mm features q
  pure (ew r single)

/-- `_transform_single_test_rep` of DataInf, influence_function.py:782-784. -/
def dataInfOne (v grad : DT) : Except Err DT := do
  let coef ← mm v grad
  let r ← mm coef grad
  pure (ew v r)

/-- `transform_test_rep` of DataInf, influence_function.py:786-821: for each layer a buffer in single precision. -/
def dataInfTransform (layers chunks : ℕ) (cached v : DT) : Except Err DT := do
  let out ← times layers (fun l : List DT => do
    let run ← times chunks (fun run : DT => do
      let c ← dataInfOne v cached
      pure (inPlace run c)) single
    pure (l ++ [run])) []
  cat out

/-- One batch of `_update_covariance` for one layer, fisher.py:267-295: the mask is in single precision.  The pair of the
covariances of the inputs and of the gradients. -/
def covOne (m : DT) (est : Option (DT × DT)) : Except Err (Option (DT × DT)) := do
  let a := ew m single
  let covA ← mm a a
  let covS ← mm m m
  match est with
  | none => pure (some (covA, covS))
  | some e => pure (some (ew e.1 covA, ew e.2 covS))

/-- One batch of `_update_lambda` for one layer without a time dimension, fisher.py:337-381. -/
def lambdaOne (m : DT) (q : DT × DT) (est : Option DT) : Except Err (Option DT) := do
  let a := ew m single
  let dtheta ← mm m a
  let l ← mm q.2 dtheta
  let l ← mm l q.1
  match est with
  | none => pure (some l)
  | some e => pure (some (ew e l))

/-- `cache` of EK-FAC for one layer, influence_function.py:996-1017 with fisher.py:420-473, 515-546: the eigenvectors of the two
covariances and the eigenvalues.  Without batches the dictionaries have no entry for the layer. -/
def ekfacCache (m : DT) (batches : ℕ) : Except Err (Option (DT × DT × DT)) := do
  let cov ← times batches (covOne m) none
  match cov with
  | none => pure none
  | some c =>
    let qa ← eigh c.1
    let qs ← eigh c.2
    let l ← times batches (lambdaOne m (qa, qs)) none
    match l with
    | none => pure none
    | some l => pure (some (qa, qs, l))

/-- The transformation of one layer in EK-FAC's `transform_test_rep`, influence_function.py:1084-1087. -/
def ekfacTransform (c : Option (DT × DT × DT)) (v : DT) : Except Err DT :=
  match c with
  | none => .error .keyError
  | some c => do
    let a ← mm c.2.1 v
    let b ← mm a c.1
    let d := ew b c.2.2
    let e ← mm c.2.1 d
    mm e c.1

/-! ## The loops of the inner product attributors -/

/-- The argument `relatif_method`: `None`, `"l"` or `"theta"`. -/
inductive Relat where
  | none
  | l
  | theta
deriving DecidableEq

/-- RelatIF's denominator: `_compute_denom` of the explicit, CG and LiSSA attributors (`own`), influence_function.py:163-174,
306-317, 637-648 (a product with the number 0 is a tensor, its `norm` is not defined); else that of the base class,
base.py:287-288. -/
def denomOf (own : Bool) (transform : DT → Except Err (Option DT)) (m : DT) : Relat → Except Err (Option DT)
  | .none => .ok Option.none
  | .l =>
    if own then do
      let t ← transform m
      pure (some (ew m (t.getD m)))
    else .ok (some m)
  | .theta =>
    if own then do
      let t ← transform m
      let t ← asTensor t
      pure (some t)
    else .ok (some m)

/-- One block of scores, base.py:421-448: in place, so in the precision of the table. -/
def scoreBlock (m train : DT) (transformTest : DT → Except Err (Option DT)) (denom : Option DT) (out : DT) : Except Err DT := do
  let te ← transformTest m
  let te ← asTensor te
  let p ← mm train te
  match denom with
  | none => pure (inPlace out p)
  | some d => pure (inPlace out (ew p d))

/-- `attribute` of the inner product attributors, base.py:334-452: `ckpts` checkpoints, `tr` and `te` batches; the table of scores
is `torch.zeros`. -/
def attributeAll (m : DT) (transformTrain : DT → Except Err DT) (transformTest : DT → Except Err (Option DT)) (own : Bool)
    (relat : Relat) (ckpts tr te : ℕ) : Except Err DT :=
  times ckpts (times tr (fun out : DT => do
    let denom ← denomOf own transformTest m relat
    let train ← transformTrain m
    times te (scoreBlock m train transformTest denom) out)) single

/-- `self_attribute` of the inner product attributors, base.py:496-589, without RelatIF: the test transformation is repeated for
every batch, the last result is used. -/
def selfAttribute (m : DT) (transformTrain : DT → Except Err DT) (transformTest : DT → Except Err (Option DT))
    (ckpts tr : ℕ) : Except Err DT :=
  times ckpts (times tr (fun out : DT => do
    let train ← transformTrain m
    let t ← times tr (fun _ : Option DT => transformTest m) none
    let t ← asTensor t
    let p ← mm train t
    pure (inPlace out p))) single

/-- The attributors of influence_function.py and what their loops depend on. -/
inductive Method where
  /-- explicit Hessian -/
  | explicit
  /-- conjugate gradients, with the number of iterations -/
  | cg (iters : ℕ)
  /-- LiSSA: repetitions, steps -/
  | lissa (repeats depth : ℕ)
  /-- Arnoldi: passes of the loop and where it stops early -/
  | arnoldi (iters : ℕ) (small : ℕ → Bool)
  /-- DataInf: layers, chunks of the cached gradients -/
  | dataInf (layers chunks : ℕ)

/-- `transform_test_rep`, for a full training set of `full` batches. -/
def transformTest (M : Method) (m : DT) (full : ℕ) (v : DT) : Except Err (Option DT) :=
  match M with
  | .explicit => overFull full (ihvpExplicit m) v
  | .cg iters => overFull full (ihvpCG iters m) v
  | .lissa r d => overFull full (ihvpLissa r d m m) v
  | .arnoldi i s => do
    let r ← arnoldiProject m s i v
    pure (some r)
  | .dataInf l c => do
    let r ← dataInfTransform l c m v
    pure (some r)

/-- `transform_train_rep`: the identity (base.py:241) but for Arnoldi (influence_function.py:461-486). -/
def transformTrain (M : Method) (m : DT) (v : DT) : Except Err DT :=
  match M with
  | .arnoldi i s => arnoldiProject m s i v
  | _ => .ok v

/-- Which attributors define the denominator of RelatIF themselves. -/
def ownDenom : Method → Bool
  | .arnoldi _ _ => false
  | .dataInf _ _ => false
  | _ => true

/-- The precision of the scores of an influence function attributor for a model with parameters, data and gradients of precision
`m`, or the exception. -/
def ifScores (M : Method) (m : DT) (full : ℕ) (relat : Relat) (ckpts tr te : ℕ) : Except Err DT :=
  attributeAll m (transformTrain M m) (transformTest M m full) (ownDenom M) relat ckpts tr te

/-- The same for the influence of the training samples on themselves. -/
def ifSelf (M : Method) (m : DT) (full ckpts tr : ℕ) : Except Err DT :=
  selfAttribute m (transformTrain M m) (transformTest M m full) ckpts tr

/-- EK-FAC with one layer and one checkpoint: `cache` on `full` batches, then `attribute`. -/
def ekfacScores (m : DT) (full : ℕ) (relat : Relat) (tr te : ℕ) : Except Err DT := do
  let c ← ekfacCache m full
  attributeAll m .ok (fun v : DT => do
    let r ← ekfacTransform c v
    pure (some r)) false relat 1 tr te

/-- TracIn, tracin.py:104-258: the table is `torch.zeros`; normalisation and projection keep the precision. -/
def tracin (m : DT) (ckpts tr te : ℕ) : Except Err DT :=
  times ckpts (times tr (times te (fun out : DT => do
    let p ← mm m m
    pure (inPlace out p)))) single

/-- The loop over the batches of a training loader in TRAK, trak.py:141-193, 270-329: projected gradients and `1 - p`, where the
user's function of the correct probability gives precision `q`. -/
def trakPass (m q : DT) (batches : ℕ) : Except Err (DT × DT) := do
  let g ← times batches (fun l : List DT => pure (l ++ [m])) []
  let w ← times batches (fun l : List DT => pure (l ++ [ew single q])) []
  let g ← cat g
  let w ← cat w
  pure (g, w)

/-- `running * count + new`, then `/=`: the first time `running` is the number 0. -/
def runMean (run : Option DT) (x : DT) : Option DT :=
  match run with
  | none => some x
  | some r => some (ew r x)

/-- One checkpoint of TRAK's `attribute` with a training loader, trak.py:269-390. -/
def trakCkpt (m q : DT) (tr te : ℕ) (s : Option DT × Option DT) : Except Err (Option DT × Option DT) := do
  let p ← trakPass m q tr
  let t ← times te (fun l : List DT => pure (l ++ [m])) []
  let t ← cat t
  let k ← mm p.1 p.1
  let x ← solve k p.1
  let y ← mm t x
  pure (runMean s.1 y, runMean s.2 p.2)

/-- TRAK's `attribute` with a training loader, trak.py:251-392. -/
def trak (m q : DT) (ckpts tr te : ℕ) : Except Err DT := do
  let s ← times ckpts (trakCkpt m q tr te) (none, none)
  match s.1, s.2 with
  | some a, some b => pure (ew a b)
  | _, _ => .error .attributeError

/-! ## Values -/

/-- An entry of the table over the checkpoints, base.py:342, 444-450: `out *= i`, `out += s`, `out /= i + 1`, where `s` is the
score computed with the checkpoint in the model's precision and each operation in place is rounded by `fl` to the table's. -/
noncomputable def meanStep (fl : ℝ → ℝ) (out : ℝ) (i : ℕ) (s : ℝ) : ℝ := fl (fl (fl (out * i) + s) / (i + 1 : ℕ))

/-- The entry after all checkpoints. -/
noncomputable def meanEntry (fl : ℝ → ℝ) (s : ℕ → ℝ) : ℕ → ℝ
  | 0 => 0
  | k + 1 => meanStep fl (meanEntry fl s k) k (s k)

/-- An entry of the table of distances of KNN-Shapley, data_shapley.py:142-181: `zeros` in single precision, the block of distances
is written into it. -/
noncomputable def distEntry (d : ℝ) : ℝ := Verif.TracInRound.float32 d

end Verif.Prec
