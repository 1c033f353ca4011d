import Verif.Base.Tensor

/-!
# Gradient tracking and the caller's gradient mode

A model of which score tensors carry a gradient history, and of which calls raise, depending on whether the
caller switched gradients off with `torch.no_grad()`.

A tensor is represented by its two sizes and the flag `requires_grad`.  The values of the entries are left out:
no branch of the modelled code that matters here looks at them.  `g : Bool` is always PyTorch's gradient mode at
the time of the call (`true` outside `torch.no_grad()`).
-/

namespace Verif.GradMode

open Verif

/-! ## PyTorch primitives -/

/-- A 2-d tensor: number of rows, number of columns, and `requires_grad`. -/
structure Ten where
  rows : ℕ
  cols : ℕ
  tracked : Bool
  deriving DecidableEq, Repr

/-- A freshly created tensor (`torch.zeros`, `torch.ones`, `new_ones`): no history. -/
def fresh (r c : ℕ) : Ten := ⟨r, c, false⟩

/-- A differentiable operation with one argument, giving a tensor of the stated size: the result has a history if
the argument has one and gradients are on. -/
def op1 (g : Bool) (r c : ℕ) (a : Ten) : Ten := ⟨r, c, g && a.tracked⟩

/-- The same with two arguments. -/
def op2 (g : Bool) (r c : ℕ) (a b : Ten) : Ten := ⟨r, c, g && (a.tracked || b.tracked)⟩

/-- `a @ b.T` -/
def matmulT (g : Bool) (a b : Ten) : Ten := op2 g a.rows b.rows a b

/-- `t.detach()` -/
def Ten.detach (t : Ten) : Ten := ⟨t.rows, t.cols, false⟩

/-- `out[...] += blk`, also `out += blk`: in place, so that `out` keeps a history it already has. -/
def addInto (g : Bool) (out blk : Ten) : Ten := ⟨out.rows, out.cols, out.tracked || (g && blk.tracked)⟩

/-- `torch.cat(list, dim=0)`; raises for an empty list. -/
def cat (g : Bool) : List Ten → Except Err Ten
  | [] => .error .runtimeError
  | t :: ts => .ok ⟨((t :: ts).map (·.rows)).sum, t.cols, g && (t :: ts).any (·.tracked)⟩

/-- `t.backward()`: raises for a tensor without history. -/
def backward (t : Ten) : Except Err Unit := if t.tracked then .ok () else .error .runtimeError

/-- `t.retain_grad()`: raises for a tensor without history. -/
def retainGrad (t : Ten) : Except Err Unit := if t.tracked then .ok () else .error .runtimeError

/-- `t.numpy()` and the conversions of scipy, which use it: raises for a tensor with a history, unless gradients
are off. -/
def numpy (g : Bool) (t : Ten) : Except Err Unit :=
  if g && t.tracked then .error .runtimeError else .ok ()

/-! ## The task -/

/-- What matters about a task.  `B` is the type of batches. -/
structure Task (B : Type) where
  /-- number of samples of a batch -/
  size : B → ℕ
  /-- number of checkpoints -/
  nck : ℕ
  /-- number of parameters used -/
  p : ℕ
  /-- whether the gradient of the training loss on the batch is (in autograd) a function of the weights, as for
  cross-entropy; it is not for a loss that is linear in the weights -/
  lossDep : ℕ → B → Bool
  /-- the same for the target function -/
  targetDep : ℕ → B → Bool

variable {B : Type}

/-- `task.get_param` (dattri/task.py:426-452) with `flatten_params` (dattri/func/utils.py:86-90): the entries of
the live parameters are copied into a new tensor, which is differentiable in the parameters. -/
def getParam (g : Bool) (T : Task B) : Ten := ⟨1, T.p, g⟩

/-- `vmap(grad(f))(params, data)` (dattri/task.py:252-257, 338-343): differentiates whatever the gradient mode;
the result has a history if gradients are on outside, the weights have one and the gradient depends on them. -/
def gradRep (g : Bool) (dep : Bool) (n : ℕ) (params : Ten) : Ten := ⟨n, params.cols, g && params.tracked && dep⟩

/-- `generate_train_rep` (dattri/algorithm/base.py:184-189). -/
def trainRep (g : Bool) (T : Task B) (ck : ℕ) (b : B) : Ten := gradRep g (T.lossDep ck b) (T.size b) (getParam g T)

/-- `generate_test_rep` (dattri/algorithm/base.py:150-154). -/
def testRep (g : Bool) (T : Task B) (ck : ℕ) (b : B) : Ten := gradRep g (T.targetDep ck b) (T.size b) (getParam g T)

/-! ## The inner-product attributors -/

/-- The subclasses of `BaseInnerProductAttributor` in dattri/algorithm/influence_function.py. -/
inductive Kind
  | explicit | cg | lissa | arnoldi | datainf | ekfac
  deriving DecidableEq, Repr

/-- The attributes set by `cache`. -/
structure St (B : Type) where
  /-- `full_train_dataloader` -/
  full : Option (List B) := none
  /-- `arnoldi_projectors`: whether the attribute exists -/
  projectors : Bool := false
  /-- `_cached_train_reps`: by checkpoint -/
  reps : Option (List Ten) := none
  /-- `cached_lambdas`, `cached_q`: whether they exist, and whether they have entries -/
  stats : Option Bool := none

/-- The batch loop of `estimate_covariance` (dattri/func/fisher.py:422-449) and `estimate_lambda` (517-544) with
the hook of `cache` (influence_function.py:984): the forward pass calls `retain_grad` on the outputs, then the
loss is differentiated. The outputs and the loss are functions of the parameters.  The statistics themselves are
computed without gradients. -/
def ekfacPass (g : Bool) (T : Task B) (full : List B) : Except Err Unit :=
  full.forM fun b : B => do
    let outputs := op1 g (T.size b) 1 (getParam g T)
    retainGrad outputs
    let loss := op1 g 1 1 outputs
    backward loss

/-- `cache` of the six attributors: base.py:243-256 for explicit, CG and LiSSA; influence_function.py:380-432
(Arnoldi), 696-735 (DataInf), 949-1021 (EK-FAC).  `k` is the number of batches used by Arnoldi and DataInf
(`math.ceil(len(loader) * ratio)`).  What a failed call leaves behind is not modelled. -/
def cache (kind : Kind) (g : Bool) (T : Task B) (k : ℕ) (full : List B) (s : St B) : Except Err (St B) :=
  match kind with
  | .explicit | .cg | .lissa => .ok { s with full := some full }
  | .arnoldi =>
    -- `data_target_pair_list[0]`
    if full.take k = [] then .error .indexError else .ok { s with full := some full, projectors := true }
  | .datainf => do
    let reps ← (List.range T.nck).mapM fun ck : ℕ => cat g ((full.take k).map (trainRep g T ck))
    return { s with full := some full, reps := some reps }
  | .ekfac => do
    ekfacPass g T full
    ekfacPass g T full
    return { s with full := some full, stats := some (!full.isEmpty) }

/-- `vector_product = 0; for full_data in loader: vector_product += ihvp(...).detach()`
(influence_function.py:102-132, 245-275, 558-589).  `none` is the integer 0 that is left for an empty loader. -/
def ihvpLoop (g : Bool) (T : Task B) (test : Ten) : List B → Option Ten → Option Ten
  | [], acc => acc
  | _ :: bs, acc =>
    let v := (op2 g test.rows T.p (getParam g T) test).detach
    ihvpLoop g T test bs (some (match acc with | none => v | some a => addInto g a v))

/-- `transform_test_rep`: influence_function.py:81-132, 223-275, 538-589 (explicit, CG, LiSSA), 434-459
(Arnoldi), 737-821 (DataInf), 1023-1088 (EK-FAC). -/
def transformTest (kind : Kind) (g : Bool) (T : Task B) (s : St B) (ck : ℕ) (test : Ten) : Except Err (Option Ten) :=
  match kind with
  | .explicit | .cg | .lissa => .ok (ihvpLoop g T test (s.full.getD []) none)
  | .arnoldi =>
    if s.projectors then .ok (some (op1 g test.rows T.p test).detach) else .error .valueError
  | .datainf =>
    match s.reps with
    | none => .error .attributeError
    | some reps =>
      match reps[ck]? with
      | none => .error .keyError
      | some r => .ok (some (op2 g test.rows T.p test r))
  | .ekfac =>
    if ck ≠ 0 then .error .valueError
    else match s.stats with
      | none => .error .attributeError
      | some false => .error .keyError
      | some true => .ok (some (op1 g test.rows T.p test))

/-- `transform_train_rep`: base.py:217-241, and influence_function.py:461-486 for Arnoldi. -/
def transformTrain (kind : Kind) (g : Bool) (T : Task B) (s : St B) (train : Ten) : Except Err Ten :=
  match kind with
  | .arnoldi => if s.projectors then .ok (op1 g train.rows T.p train).detach else .error .valueError
  | _ => .ok train

/-- The values of `relatif_method` other than `None`. -/
inductive Relatif
  | l | theta | other
  deriving DecidableEq, Repr

/-- `_compute_denom`: influence_function.py:163-174, 306-317, 637-648 (explicit, CG, LiSSA); base.py:284-288 for the
others.  Multiplication by the integer 0 that `transform_test_rep` returns for an empty loader works, its `norm`
does not exist. -/
def denom (kind : Kind) (g : Bool) (T : Task B) (s : St B) (ck : ℕ) (train : Ten) (test : Option Ten) (m : Relatif) :
    Except Err Ten :=
  match kind with
  | .explicit | .cg | .lissa => do
    let transformed ← transformTest kind g T s ck train
    match m, test, transformed with
    | .l, some t, some tr => .ok (op2 g 1 train.rows t tr)
    | .l, some t, none => .ok (op1 g 1 train.rows t)
    | .l, none, _ => .error .typeError
    | .theta, _, some tr => .ok (op1 g 1 train.rows tr)
    | .theta, _, none => .error .attributeError
    | .other, _, _ => .error .valueError
  | _ => .ok (fresh 1 train.rows)

/-- One turn of the test loop (base.py:395-448). -/
def testStep (kind : Kind) (g : Bool) (T : Task B) (s : St B) (ck : ℕ) (train : Ten) (den : Option Ten) (out : Ten)
    (b : B) : Except Err Ten := do
  let t ← transformTest kind g T s ck (testRep g T ck b)
  match t with
  -- `0 .T`
  | none => .error .attributeError
  | some t =>
    let prod := matmulT g train t
    match den with
    | none => .ok (addInto g out prod)
    | some d => .ok (addInto g out (op2 g prod.rows prod.cols prod d))

/-- One turn of the training loop (base.py:343-448). -/
def trainStep (kind : Kind) (g : Bool) (T : Task B) (s : St B) (m : Option Relatif) (test : List B) (ck : ℕ) (out : Ten)
    (b : B) : Except Err Ten := do
  let rep := trainRep g T ck b
  let den ← match m with
    | none => pure none
    | some m => do
      let d ← denom kind g T s ck rep (if m = .l then some (testRep g T ck b) else none) m
      pure (some d)
  let rep ← transformTrain kind g T s rep
  test.foldlM (testStep kind g T s ck rep den) out

/-- `attribute` (base.py:290-452).  The scaling `tda_output *= checkpoint_idx` and `/= checkpoint_idx + 1` keeps
the flag.  The checks of shuffling are left out. -/
def attributeIF (kind : Kind) (g : Bool) (T : Task B) (m : Option Relatif) (train test : List B) (s : St B) :
    Except Err Ten :=
  let s : St B := { s with full := some (s.full.getD train) }
  (List.range T.nck).foldlM (fun (out : Ten) (ck : ℕ) => train.foldlM (trainStep kind g T s m test ck) out)
    (fresh (train.map T.size).sum (test.map T.size).sum)

/-! ## TracIn and TRAK -/

/-- `TracInAttributor.attribute` (dattri/algorithm/tracin.py:69-258): every block is detached before it is added.
Projection and normalization keep the flag. -/
def tracin (g : Bool) (T : Task B) (train test : List B) : Ten :=
  (List.range T.nck).foldl (fun (out : Ten) (ck : ℕ) =>
    train.foldl (fun (out : Ten) (b : B) =>
      test.foldl (fun (out : Ten) (c : B) =>
        addInto g out (matmulT g (trainRep g T ck b) (testRep g T ck c)).detach) out) out)
    (fresh (train.map T.size).sum (test.map T.size).sum)

/-- Projected gradients of a loader in `TRAKAttributor` (dattri/algorithm/trak.py:163-180, 293-313, 354-370):
projected, cloned and detached batch by batch, then concatenated. -/
def trakGrads (g : Bool) (rep : B → Ten) (l : List B) : Except Err Ten :=
  cat g (l.map fun b : B => (op1 g (rep b).rows (rep b).cols (rep b)).detach)

/-- One checkpoint of `TRAKAttributor.attribute` with a training loader (trak.py:251-390) or with what `cache` left
(trak.py:123-202), which computes the same: the projected gradients of both sets and the weights `Q`, all detached. -/
def trakStep (g : Bool) (T : Task B) (train test : List B) (acc : Ten) (ck : ℕ) : Except Err Ten := do
  let phi ← trakGrads g (trainRep g T ck) train
  let q ← cat g (train.map fun b : B => (op1 g (T.size b) 1 (getParam g T)).detach)
  let psi ← trakGrads g (testRep g T ck) test
  let x := op2 g psi.rows phi.rows psi phi
  return op2 g acc.rows acc.cols acc (op2 g x.rows x.cols x q)

/-- `TRAKAttributor.attribute` (trak.py:204-393).  The two running averages are kept together, as a tensor that
starts without history. -/
def trak (g : Bool) (T : Task B) (train test : List B) : Except Err Ten :=
  (List.range T.nck).foldlM (trakStep g T train test) (fresh (train.map T.size).sum (test.map T.size).sum)

/-! ## The attributors that call `backward` -/

/-- The loop of `rps_finetune_theta` (dattri/algorithm/utils.py:130-165): up to `epochs` steps, each of which
differentiates the loss in a leaf `theta`; `stop` says after how many steps the gradient is small enough.  With no
step `finetuned_theta` is unbound.  Returns `theta.data`. -/
def finetune (g : Bool) (epochs stop : ℕ) (rows cols : ℕ) : Except Err Ten := do
  (List.range (min epochs (stop + 1))).forM fun _ : ℕ => backward (op1 g 1 1 ⟨rows, cols, true⟩)
  if epochs = 0 then .error .unboundLocalError else .ok ⟨rows, cols, false⟩

/-- `RPSAttributor.attribute` (dattri/algorithm/rps.py:121-183): `theta` is what `cache` (71-99) left, if it was
called; the features are detached (dattri/model_util/hook.py:53-66), and `alpha` is differentiated from them. -/
def rps (g : Bool) (epochs stop classes : ℕ) (T : Task B) (train test : List B) (theta : Option Ten) : Except Err Ten := do
  let x ← cat g (train.map fun b : B => fresh (T.size b) T.p)
  let theta ← match theta with
    | some t => pure t
    | none => finetune g epochs stop classes T.p
  let x' ← cat g (test.map fun b : B => fresh (T.size b) T.p)
  let pre := op2 g x.rows classes x theta
  let alpha := gradRep g true x.rows pre
  let k := matmulT g x x'
  return op2 g k.rows k.cols k alpha

/-- The gradient loop of the block-projected attributor (block_projected_if.py:248-294, 848-900): forward pass,
`loss.backward()`, and the compressed gradients are read without gradients. -/
def blockGrads (g : Bool) (T : Task B) (l : List B) : Except Err (List Ten) :=
  l.mapM fun b : B => do
    backward (op1 g 1 1 ⟨1, T.p, true⟩)
    pure (fresh (T.size b) T.p)

/-- `attribute` of the block-projected attributor (block_projected_if.py:681-813) with the gradients `train` that
`cache` stored: the inverse Fisher product and the scores are computed from tensors without history. -/
def block (g : Bool) (T : Task B) (train : List Ten) (test : List B) : Except Err Ten := do
  let t ← blockGrads g T test
  return train.foldl (fun (out a : Ten) => t.foldl (fun (out b : Ten) => addInto g out (matmulT g a b)) out)
    (fresh (train.map (·.rows)).sum (test.map T.size).sum)

/-- Gradients of one batch in `DVEmbAttributor`: with factors `_calculate_gradient_factors`
(dattri/algorithm/dvemb.py:492-504; the hooks 235, 248 detach), without `_calculate_full_gradients` (424-452), which
detaches the weights. -/
def dvGrads (factors : Bool) (g : Bool) (T : Task B) (b : B) : Except Err Ten :=
  if factors then do
    backward (op1 g 1 1 ⟨1, T.p, true⟩)
    pure (fresh (T.size b) T.p)
  else .ok (gradRep g (T.lossDep 0 b) (T.size b) (getParam g T).detach)

/-- `DVEmbAttributor.attribute` (dvemb.py:829-866) with embeddings `emb`. -/
def dvemb (factors : Bool) (g : Bool) (T : Task B) (emb : Ten) (test : List B) : Except Err Ten := do
  let gs ← test.mapM (dvGrads factors g T)
  let t ← cat g gs
  return matmulT g emb t

/-! ## The metrics -/

/-- `lds` (dattri/metric/metrics.py:42-75) up to the values: the subset sums are differentiable in the scores, then
scipy converts, test sample by test sample, the sums and the column of the ground truth. -/
def lds (g : Bool) (score gt : Ten) (indices : List (List ℕ)) : Except Err Unit := do
  let num := indices.length
  -- `score[:, indices[i]]`
  if indices.any (fun l : List ℕ => l.any (fun i : ℕ => decide (score.rows ≤ i))) then throw .indexError
  -- `torch.stack` of an empty list
  if num = 0 then throw .runtimeError
  let sums := op1 g num score.cols score
  let columns (_ : Unit) : Except Err Unit := (List.range score.cols).forM fun i : ℕ => do
    if gt.cols ≤ i then throw .indexError
    numpy g (op1 g num 1 sums)
    numpy g (op1 g gt.rows 1 gt)
    if num ≠ gt.rows then throw .valueError
  columns ()
  if score.cols = 0 then throw .runtimeError

/-- `loo_corr` (metrics.py:103-128). -/
def looCorr (g : Bool) (score gt : Ten) : Except Err Unit := do
  (List.range score.cols).forM fun i : ℕ => do
    if gt.cols ≤ i then throw .indexError
    numpy g (op1 g score.rows 1 score)
    numpy g (op1 g gt.rows 1 gt)
    if score.rows ≠ gt.rows ∨ score.rows < 2 then throw .valueError
  if score.cols = 0 then throw .runtimeError

/-- The conversions in `mislabel_detection_auc` (metrics.py:155-166): of the marks of the noisy samples and, for
every threshold, of the positions found by `argsort`; integers never have a history. -/
def aucConversions (g : Bool) (score : Ten) : Except Err Unit := do
  numpy g (fresh 1 score.rows)
  (List.range score.rows).forM fun i : ℕ => numpy g (fresh 1 (i + 1))

/-- The conversion in `brittleness` (dattri/metric/britteness.py:54-55), for scores on the CPU. -/
def brittlenessConversion (g : Bool) (score : Ten) : Except Err Unit := numpy g score

/-- `calculate_loo_ground_truth` / `calculate_lds_ground_truth` (dattri/metric/ground_truth.py:83-95, 186-196): the
values of the user's target function are written into, or added to, a tensor of zeros, row by row. -/
def groundTruth (g : Bool) (n : ℕ) (values : List (List Ten)) : Ten :=
  values.foldl (fun (out : Ten) (row : List Ten) => row.foldl (addInto g) out) (fresh values.length n)

end Verif.GradMode
