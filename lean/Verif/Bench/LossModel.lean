import Verif.Base.Tensor
import Verif.Bench.LogRegModel
import Verif.Bench.MusicGenModel
import Mathlib.Data.Matrix.Mul

/-!
# The loss functions of the benchmarks

`loss_mnist_lr`, `loss_mnist_mlp`, `loss_imagenet_resnet18`, `loss_wikitext2_gpt2` and `loss_maestro_musictransformer`, and what
`calculate_lds_ground_truth` and `calculate_loo_ground_truth` make of their results.

Simplifications: real arithmetic; an image is the list of its pixels; the sizes 784, 128, 64 and 10 are parameters; devices, the seeds and the
logging are left out; every tensor on disk has the shape the network asks for, or the file does not fit at all.
-/

namespace Verif.BenchLoss

open Verif

variable {n h₁ h₂ c : ℕ} {X P S : Type}

/-! ### Cross entropy -/

/-- One term of `nn.CrossEntropyLoss(reduction="none")` (mnist_lr.py:71, 80) with `ignore_index = ign` (-100 by default, maestro_musictransformer.py:235):
an ignored label gives 0, a label outside the classes an `IndexError`. -/
noncomputable def ceOne (ign : ℤ) (z : Fin c → ℝ) (y : ℤ) : Except Err ℝ :=
  if y = ign then .ok 0
  else if h : 0 ≤ y ∧ y < c then .ok (-LogReg.logSoftmax z ⟨y.toNat, by omega⟩)
  else .error .indexError

/-- `criterion(outputs, labels)` (mnist_lr.py:80, mnist_mlp.py:77): as many outputs as labels, otherwise a `ValueError`. -/
noncomputable def ceNone (ign : ℤ) (outs : List (Fin c → ℝ)) (ys : List ℤ) : Except Err (List ℝ) :=
  if outs.length ≠ ys.length then .error .valueError else (outs.zip ys).mapM fun z => ceOne ign z.1 z.2

/-- The loop of `loss_mnist_lr`, `loss_mnist_mlp` and `loss_cifar_resnet9` (mnist_lr.py:76-82, mnist_mlp.py:73-79, cifar_resnet9.py:89-96);
`torch.cat` of an empty list is a `RuntimeError`. `fwd` is the network in `eval` mode on a batch. -/
noncomputable def perExample (fwd : List X → Except Err (List (Fin c → ℝ))) (loader : List (List (X × ℤ))) : Except Err (List ℝ) := do
  let l ← loader.mapM fun b => do
    let o ← fwd (b.map Prod.fst)
    ceNone (-100) o (b.map Prod.snd)
  if l = [] then .error .runtimeError else pure l.flatten

/-! ### The MNIST networks -/

/-- The pixels as a vector. -/
def vec (n : ℕ) (x : List ℝ) : Fin n → ℝ := fun j => x.getD j 0

/-- `LogisticRegressionMnist.forward` on a batch (logistic_regression.py:17-27): `view(x.shape[0], -1)`, then the linear layer, which refuses rows of
another length. Images of different sizes do not make a batch (`RuntimeError` of the default collate function). -/
def lrForward (θ : Fin (c * n + c) → ℝ) (imgs : List (List ℝ)) : Except Err (List (Fin c → ℝ)) :=
  if ∀ x ∈ imgs, x.length = n then .ok (imgs.map fun x => LogReg.logits θ (vec n x)) else .error .runtimeError

/-- The parameters of `MLPMnist` (mlp.py:12-23). -/
structure MLP (n h₁ h₂ c : ℕ) where
  w₁ : Matrix (Fin h₁) (Fin n) ℝ
  b₁ : Fin h₁ → ℝ
  w₂ : Matrix (Fin h₂) (Fin h₁) ℝ
  b₂ : Fin h₂ → ℝ
  w₃ : Matrix (Fin c) (Fin h₂) ℝ
  b₃ : Fin c → ℝ

/-- `torch.relu` (mlp.py:35). -/
noncomputable def relu {d : ℕ} (v : Fin d → ℝ) : Fin d → ℝ := fun k => max (v k) 0

/-- `MLPMnist.forward` on one row (mlp.py:34-40) in `eval` mode, in which dropout does nothing. -/
noncomputable def MLP.row (N : MLP n h₁ h₂ c) (x : Fin n → ℝ) : Fin c → ℝ :=
  N.w₃.mulVec (relu (N.w₂.mulVec (relu (N.w₁.mulVec x + N.b₁)) + N.b₂)) + N.b₃

/-- `x.view(-1, 28*28)` (mlp.py:34) on the pixels of the batch in memory order: rows of `n` pixels whatever the size of an image. -/
def viewRows (n : ℕ) (flat : List ℝ) : Except Err (List (Fin n → ℝ)) :=
  if flat.length % n ≠ 0 then .error .runtimeError
  else .ok ((List.range (flat.length / n)).map fun i : ℕ => fun j : Fin n => flat.getD (i * n + j) 0)

/-- `MLPMnist.forward` on a batch (mlp.py:25-40). Images of different sizes do not make a batch. -/
noncomputable def MLP.forward (N : MLP n h₁ h₂ c) (imgs : List (List ℝ)) : Except Err (List (Fin c → ℝ)) :=
  if ∃ x ∈ imgs, ∃ y ∈ imgs, x.length ≠ y.length then .error .runtimeError
  else (viewRows n imgs.flatten).map fun rows => rows.map N.row

/-! ### ImageNet -/

/-- `loss_imagenet_resnet18` (imagenet_resnet18.py:90-102): `criterion` has `reduction="sum"`, each batch's sum is multiplied with the number of its
examples, and the total is divided by the number of examples. `net` is torchvision's `resnet18` in `eval` mode, which treats images one by one. -/
noncomputable def imagenetLoss (net : X → Fin c → ℝ) (loader : List (List (X × ℤ))) : Except Err ℝ := do
  let r ← loader.foldlM (fun (a : ℝ × ℕ) b => do
    let l ← ceNone (-100) (b.map fun s => net s.1) (b.map Prod.snd)
    pure (a.1 + l.sum * b.length, a.2 + b.length)) (0, 0)
  if r.2 = 0 then .error .zeroDivisionError else pure (r.1 / r.2)

/-! ### WikiText-2 -/

/-- `outputs.loss` of GPT-2's language model head for one batch (wikitext2_gpt2.py:82-83): the mean over all predicted tokens of the batch. `tok` gives the
losses of an example's tokens. Without any predicted token the mean is NaN, 0 here; the theorems are about examples with tokens. -/
noncomputable def lmLoss (tok : X → List ℝ) (b : List X) : ℝ := (b.flatMap tok).sum / (b.flatMap tok).length

/-- `loss_wikitext2_gpt2` (wikitext2_gpt2.py:77-85): one number per batch. -/
noncomputable def wikitextLoss (tok : X → List ℝ) (loader : List (List X)) : Except Err (List ℝ) :=
  if loader = [] then .error .runtimeError else .ok (loader.map (lmLoss tok))

/-! ### MAESTRO -/

/-- `TOKEN_PAD` (constants.py:27). -/
def tokenPad : ℤ := 389

/-- `tgt[:, -1]` for one row (maestro_musictransformer.py:244). -/
def lastTarget (ts : List ℤ) : Except Err ℤ := match ts.getLast? with
  | none => .error .indexError
  | some t => .ok t

/-- `loss_maestro_musictransformer` on one batch (maestro_musictransformer.py:238-247): the network's last position against the last target, negated.
A sequence pair is the input tokens and the target tokens; all sequences of a batch have the length `T`. A sequence without tokens raises an `IndexError` at
`tgt[:, -1]`; the network before it may fail already. -/
noncomputable def maestroBatch (net : Music.Net) (T : ℕ) (b : List (List ℕ × List ℤ)) : Except Err (List ℝ) := do
  let y ← net.forward T b.length (fun i t => ((b.getD i ([], [])).1).getD t 0) true
  let tgt ← b.mapM fun s => lastTarget s.2
  let l ← ceNone tokenPad ((List.range b.length).map fun i => fun v : Fin Music.vocabSize => y (T - 1) i v) tgt
  pure (l.map fun x => -x)

/-- `loss_maestro_musictransformer` (maestro_musictransformer.py:232-249). -/
noncomputable def maestroLoss (net : Music.Net) (T : ℕ) (loader : List (List (List ℕ × List ℤ))) : Except Err (List ℝ) := do
  let l ← loader.mapM (maestroBatch net T)
  if l = [] then .error .runtimeError else pure l.flatten

/-! ### Loading the weights -/

/-- What `torch.save` wrote: a state dictionary (retrain.py:268) or a whole module (retrain.py:129). -/
inductive File (S : Type)
  | state (s : S)
  | module (s : S)

/-- The first argument of a loss function: `calculate_lds_ground_truth` passes a path (ground_truth.py:189-190), `calculate_loo_ground_truth` the
loaded object (ground_truth.py:87-89). -/
inductive Arg (P S : Type)
  | path (p : P)
  | object (f : File S)

/-- `model.load_state_dict(torch.load(Path(model_path)))` (mnist_lr.py:73 and likewise in the other loss functions): `Path` of an object that is no path and
`load_state_dict` of a module are `TypeError`s; `fit` says whether the names and shapes match (`RuntimeError` otherwise). -/
def loadWeights {Q : Type} (fit : S → Option Q) (fs : P → Option (File S)) : Arg P S → Except Err Q
  | .object _ => .error .typeError
  | .path p => match fs p with
    | none => .error .fileNotFoundError
    | some (.module _) => .error .typeError
    | some (.state s) => match fit s with
      | none => .error .runtimeError
      | some q => .ok q

/-- A loss function of the benchmark: load the weights, then evaluate. -/
def lossOf {Q R : Type} (fit : S → Option Q) (eval : Q → Except Err R) (fs : P → Option (File S)) (a : Arg P S) : Except Err R :=
  loadWeights fit fs a >>= eval

/-! ### Ground truth -/

/-- `target_values[i] += v` (ground_truth.py:190) for a row of `T` values: `v` has `T` values, or one value that is added to all of them; any other number
of values is a `RuntimeError`. A Python float (ImageNet) counts as one value. -/
def addInto (T : ℕ) (acc v : List ℝ) : Except Err (List ℝ) :=
  if v.length = T then .ok (List.zipWith (· + ·) acc v)
  else match v with
    | [a] => .ok (acc.map (· + a))
    | _ => .error .runtimeError

/-- Row `i` of the values of `calculate_lds_ground_truth` (ground_truth.py:186-194) from the targets of the runs; `T` is `len(test_dataloader.sampler)`. -/
noncomputable def ldsRow (T runs : ℕ) (target : ℕ → Except Err (List ℝ)) : Except Err (List (Option ℝ)) := do
  let s ← (List.range runs).foldlM (fun acc j => do
    let v ← target j
    addInto T acc v) (List.replicate T 0)
  pure (s.map fun x => if runs = 0 then none else some (-(x / runs)))

/-- The values of `calculate_loo_ground_truth` (ground_truth.py:72-94) from the files of the retrained models in order: `torch.load`, then the target
function on the loaded object, then `loo_results[dir_cnt, :] = values`, which wants `T` values or one. -/
def looRows (T : ℕ) (target : Arg P S → Except Err (List ℝ)) (files : List (File S)) : Except Err (List (List ℝ)) :=
  files.mapM fun f => do
    let v ← target (.object f)
    if v.length = T then .ok v else match v with
      | [a] => .ok (List.replicate T a)
      | _ => .error .runtimeError

end Verif.BenchLoss
