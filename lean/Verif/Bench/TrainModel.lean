import Verif.Bench.LogRegModel
import Verif.Attr.DerivModel

/-!
# The training functions of the image benchmarks

`train_mnist_lr`, `train_mnist_mlp`, `train_cifar_resnet9` and `train_imagenet_resnet18` are one loop around `torch.optim.SGD`.

Simplifications: real arithmetic; the parameters as one vector; the gradient of `loss.backward()` is the derivative of the batch's loss; the network's loss on a
batch is a parameter of the loop; devices and logging left out. Dropout and batch statistics in training mode are part of the loss on a batch only if it does not depend on
anything else.
-/

namespace Verif.Train

open Verif Verif.Attr

variable {p n c : ℕ} {X : Type}

/-- The arguments of `torch.optim.SGD` which the benchmarks set (mnist_lr.py:41, mnist_mlp.py:38, cifar_resnet9.py:43, imagenet_resnet18.py:42-47); dampening is zero and
`nesterov` off. -/
structure SGD where
  lr : ℝ
  momentum : ℝ
  weightDecay : ℝ

/-- `optimizer.step()` for the gradient `g` (torch.optim.SGD, called in mnist_lr.py:51): weight decay adds to the gradient, and with momentum the first buffer is the first
gradient. The state is the parameters and the buffer. -/
noncomputable def SGD.step (o : SGD) (g : Fin p → ℝ) (st : (Fin p → ℝ) × Option (Fin p → ℝ)) : (Fin p → ℝ) × Option (Fin p → ℝ) :=
  let g := if o.weightDecay ≠ 0 then g + o.weightDecay • st.1 else g
  if o.momentum ≠ 0 then
    let b := match st.2 with
      | none => g
      | some b => o.momentum • b + g
    (st.1 - o.lr • b, some b)
  else (st.1 - o.lr • g, st.2)

/-- The epochs (mnist_lr.py:45-51, mnist_mlp.py:42-48, cifar_resnet9.py:46-62, imagenet_resnet18.py:50-70): `epochs` holds the batches which the loader yields in each
epoch. -/
noncomputable def trainLoop (o : SGD) (loss : (Fin p → ℝ) → List X → ℝ) (epochs : List (List (List X))) (θ : Fin p → ℝ) : Fin p → ℝ :=
  (epochs.foldl (fun st bs => bs.foldl (fun st b => o.step (gradAt (fun t => loss t b) st.1) st) st) (θ, none)).1

/-- `train_mnist_lr` (mnist_lr.py:18-53): SGD with learning rate 0.01. `init seed` are the parameters `create_lr_model` draws after seeding, `loader e` the batches of epoch `e`. -/
noncomputable def trainMnistLr (init : ℕ → Fin (c * n + c) → ℝ) (loader : ℕ → List (List (LogReg.Sample n c))) (seed epochNum : ℕ) : Fin (c * n + c) → ℝ :=
  trainLoop ⟨1 / 100, 0, 0⟩ LogReg.batchLoss ((List.range epochNum).map loader) (init seed)

/-- `train_mnist_mlp` (mnist_mlp.py:15-50): momentum 0.9. `loss` is the network's mean cross entropy on a batch. -/
noncomputable def trainMnistMlp (loss : (Fin p → ℝ) → List X → ℝ) (init : ℕ → Fin p → ℝ) (loader : ℕ → List (List X)) (seed epochNum : ℕ) : Fin p → ℝ :=
  trainLoop ⟨1 / 100, 9 / 10, 0⟩ loss ((List.range epochNum).map loader) (init seed)

/-- `train_cifar_resnet9` (cifar_resnet9.py:17-64): momentum 0.9; the mean loss of an epoch is logged, so a loader without batches raises `ZeroDivisionError` in the first epoch. -/
noncomputable def trainCifar (loss : (Fin p → ℝ) → List X → ℝ) (init : ℕ → Fin p → ℝ) (loader : ℕ → List (List X)) (loaderLen seed epochNum : ℕ) :
    Except Err (Fin p → ℝ) :=
  if 0 < epochNum ∧ loaderLen = 0 then .error .zeroDivisionError
  else .ok (trainLoop ⟨1 / 100, 9 / 10, 0⟩ loss ((List.range epochNum).map loader) (init seed))

/-- `train_imagenet_resnet18` (imagenet_resnet18.py:17-72): learning rate 0.1, momentum 0.8, weight decay 4e-5; an empty data set raises `ZeroDivisionError` in the first epoch. -/
noncomputable def trainImagenet (loss : (Fin p → ℝ) → List X → ℝ) (init : ℕ → Fin p → ℝ) (loader : ℕ → List (List X)) (datasetLen seed epochNum : ℕ) :
    Except Err (Fin p → ℝ) :=
  if 0 < epochNum ∧ datasetLen = 0 then .error .zeroDivisionError
  else .ok (trainLoop ⟨1 / 10, 8 / 10, 4 / 100000⟩ loss ((List.range epochNum).map loader) (init seed))

end Verif.Train
