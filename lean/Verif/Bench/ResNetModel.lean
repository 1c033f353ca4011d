import Verif.Base.Tensor
import Verif.Bench.LossModel

/-!
# ResNet-9 on CIFAR

`dattri/benchmark/models/resnet9/resnet9.py` in training and in evaluation mode, and `loss_cifar_resnet9`.

Simplifications: real arithmetic; the numbers of planes 3, 64, 128, 256, 512 are parameters; the random numbers of dropout are an argument.
-/

namespace Verif.ResNet

open Verif

/-- The planes of one image: plane, row, column. Entries outside the size kept in `Batch` are never read. -/
abbrev Planes (c : ℕ) := Fin c → ℕ → ℕ → ℝ

/-- A tensor of shape (number of images, c, h, w). -/
structure Batch (c : ℕ) where
  h : ℕ
  w : ℕ
  xs : List (Planes c)

/-- The weight of a convolution without bias: output plane, input plane, row, column. -/
abbrev Kernel (i o : ℕ) := Fin o → Fin i → ℕ → ℕ → ℝ

variable {i o c : ℕ}

/-- The image with `p` rows and columns of zeros on each side. -/
def padded (p h w : ℕ) (x : Planes c) (k : Fin c) (a b : ℕ) : ℝ :=
  if p ≤ a ∧ a < h + p ∧ p ≤ b ∧ b < w + p then x k (a - p) (b - p) else 0

/-- One image under `nn.Conv2d(i, o, kernel_size=k, stride=st, padding=p, bias=False)` (resnet9.py:11-13, 16-18, 24-30, 51). -/
def convOne (k st p : ℕ) (K : Kernel i o) (h w : ℕ) (x : Planes i) : Planes o := fun u a b =>
  ∑ v, ∑ s ∈ Finset.range k, ∑ t ∈ Finset.range k, K u v s t * padded p h w x v (a * st + s) (b * st + t)

/-- `nn.Conv2d(...)` on a batch: an image (with padding) smaller than the kernel is a `RuntimeError`. -/
def conv (k st p : ℕ) (K : Kernel i o) (B : Batch i) : Except Err (Batch o) :=
  if B.h + 2 * p < k ∨ B.w + 2 * p < k then .error .runtimeError
  else .ok ⟨(B.h + 2 * p - k) / st + 1, (B.w + 2 * p - k) / st + 1, B.xs.map (convOne k st p K B.h B.w)⟩

/-- `nn.BatchNorm2d` (resnet9.py:14, 19, 31, 52): weight, bias and the running statistics. -/
structure BN (c : ℕ) where
  weight : Fin c → ℝ
  bias : Fin c → ℝ
  mean : Fin c → ℝ
  var : Fin c → ℝ

/-- The sum of a function of the entries of plane `k` over images, rows and columns. -/
def planeSum (B : Batch c) (k : Fin c) (f : ℝ → ℝ) : ℝ :=
  (B.xs.map fun x => ∑ a ∈ Finset.range B.h, ∑ b ∈ Finset.range B.w, f (x k a b)).sum

/-- `(x - mean) / sqrt(var + 1e-5) * weight + bias`. -/
noncomputable def normalise (N : BN c) (mean var : Fin c → ℝ) (x : Planes c) : Planes c := fun k a b =>
  (x k a b - mean k) / Real.sqrt (var k + 10 ^ (-5 : ℤ)) * N.weight k + N.bias k

/-- `nn.BatchNorm2d` on a batch. In evaluation mode with the running statistics. In training mode with the mean and the variance of the batch, which are
also mixed into the running statistics (`momentum=0.1`, there with the unbiased variance); a single value per plane is a `ValueError`. -/
noncomputable def BN.app (train : Bool) (N : BN c) (B : Batch c) : Except Err (Batch c × BN c) :=
  if train then
    let m := B.xs.length * B.h * B.w
    if m = 1 then .error .valueError
    else
      let mean := fun k => planeSum B k id / m
      let sq := fun k => planeSum B k fun v => (v - mean k) ^ 2
      .ok (⟨B.h, B.w, B.xs.map (normalise N mean fun k => sq k / m)⟩,
        ⟨N.weight, N.bias, fun k => 9 / 10 * N.mean k + 1 / 10 * mean k, fun k => 9 / 10 * N.var k + 1 / 10 * (sq k / (m - 1))⟩)
  else .ok (⟨B.h, B.w, B.xs.map (normalise N N.mean N.var)⟩, N)

/-- `F.relu` (resnet9.py:37). -/
noncomputable def reluB (B : Batch c) : Batch c := ⟨B.h, B.w, B.xs.map fun x k a b => max (x k a b) 0⟩

/-- The uniform numbers in [0, 1) of a dropout layer: image, plane, row, column. -/
abbrev Draws := ℕ → ℕ → ℕ → ℕ → ℝ

/-- `nn.Dropout(p)` (resnet9.py:15, 38): in training mode every entry becomes 0 with probability `p` and is divided by `1 - p` otherwise. -/
noncomputable def dropout (train : Bool) (p : ℝ) (u : Draws) (B : Batch c) : Batch c :=
  if train then ⟨B.h, B.w, B.xs.mapIdx fun n x k a b => if p ≤ u n k a b then x k a b / (1 - p) else 0⟩ else B

/-- `out + out_short_cut` (resnet9.py:42). Simplification: sizes that would be broadcast are an error; `block_ok` shows that the sizes agree. -/
def add (A B : Batch c) : Except Err (Batch c) :=
  if A.h = B.h ∧ A.w = B.w ∧ A.xs.length = B.xs.length then
    .ok ⟨A.h, A.w, List.zipWith (fun x y k a b => x k a b + y k a b) A.xs B.xs⟩
  else .error .runtimeError

/-- `BasicBlock` (resnet9.py:6-33) with the projection in the shortcut, which all blocks of `ResNet9` have, as each changes the number of planes
(resnet9.py:54-56). -/
structure Block (i o : ℕ) where
  conv1 : Kernel i o
  bn1 : BN o
  conv2 : Kernel o o
  bn2 : BN o
  sconv : Kernel i o
  sbn : BN o

/-- `BasicBlock.forward` (resnet9.py:35-44) and the block with the new running statistics. The draws are those of its three dropout layers. -/
noncomputable def Block.forward (train : Bool) (p : ℝ) (st : ℕ) (K : Block i o) (u : ℕ → Draws) (B : Batch i) : Except Err (Batch o × Block i o) := do
  let y ← conv 3 st 1 K.conv1 B
  let (y, bn1) ← K.bn1.app train y
  let y := dropout train p (u 0) (reluB y)
  let y ← conv 3 1 1 K.conv2 y
  let (y, bn2) ← K.bn2.app train y
  let y := dropout train p (u 1) (reluB y)
  let z ← conv 1 st 0 K.sconv B
  let (z, sbn) ← K.sbn.app train z
  let z := dropout train p (u 2) z
  let r ← add y z
  pure (reluB r, { K with bn1 := bn1, bn2 := bn2, sbn := sbn })

/-- `ResNet9` (resnet9.py:46-57) with `dropout_rate = p`. -/
structure Net (d₀ d₁ d₂ d₃ d₄ c : ℕ) where
  p : ℝ
  conv1 : Kernel d₀ d₁
  bn1 : BN d₁
  layer1 : Block d₁ d₂
  layer2 : Block d₂ d₃
  layer3 : Block d₃ d₄
  linW : Fin c → Fin d₄ → ℝ
  linB : Fin c → ℝ

variable {d₀ d₁ d₂ d₃ d₄ : ℕ}

/-- `F.adaptive_avg_pool2d(out, (1, 1))`, `view` and `self.linear` on one image (resnet9.py:75-77). -/
noncomputable def Net.head (N : Net d₀ d₁ d₂ d₃ d₄ c) (h w : ℕ) (x : Planes d₄) : Fin c → ℝ := fun u =>
  (∑ k, N.linW u k * ((∑ a ∈ Finset.range h, ∑ b ∈ Finset.range w, x k a b) / (h * w))) + N.linB u

/-- An image of the data set, with its own shape. -/
structure Img where
  ch : ℕ
  h : ℕ
  w : ℕ
  v : ℕ → ℕ → ℕ → ℝ

/-- The batch of the default collate function: no image is an `IndexError`, images of different shapes a `RuntimeError`; another number of planes than the
first convolution expects is a `RuntimeError` there. -/
def collate (d₀ : ℕ) (imgs : List Img) : Except Err (Batch d₀) :=
  match imgs with
  | [] => .error .indexError
  | x :: _ => if ∀ y ∈ imgs, y.ch = d₀ ∧ y.h = x.h ∧ y.w = x.w then .ok ⟨x.h, x.w, imgs.map fun y k a b => y.v k a b⟩ else .error .runtimeError

/-- `ResNet9.forward` (resnet9.py:68-77) on a batch of images: the class scores of the images and the network with the new running statistics. The draws are
those of its dropout layers. -/
noncomputable def Net.forward (train : Bool) (N : Net d₀ d₁ d₂ d₃ d₄ c) (u : ℕ → ℕ → Draws) (imgs : List Img) :
    Except Err (List (Fin c → ℝ) × Net d₀ d₁ d₂ d₃ d₄ c) := do
  let B ← collate d₀ imgs
  let y ← conv 3 1 1 N.conv1 B
  let (y, bn1) ← N.bn1.app train y
  let y := dropout train N.p (u 0 0) (reluB y)
  let (y, l1) ← N.layer1.forward train N.p 1 (u 1) y
  let (y, l2) ← N.layer2.forward train N.p 2 (u 2) y
  let (y, l3) ← N.layer3.forward train N.p 2 (u 3) y
  pure (y.xs.map (N.head y.h y.w), { N with bn1 := bn1, layer1 := l1, layer2 := l2, layer3 := l3 })

/-- `loss_cifar_resnet9` (cifar_resnet9.py:84-96) after loading the weights; `model.eval()` at line 87. -/
noncomputable def loss (N : Net d₀ d₁ d₂ d₃ d₄ c) (u : ℕ → ℕ → Draws) (loader : List (List (Img × ℤ))) : Except Err (List ℝ) :=
  BenchLoss.perExample (fun imgs => (N.forward false u imgs).map Prod.fst) loader

end Verif.ResNet
