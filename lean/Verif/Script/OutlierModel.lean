import Verif.Base.Tensor
import Verif.Bench.LogRegModel
import Verif.Attr.RelatifModel
import Verif.Attr.DerivModel
import Verif.Hessian.LissaModel

/-!
# The example comparing influence and relative influence (`examples/relatIF/influence_function_comparison.py`)

Simplifications: real arithmetic; the random numbers of the two clusters are given; training (the checkpoint is arbitrary) and the drawing itself are left
out.  The random draws of LiSSA are fixed by the solver.
-/

namespace Verif.Outlier

open Verif.LogReg

variable {A : Type}

/-- `create_synthetic_2d_data` (influence_function_comparison.py:14-36): `class0` and `class1` are the two clusters of `num_per_class` points each.  Without any
point the assignment to `x_train[outlier_idx]` raises `IndexError`. -/
def createData (class0 class1 : List A) (outlier : A) : Except Err (List A × List ℕ × ℕ) :=
  let x := class0 ++ class1
  let y := List.replicate class0.length 0 ++ List.replicate class1.length 1
  let idx := class0.length
  if x.length ≤ idx then .error .indexError else .ok (x.set idx outlier, y.set idx 0, idx)

/-- `np.linspace(lo, hi, res)` (influence_function_comparison.py:119-120); for one point numpy gives `lo`. -/
noncomputable def linspace (lo hi : ℝ) (res : ℕ) (k : ℕ) : ℝ := lo + k * ((hi - lo) / (res - 1 : ℕ))

/-- `np.meshgrid` and `np.c_[xx.ravel(), yy.ravel()]` (influence_function_comparison.py:118-122): entry `(a, b)` of `xx` is `xs b`, of `yy` is `ys a`. -/
def gridPoints (res : ℕ) (xs ys : ℕ → ℝ) : List (Fin 2 → ℝ) :=
  (List.range res).flatMap fun a => (List.range res).map fun b => ![xs b, ys a]

/-- `argmax`: the first index with the largest value (influence_function_comparison.py:149); without rows torch raises. -/
noncomputable def argmax (f : ℕ → ℝ) : ℕ → Option ℕ
  | 0 => none
  | n + 1 => match argmax f n with
    | none => some n
    | some i => open Classical in if f i < f n then some n else some i

/-- `torch.abs(influence_scores).argmax(dim=0)[j]` (influence_function_comparison.py:149). -/
noncomputable def dominant (M : Mat ℝ) (j : ℕ) : Except Err ℕ :=
  match argmax (fun i => |M.f i j|) M.r with
  | some i => .ok i
  | none => .error .indexError

/-- `(dominant_indices == outlier_idx).numpy().reshape(xx.shape)` at `(a, b)` (influence_function_comparison.py:187). -/
noncomputable def mask (M : Mat ℝ) (idx res a b : ℕ) : Except Err Bool := (dominant M (a * res + b)).map fun i => decide (i = idx)

/-- Gradient of `loss_func` at one sample (influence_function_comparison.py:66-70): the loss of the linear model is that of a softmax regression with weight and
bias. -/
noncomputable def lossGrad {n c : ℕ} (θ : Fin (c * n + c) → ℝ) (s : Sample n c) : Fin (c * n + c) → ℝ := Attr.gradAt (fun t => sampleLoss t s) θ

/-- `attributor.attribute(...)` with the single checkpoint `model.state_dict()` after `cache(train_loader)` (influence_function_comparison.py:99-112, 141-145). -/
noncomputable def scores {n c : ℕ} (solve : List (Sample n c) → (Fin (c * n + c) → ℝ) → Option (Fin (c * n + c) → ℝ)) (θ : Fin (c * n + c) → ℝ)
    (tr te : Loader (Sample n c)) (method : Option String) : Except Err (Mat ℝ) :=
  (Attr.attribute' (Attr.relSub (fun θ s => lossGrad θ s) (fun θ s => lossGrad θ s) fun _ => solve) [θ] (some tr) method tr te).2

/-- `ihvp_lissa` with the settings of the example for one row (influence_function_comparison.py:105-111, hessian.py:900-919): one repeat, depth 200, scaling 100,
no damping, batches of one sample.  `perm` are the draws of this row; `hv` is the Hessian of the loss on the drawn samples.  With one repeat and scaling 100 neither
error branch of `ihvpLissa` is taken. -/
noncomputable def estimate {p : ℕ} (hv : List ℕ → Matrix (Fin p) (Fin p) ℝ) (perm : ℕ → ℕ → List ℕ) (v : Fin p → ℝ) : Fin p → ℝ :=
  open Classical in
  match Hessian.ihvpLissa hv perm 1 1 200 0 100 v with
  | .ok (some u) => u
  | _ => 0

/-- The run of the example (influence_function_comparison.py:139-145; base.py:341-450, influence_function.py:538-648): one batch of training and one of test
samples, the full loader is the training loader.  `draws k i` are the draws for row `i` in call `k` of the solver: `vmap(..., randomness="different")` draws anew
for every row (hessian.py:921), and the denominators (call 0) are estimated apart from the test gradients (call 1).  A loader without samples cannot be made with
`batch_size=len(...)`. -/
noncomputable def exampleScores {n c : ℕ} (hv : List ℕ → Matrix (Fin (c * n + c)) (Fin (c * n + c)) ℝ) (draws : ℕ → ℕ → ℕ → ℕ → List ℕ)
    (θ : Fin (c * n + c) → ℝ) (tr te : List (Sample n c)) (method : Option String) : Except Err (Mat ℝ) :=
  if tr.isEmpty ∨ te.isEmpty then .error .valueError
  else if method ∉ [none, some "l", some "theta"] then .error .valueError
  else
    let g : List (Fin (c * n + c) → ℝ) := tr.map fun s => lossGrad θ s
    let h : List (Fin (c * n + c) → ℝ) := te.map fun s => lossGrad θ s
    let t : ℕ → Fin (c * n + c) → ℝ := fun i => estimate hv (draws 0 i) (g.getD i 0)
    let denom : ℕ → ℝ := fun i =>
      if method = some "l" then Real.sqrt (max (∑ k, (g.getD i 0) k * t i k) (10 ^ (-12 : ℤ)))
      else if method = some "theta" then max (Real.sqrt (∑ k, t i k ^ 2)) (10 ^ (-12 : ℤ))
      else 1
    .ok ⟨tr.length, te.length, fun i j => (∑ k, (g.getD i 0) k * estimate hv (draws 1 j) (h.getD j 0) k) / denom i⟩

/-- What is drawn as the boundary (influence_function_comparison.py:158-166): the points above the `x_boundary`, or a vertical line. -/
inductive Line
  | graph (f : ℝ → ℝ)
  | vertical (x : ℝ)

/-- `w_diff`, `b_diff` are differences of the rows of weight and bias; with both entries of `w_diff` zero the quotient is not a number, `none`
(influence_function_comparison.py:159-166). -/
noncomputable def boundary (θ : Fin (2 * 2 + 2) → ℝ) : Option Line :=
  let w : Fin 2 → ℝ := fun j => θ (Fin.castAdd 2 (finProdFinEquiv (0, j))) - θ (Fin.castAdd 2 (finProdFinEquiv (1, j)))
  let b : ℝ := θ (Fin.natAdd (2 * 2) 0) - θ (Fin.natAdd (2 * 2) 1)
  open Classical in
  if (1e-7 : ℝ) < |w 1| then some (.graph fun x => -(w 0 * x + b) / w 1)
  else if w 0 = 0 then none
  else some (.vertical (-b / w 0))

end Verif.Outlier
