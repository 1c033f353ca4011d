import Mathlib.Analysis.SpecialFunctions.Exp
import Mathlib.Analysis.Real.Sqrt
import Mathlib.Algebra.BigOperators.Fin
import Verif.Base.Tensor

/-!
# Model of `RPSAttributor` (`dattri/algorithm/rps.py`) and its helpers (`dattri/algorithm/utils.py`, `dattri/model_util/hook.py`)

Real arithmetic; an objective or gradient value that is not a number is `none` (infinities are not modelled).  The user's loss function and
its gradient with respect to the pre-activations (`torch.func.grad`) are parameters; the gradient that autograd accumulates in `theta.grad`
is the chain rule applied to the objective.
-/

namespace Verif.RPS

open Finset

/-! ## Backtracking line search -/

section Search

variable {ι : Type} [Fintype ι]

/-- `torch.norm(g) ** 2`. -/
def normSq (g : ι → ℝ) : ℝ := ∑ i, g i ^ 2

/-- `val_n - val + q` with NaN propagation (utils.py:92). -/
def armijo (valN val : Option ℝ) (q : ℝ) : Option ℝ := valN.bind fun a => val.map fun b => a - b + q

/-- `o >= 0` (false for NaN). -/
def GeZero (o : Option ℝ) : Prop := ∃ a, o = some a ∧ 0 ≤ a

open Classical in
/-- The `while True` loop of `backtracking_line_search` (utils.py:84-96) on the step size `t`; `f` is the objective (loss plus `l2_norm * lambda_l2`,
utils.py:87-89). Returns the step size with the new point; `none` means "not finished within the fuel". -/
noncomputable def searchLoop (f : (ι → ℝ) → Option ℝ) (g θ : ι → ℝ) (val : Option ℝ) : ℕ → ℝ → Option (ℝ × (ι → ℝ))
  | 0, _ => none
  | fuel + 1, t =>
    let cur := θ - t • g
    if t < 1 / 10 ^ 10 then some (t, cur)
    else if GeZero (armijo (f cur) val (t * normSq g / 2)) then searchLoop f g θ val fuel (1 / 2 * t)
    else some (t, cur)

/-- `backtracking_line_search` (utils.py:57-96): starts from `t = 10.0`. -/
noncomputable def lineSearch (f : (ι → ℝ) → Option ℝ) (g θ : ι → ℝ) (val : Option ℝ) (fuel : ℕ) : Option (ℝ × (ι → ℝ)) :=
  searchLoop f g θ val fuel 10

end Search

/-! ## Fine-tuning -/

section Finetune

variable {V : Type}

/-- `a < b` where a NaN on the left compares false. -/
def LtNum (o : Option ℝ) (b : ℝ) : Prop := ∃ a, o = some a ∧ a < b

/-- Local variables of the loop: `theta`, `min_loss`, `init_grad` and `finetuned_theta` (unbound: `none`). -/
structure FtState (V : Type) where
  theta : V
  minLoss : ℝ
  initGrad : Option ℝ
  best : Option V

open Classical in
/-- The epoch loop of `rps_finetune_theta` (utils.py:135-165) from epoch `epoch` with `n` epochs to go. `m` is the mean absolute gradient of the
objective (utils.py:147), `next` the line search step (utils.py:156-164). Reading an unbound local is `UnboundLocalError`. -/
noncomputable def ftLoop (m : V → Option ℝ) (next : V → V) : ℕ → ℕ → FtState V → Except Err V
  | 0, _, s =>
    match s.best with
    | none => .error .unboundLocalError
    | some v => .ok v
  | n + 1, epoch, s =>
    match m s.theta with
    | none => ftLoop m next n (epoch + 1) { s with theta := next s.theta }
    | some g =>
      if g < s.minLoss then
        let s1 : FtState V := { s with initGrad := if epoch = 0 then some g else s.initGrad, minLoss := g, best := some s.theta }
        match s1.initGrad with
        | none => .error .unboundLocalError
        | some ig => if g < ig / 200 then .ok s.theta else ftLoop m next n (epoch + 1) { s1 with theta := next s.theta }
      else ftLoop m next n (epoch + 1) { s with theta := next s.theta }

/-- `rps_finetune_theta` (utils.py:130-165). -/
noncomputable def finetune (m : V → Option ℝ) (next : V → V) (numEpoch : ℕ) (init : V) : Except Err V :=
  ftLoop m next numEpoch 0 ⟨init, 10000, none, none⟩

end Finetune

/-! ## The attributor -/

section Attributor

variable {p c : ℕ}

/-- Weights of the last layer (`c` outputs, `p` features). -/
abbrev Theta (p c : ℕ) := Fin c × Fin p → ℝ

/-- The user's loss function: value (`none` = NaN) and gradient with respect to the pre-activations, for every number of samples. -/
structure Loss (c : ℕ) where
  val : (n : ℕ) → (Fin n → Fin c → ℝ) → (Fin n → Fin c → ℝ) → Option ℝ
  grad : (n : ℕ) → (Fin n → Fin c → ℝ) → (Fin n → Fin c → ℝ) → Fin n → Fin c → ℝ

/-- `torch.matmul(theta, x.T).T` (utils.py:49) and `torch.matmul(x_train, theta.transpose(0, 1))` (utils.py:194-197). -/
def preact {n : ℕ} (X : Fin n → Fin p → ℝ) (θ : Theta p c) (i : Fin n) (k : Fin c) : ℝ := ∑ j, θ (k, j) * X i j

/-- Activated targets: sigmoid for one output, softmax otherwise (utils.py:128, 199-203). -/
noncomputable def activate (y : Fin c → ℝ) (k : Fin c) : ℝ :=
  if c = 1 then 1 / (1 + Real.exp (- y k)) else Real.exp (y k) / ∑ l, Real.exp (y l)

/-- The fine-tuning objective `loss_func(phi, y) + l2_norm * lambda_l2` (utils.py:49-52, 89, 141). -/
noncomputable def objective {n : ℕ} (L : Loss c) (lam : ℝ) (X : Fin n → Fin p → ℝ) (Y : Fin n → Fin c → ℝ) (θ : Theta p c) : Option ℝ :=
  (L.val n (preact X θ) Y).map fun v => v + (∑ q, θ q ^ 2) * lam

/-- `theta.grad` after `loss.backward()` (utils.py:143). -/
noncomputable def objGrad {n : ℕ} (L : Loss c) (lam : ℝ) (X : Fin n → Fin p → ℝ) (Y : Fin n → Fin c → ℝ) (θ : Theta p c) : Theta p c :=
  fun q => 2 * lam * θ q + ∑ i, L.grad n (preact X θ) Y i q.1 * X i q.2

/-- `torch.mean(torch.abs(theta.grad))` (utils.py:147); the mean of an empty tensor is NaN. -/
noncomputable def meanAbs (g : Theta p c) : Option ℝ :=
  if c * p = 0 then none else some ((∑ q, |g q|) / (c * p : ℕ))

/-- `rps_finetune_theta` on the features `X` and raw outputs `Y` (utils.py:102-165). The line search needs at most 38 rounds (`C50_terminates`). -/
noncomputable def finetuneTheta {n : ℕ} (L : Loss c) (lam : ℝ) (epochs : ℕ) (X : Fin n → Fin p → ℝ) (Y : Fin n → Fin c → ℝ) (init : Theta p c) :
    Except Err (Theta p c) :=
  let T := fun i => activate (Y i)
  finetune (fun θ => meanAbs (objGrad L lam X T θ))
    (fun θ => ((lineSearch (objective L lam X T) (objGrad L lam X T θ) θ (objective L lam X T θ) 38).map Prod.snd).getD θ) epochs init

/-- `alpha` of `get_rps_weight` (utils.py:192-205); `none` is the non-finite outcome of dividing by zero. -/
noncomputable def alpha {n : ℕ} (L : Loss c) (lam : ℝ) (X : Fin n → Fin p → ℝ) (Y : Fin n → Fin c → ℝ) (θ : Theta p c) (i : Fin n) (k : Fin c) :
    Option ℝ :=
  open Classical in
  if lam = 0 ∨ n = 0 then none else some (L.grad n (preact X θ) (fun i => activate (Y i)) i k / (-2 * lam * n))

/-- The column of `alpha` used for a test sample with label `y` (utils.py:207-212): the only one for one output, otherwise `alpha[:, y]`
(`IndexError` if out of range; negative labels are not modelled). -/
def column (c : ℕ) (y : ℕ) : Except Err (Fin c) :=
  if h1 : c = 1 then .ok ⟨0, by omega⟩ else if h : y < c then .ok ⟨y, h⟩ else .error .indexError

/-- `torch.nn.functional.normalize` of a row. -/
noncomputable def normalize (x : Fin p → ℝ) (j : Fin p) : ℝ := x j / max (Real.sqrt (∑ j, x j ^ 2)) (1 / 10 ^ 12)

/-- Inner product of two feature rows. -/
def dot (x y : Fin p → ℝ) : ℝ := ∑ j, x j * y j

variable {X : Type}

/-- The task: features entering the final layer and outputs of that layer for every sample (checkpoint 0), labels, final layer weights and the
constructor arguments (rps.py:31-69). -/
structure Attributor (X : Type) (p c : ℕ) where
  feat : X → Fin p → ℝ
  out : X → Fin c → ℝ
  label : X → ℕ
  weight : Theta p c
  loss : Loss c
  normalizePre : Bool
  lam : ℝ
  epochs : ℕ

/-- `get_final_layer_io` (hook.py:18-67): the hook appends one entry per batch and the entries are concatenated, so only the sequence of samples
matters; `torch.cat` of no batches raises `RuntimeError`. The model is evaluated sample by sample (no batch-dependent layers). -/
def layerIO (batches : List (List X)) : Except Err (List X) := if batches = [] then .error .runtimeError else .ok batches.flatten

/-- Fine-tuning on the samples of a loader (rps.py:81-99, 134-154). -/
noncomputable def Attributor.tune (A : Attributor X p c) (xs : List X) : Except Err (Theta p c) :=
  finetuneTheta A.loss A.lam A.epochs (fun i : Fin xs.length => A.feat xs[i]) (fun i => A.out xs[i]) A.weight

/-- State: whether `cache` has been called, and the attribute `finetuned_theta` (`none`: absent). -/
structure St (p c : ℕ) where
  cached : Bool
  theta : Option (Theta p c)

/-- `cache` (rps.py:71-99): the loader is stored first, so a failing fine-tuning leaves the old `finetuned_theta`. -/
noncomputable def Attributor.cache (A : Attributor X p c) (s : St p c) (full : List (List X)) : St p c × Except Err Unit :=
  match layerIO full >>= A.tune with
  | .error e => ({ s with cached := true }, .error e)
  | .ok θ => (⟨true, some θ⟩, .ok ())

/-- One score (rps.py:175-182). -/
noncomputable def Attributor.score (A : Attributor X p c) (θ : Theta p c) (xs : List X) (i : Fin xs.length) (z : X) (k : Fin c) : Option ℝ :=
  let d := if A.normalizePre then dot (normalize (A.feat xs[i])) (normalize (A.feat z)) else dot (A.feat xs[i]) (A.feat z)
  (alpha A.loss A.lam (fun i : Fin xs.length => A.feat xs[i]) (fun i => A.out xs[i]) θ i k).map (d * ·)

/-- The scores for given weights (rps.py:156-182): rows are training samples, columns test samples. -/
noncomputable def Attributor.scores (A : Attributor X p c) (θ : Theta p c) (xs zs : List X) : Except Err (List (List (Option ℝ))) := do
  let ks ← zs.mapM fun z => (column c (A.label z)).map fun k => (z, k)
  pure ((List.finRange xs.length).map fun i => ks.map fun zk => A.score θ xs i zk.1 zk.2)

/-- Scores with the current `finetuned_theta` (rps.py:156-182). -/
noncomputable def Attributor.finish (A : Attributor X p c) (s : St p c) (xs : List X) (test : List (List X)) :
    St p c × Except Err (List (List (Option ℝ))) :=
  match layerIO test with
  | .error e => (s, .error e)
  | .ok zs =>
    match s.theta with
    | none => (s, .error .attributeError)
    | some θ => (s, A.scores θ xs zs)

/-- `attribute` (rps.py:101-182). -/
noncomputable def Attributor.attribute' (A : Attributor X p c) (s : St p c) (train test : List (List X)) :
    St p c × Except Err (List (List (Option ℝ))) :=
  match layerIO train with
  | .error e => (s, .error e)
  | .ok xs =>
    if s.cached then A.finish s xs test
    else
      match A.tune xs with
      | .error e => (s, .error e)
      | .ok θ => A.finish { s with theta := some θ } xs test

/-- `__init__` (rps.py:60-69). -/
def St.init : St p c := ⟨false, none⟩

/-- Requests of a user. -/
inductive Op (X : Type)
  | cache (full : List (List X))
  | attribute' (train test : List (List X))

/-- State after a request (exceptions are caught by the user). -/
noncomputable def Attributor.step (A : Attributor X p c) (s : St p c) : Op X → St p c
  | .cache full => (A.cache s full).1
  | .attribute' tr te => (A.attribute' s tr te).1

/-- State after a history. -/
noncomputable def Attributor.run (A : Attributor X p c) (s : St p c) (h : List (Op X)) : St p c := h.foldl A.step s

end Attributor

end Verif.RPS
