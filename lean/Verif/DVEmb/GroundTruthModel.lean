import Verif.Base.Tensor
import Verif.Metric.LDSModel
import Verif.Script.ExperimentModel
import Mathlib.Algebra.Module.Defs
import Mathlib.Algebra.Field.Defs

/-!
# The leave-one-out ground truth of the DVEmb example (`examples/dvemb/_groundtruth_loo_mlp.py`, `examples/dvemb/dvemb_mlp.py`)

Samples are numbers.  The gradient of a sample's loss is an arbitrary function of the parameters; the seeds are set anew for every training (lines 86-88 and
95-99), so that all trainings start from the same parameters and see the samples in the same order, which is therefore a parameter: one list per epoch.
Simplifications: exact arithmetic; the model itself and loading the data are left out.
-/

namespace Verif.LooTruth

variable {K V : Type} [Field K] [AddCommGroup V] [Module K V]

/-- The gradient of the mean loss of a batch (`nn.CrossEntropyLoss()`, _groundtruth_loo_mlp.py:92, 116-117). -/
def meanGrad (K : Type) {V : Type} [Field K] [AddCommGroup V] [Module K V] (g : ℕ → V → V) (B : List ℕ) (θ : V) : V :=
  (B.length : K)⁻¹ • (B.map fun i => g i θ).sum

/-- A step of `torch.optim.SGD` on the mean loss of the samples in `B` (_groundtruth_loo_mlp.py:91, 114-118). -/
def sgd (lr : K) (g : ℕ → V → V) (θ : V) (B : List ℕ) : V := θ - lr • meanGrad K g B θ

/-- One turn of the loop over the batches (_groundtruth_loo_mlp.py:104-118). -/
def looStep (lr : K) (g : ℕ → V → V) (excluded : Option ℕ) (θ : V) (B : List ℕ) : V :=
  match excluded with
  | none => sgd lr g θ B
  | some e =>
    let kept := B.filter (· ≠ e)
    if kept = [] then θ else sgd lr g θ kept

/-- `_train_model` (_groundtruth_loo_mlp.py:85-120) from the initial parameters `θ`; `orders` holds the order of the samples in every epoch. -/
def trainModel (lr : K) (g : ℕ → V → V) (bs : ℕ) (orders : List (List ℕ)) (excluded : Option ℕ) (θ : V) : V :=
  (orders.flatMap (batches bs)).foldl (looStep lr g excluded) θ

/-- `loo_losses` (_groundtruth_loo_mlp.py:172-180): one row per selected sample; `loss t` is the loss of test sample `t` as a function of the parameters. -/
def looLosses (lr : K) (g : ℕ → V → V) (bs : ℕ) (orders : List (List ℕ)) (θ : V) (loss : ℕ → V → K) (tests : ℕ) (selected : List ℕ) : List (List K) :=
  selected.map fun e => (List.range tests).map fun t : ℕ =>
    loss t (trainModel lr g bs orders (some e) θ) - loss t (trainModel lr g bs orders none θ)

/-- One turn of the loop collecting the indices of every label (_groundtruth_loo_mlp.py:149-153); the dictionary as a list in insertion order. -/
def addLabel (d : List (ℕ × List ℕ)) (x : ℕ × ℕ) : List (ℕ × List ℕ) :=
  if d.any (fun p => p.1 = x.1) then d.map fun p => if p.1 = x.1 then (p.1, p.2 ++ [x.2]) else p else d ++ [(x.1, [x.2])]

/-- `label_to_indices` (_groundtruth_loo_mlp.py:148-153). -/
def labelDict (labels : List ℕ) : List (ℕ × List ℕ) := labels.zipIdx.foldl addLabel []

/-- `selected_indices.extend(random.sample(indices, samples_per_class))` (_groundtruth_loo_mlp.py:157-158) for one label; `draw` gives the drawn places. -/
def sampleClass (k : ℕ) (draw : ℕ → List ℕ) (p : ℕ × List ℕ) : Except Err (List ℕ) :=
  if p.2.length < k then .error .valueError else .ok ((draw p.1).map fun j => p.2.getD j 0)

/-- One turn of the loop filling up (_groundtruth_loo_mlp.py:160-162); the label and the index are drawn by their places. -/
def fill (d : List (ℕ × List ℕ)) (pick : ℕ × ℕ) : ℕ := ((d.getD pick.1 (0, [])).2).getD pick.2 0

/-- `selected_indices` (_groundtruth_loo_mlp.py:147-162) when `num` are asked for.  The loop of lines 159-162 appends one index per turn, so that it has as many turns as
indices are missing. -/
def select (labels : List ℕ) (num : ℕ) (draw : ℕ → List ℕ) (pick : ℕ → ℕ × ℕ) : Except Err (List ℕ) := do
  let d := labelDict labels
  if d.length = 0 then throw .zeroDivisionError
  let base ← d.mapM (sampleClass (num / d.length) draw)
  pure (base.flatten ++ (List.range (num - base.flatten.length)).map fun t : ℕ => fill d (pick t))

/-- The contract of `random.sample` and `random.choice`: different places below the size of the population, and places of existing entries. -/
structure Draws (labels : List ℕ) (num : ℕ) (draw : ℕ → List ℕ) (pick : ℕ → ℕ × ℕ) : Prop where
  length : ∀ p ∈ labelDict labels, (draw p.1).length = num / (labelDict labels).length
  nodup : ∀ p ∈ labelDict labels, (draw p.1).Nodup
  lt : ∀ p ∈ labelDict labels, ∀ j ∈ draw p.1, j < p.2.length
  pick_lt : ∀ t, (pick t).1 < (labelDict labels).length
  pick_lt' : ∀ t, (pick t).2 < ((labelDict labels).getD (pick t).1 (0, [])).2.length

/-- The printed correlation of `evaluate` (dvemb_mlp.py:172-191): the rows of the scores named in the file of selected indices (written in lines 168-170 of
_groundtruth_loo_mlp.py) against the rows of the ground truth; `np.mean` of nothing is not-a-number.  Writing and reading the file keeps the list. -/
noncomputable def evaluate (rows tests : ℕ) (score : ℕ → ℕ → ℝ) (selected : List ℕ) (truth : List (List ℝ)) : Except Err (Option ℝ) :=
  if ∃ i ∈ selected, rows ≤ i then .error .indexError
  else if selected.length ≠ truth.length then .error .valueError
  else if ∃ row ∈ truth, row.length < tests then .error .indexError
  else .ok (Experiment.nanMean ((List.range tests).map fun t : ℕ =>
    Metric.spearman (m := selected.length) (fun r => score selected[r] t) fun r => (truth.getD r []).getD t 0))

end Verif.LooTruth
