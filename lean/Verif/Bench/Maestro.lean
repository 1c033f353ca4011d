import Mathlib.Data.Rat.Defs
import Mathlib.Algebra.BigOperators.Group.List.Basic
import Mathlib.Algebra.Order.Field.Rat
import Mathlib.Tactic.FieldSimp
import Mathlib.Tactic.Ring
import Verif.Base.Tensor

/-!
# Model of the MusicTransformer training (`dattri/benchmark/datasets/maestro/maestro_musictransformer.py`) and its evaluation
(`dattri/benchmark/models/MusicTransformer/utilities/run_model.py`, `dataset/e_piano.py`)
-/

namespace Verif.Maestro

/-- A float that is a non-negative number, infinite or not a number. Simplified: exact arithmetic. -/
inductive Fl
  | num (q : ℚ)
  | inf
  | nan
  deriving DecidableEq

/-- `a + b`; losses are not negative. -/
def Fl.add : Fl → Fl → Fl
  | .num a, .num b => .num (a + b)
  | .nan, _ => .nan
  | _, .nan => .nan
  | _, _ => .inf

/-- `a / n` for a positive number of batches. -/
def Fl.div (n : ℕ) : Fl → Fl
  | .num a => .num (a / n)
  | .inf => .inf
  | .nan => .nan

/-- `a < b`: false if one of them is not a number. -/
def Fl.lt : Fl → Fl → Bool
  | .num a, .num b => decide (a < b)
  | .num _, .inf => true
  | _, _ => false

/-- `compute_epiano_accuracy` (e_piano.py:206-238) on the predicted tokens (the `argmax` is a parameter) and the targets. -/
def epianoAccuracy (pad : ℕ) (out tgt : List ℕ) : ℚ :=
  let kept := (out.zip tgt).filter fun x => x.2 ≠ pad
  if kept.length = 0 then 1
  else ((kept.filter fun x => x.1 = x.2).length : ℚ) / kept.length

/-- `nn.CrossEntropyLoss(ignore_index=TOKEN_PAD)` with its default reduction on the per-token losses: the mean over the tokens that are not
ignored, which is 0/0 if there are none (maestro_musictransformer.py:146). -/
def meanLoss (pad : ℕ) (losses : List ℚ) (tgt : List ℕ) : Fl :=
  let kept := (losses.zip tgt).filter fun x => x.2 ≠ pad
  if kept.length = 0 then .nan else .num ((kept.map Prod.fst).sum / kept.length)

/-- A batch as seen by the evaluation: for each sample the predicted last token, its loss and the target. -/
structure Sample where
  out : ℕ
  loss : ℚ
  tgt : ℕ
  deriving DecidableEq

/-- `eval_model` (run_model.py:68-109): the average loss and accuracy of the batches; `sum / 0` raises `ZeroDivisionError`. -/
def evalModel (pad : ℕ) (batches : List (List Sample)) : Except Err (Fl × ℚ) :=
  let sums := batches.foldl (fun (s : Fl × ℚ) b =>
    (s.1.add (meanLoss pad (b.map (·.loss)) (b.map (·.tgt))), s.2 + epianoAccuracy pad (b.map (·.out)) (b.map (·.tgt)))) (.num 0, 0)
  if batches.length = 0 then .error .zeroDivisionError
  else .ok (sums.1.div batches.length, sums.2 / batches.length)

/-- The local variables of the training loop. `world` is the state of the model object, the optimiser and the random generators. The assignment
`best_model = model` binds another name to the one model object there is, so it is recorded as a flag. -/
structure St (W : Type) where
  world : W
  bestBound : Bool
  bestAcc : ℚ
  bestLoss : Fl

/-- One round of the loop (maestro_musictransformer.py:160-201): `train` is `train_epoch`, `eval` a pass of `eval_model` over the loader. -/
def round {W : Type} (pad : ℕ) (train : W → W) (eval : W → List (List Sample) × W) (st : St W) (epoch : ℤ) : Except Err (St W) := do
  let w := if -1 < epoch then train st.world else st.world
  let (evalLoss, evalAcc) ← evalModel pad (eval w).1
  let better := decide (st.bestAcc < evalAcc)
  let lower := evalLoss.lt st.bestLoss
  .ok { world := (eval w).2, bestBound := if better || lower then true else st.bestBound,
        bestAcc := if better then evalAcc else st.bestAcc, bestLoss := if lower then evalLoss else st.bestLoss }

/-- `range(-1, num_epoch)`. -/
def epochs (numEpoch : ℤ) : List ℤ := (List.range (numEpoch + 1).toNat).map fun i : ℕ => (i : ℤ) - 1

/-- `train_maestro_musictransformer` (maestro_musictransformer.py:100-211), from the state in which the model has been created. Returns what the
returned model object contains. Using `best_model` before any assignment raises `UnboundLocalError`. -/
def trainMaestro {W : Type} (pad : ℕ) (train : W → W) (eval : W → List (List Sample) × W) (w : W) (numEpoch : ℤ) : Except Err W := do
  let st ← (epochs numEpoch).foldlM (round pad train eval) ⟨w, false, 0, .inf⟩
  if st.bestBound then .ok st.world else .error .unboundLocalError

end Verif.Maestro
