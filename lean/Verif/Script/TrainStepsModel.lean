import Verif.Base.Tensor

/-!
# Steps, checkpoints and resuming in the GPT-2 experiment (`experiments/gpt2_wikitext/train.py`)

Batches are named by epoch and place in the loader; an update of the parameters is the list of batches whose gradients it uses.  `accelerate` is modelled by its
documentation: inside `accumulate` the optimizer makes a step after every `gradient_accumulation_steps` batches and after the last batch of the loader, where counting
starts anew.  Simplifications: one process; the optimizer's arithmetic, evaluation, logging and uploading are left out; `checkpointing_steps` is not "0".
-/

namespace Verif.TrainSteps

open Verif

/-- What is fixed during a run: number of batches of the loader, `gradient_accumulation_steps`, `checkpointing_steps` if it is a number. -/
structure Cfg where
  L : ℕ
  G : ℕ
  ckpt : Option ℕ

/-- The state: updates made in this run, batches accumulated since, the counter of `accelerate`, `completed_steps`, the saved `step_…` checkpoints. -/
structure St where
  updates : List (List (ℕ × ℕ))
  pending : List (ℕ × ℕ)
  astep : ℕ
  completed : ℕ
  saves : List ℕ

/-- `num_update_steps_per_epoch` (train.py:548, 572): `math.ceil(len(train_dataloader) / gradient_accumulation_steps)`. -/
def perEpoch (c : Cfg) : ℕ := (c.L + c.G - 1) / c.G

/-- `max_train_steps` and `num_train_epochs` (train.py:547-551, 571-576). -/
def totals (c : Cfg) (maxSteps : Option ℕ) (epochs : ℕ) : Except Err (ℕ × ℕ) :=
  if c.G = 0 then .error .zeroDivisionError
  else if perEpoch c = 0 then .error .zeroDivisionError
  else .ok (maxSteps.getD (epochs * perEpoch c), (maxSteps.getD (epochs * perEpoch c) + perEpoch c - 1) / perEpoch c)

/-- One batch (train.py:647-669): accumulate, perhaps an update, perhaps a checkpoint. -/
def batchStep (c : Cfg) (e : ℕ) (s : St) (j : ℕ) : St :=
  let astep := if j + 1 = c.L then 0 else s.astep + 1
  if j + 1 = c.L ∨ astep % c.G = 0 then
    ⟨s.updates ++ [s.pending ++ [(e, j)]], [], astep, s.completed + 1,
      s.saves ++ (if c.ckpt.any (fun k => (s.completed + 1) % k = 0) then [s.completed + 1] else [])⟩
  else ⟨s.updates, s.pending ++ [(e, j)], astep, s.completed, s.saves⟩

/-- The loop over the batches of an epoch, left when enough steps are made (train.py:647-671). -/
def epochRun (c : Cfg) (maxSteps e : ℕ) : List ℕ → St → St
  | [], s => s
  | j :: js, s => if maxSteps ≤ (batchStep c e s j).completed then batchStep c e s j else epochRun c maxSteps e js (batchStep c e s j)

/-- The loop over the epochs (train.py:638-671); in the first one `skip` batches are left out. -/
def loop (c : Cfg) (maxSteps epochs start skip : ℕ) (s : St) : St :=
  (List.range' start (epochs - start)).foldl
    (fun s e => epochRun c maxSteps e ((List.range c.L).drop (if e = start then skip else 0)) s) s

/-- The checkpoint a run is resumed from, by its name (train.py:621-633). -/
inductive Resume where
  | fresh
  | epoch (i : ℕ)
  | step (i : ℕ)

/-- `starting_epoch`, the number of batches to skip, and `completed_steps` (train.py:603-604, 624-633). -/
def position (c : Cfg) : Resume → ℕ × ℕ × ℕ
  | .fresh => (0, 0, 0)
  | .epoch i => (i + 1, 0, (i + 1) * perEpoch c)
  | .step i => (i * c.G / c.L, i * c.G - i * c.G / c.L * c.L, i * c.G / c.G)

/-- The run from the arguments to the files written at the end (train.py:546-576, 603-671, 728-748).  `astep` is the counter of `accelerate` after loading the state.  `perplexity`
is only assigned inside the loop over the epochs (lines 685, 687, 745). -/
def script (c : Cfg) (maxSteps : Option ℕ) (epochs : ℕ) (r : Resume) (astep : ℕ) (outputDir : Bool) : Except Err St := do
  let t ← totals c maxSteps epochs
  let p := position c r
  let s := loop c t.1 t.2 p.1 p.2.1 ⟨[], [], astep, p.2.2, []⟩
  if outputDir ∧ t.2 ≤ p.1 then throw .unboundLocalError
  pure s

end Verif.TrainSteps
