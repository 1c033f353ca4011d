import Verif.Metric.LDSModel
import Mathlib.Algebra.Order.Field.Basic

/-!
# The experiment scripts: choosing hyper-parameters (`experiments/benchmark_result*.py`) and the correlation on WikiText-2 (`experiments/gpt2_wikitext/spearman.py`)

`none` stands for not-a-number.  Simplifications: exact scores and correlations; training, attribution and printing of anything but the result are left out.
-/

namespace Verif.Experiment

open Verif.Metric

section Search

variable {K γ : Type} [Field K] [LinearOrder K]

/-- `torch.mean(metric_score[~torch.isnan(metric_score)])` (benchmark_result.py:230, 254, 285, 314; benchmark_result_mt.py:157): without a number left, not-a-number. -/
def nanMean (l : List (Option K)) : Option K :=
  if l.filterMap id = [] then none else some ((l.filterMap id).sum / (l.filterMap id).length)

/-- `if metric_score > best_result: …` (benchmark_result.py:233-235, 257-259, 317-319): a comparison with not-a-number is false. -/
def searchStep (best : K × Option γ) (run : γ × List (Option K)) : K × Option γ :=
  match nanMean run.2 with
  | none => best
  | some v => if best.1 < v then (v, some run.1) else best

/-- The loop over the configurations, each with its metric per test sample (benchmark_result.py:213-236, 294-320). -/
def search (runs : List (γ × List (Option K))) : K × Option γ := runs.foldl searchStep (0, none)

/-- What is printed for the influence functions: `best_result` and `best_config` (benchmark_result.py:237). -/
def reportIF (runs : List (γ × List (Option K))) : K × Option γ := search runs

/-- What is printed for RPS: `best_result` and the loop variable `l2`, which holds the last configuration (benchmark_result.py:322). -/
def reportRPS (runs : List (γ × List (Option K))) : K × Option γ := ((search runs).1, (runs.map Prod.fst).getLast?)

end Search

section Spearman

variable {m : ℕ}

/-- `read_nodes` (spearman.py:30-42): the cells of the file, `none` for those that are no integer; these are skipped. -/
def readNodes (rows : List (List (Option ℤ))) : List ℤ := rows.flatten.filterMap id

/-- `full_nodes.index(number)` for `full_nodes = [0, …, full - 1]` (spearman.py:56, 61-63). -/
def nodeIndex (full : ℕ) (number : ℤ) : Except Err ℕ :=
  if 0 ≤ number ∧ number < full then .ok number.toNat else .error .valueError

/-- `node_list` (spearman.py:58-64), one file after the other. -/
def nodeLists (full : ℕ) (files : List (List (List (Option ℤ)))) : Except Err (List (List ℕ)) :=
  files.mapM fun rows => (readNodes rows).mapM (nodeIndex full)

/-- One turn of the loop over the test samples (spearman.py:79-88). -/
noncomputable def corrStep (st : ℝ × ℕ) (tmp : Option ℝ) : ℝ × ℕ :=
  match tmp with
  | none => st
  | some v => (st.1 + v, st.2 + 1)

/-- `calculate_one` (spearman.py:45-92), its first result.  The script has 50 files, `full = 4656` training and `tests = 481` test samples.  The score
matrix has `rows × cols` entries, the ground truth `runs × gtCols`. -/
noncomputable def calculateOne (full tests rows cols : ℕ) (score : ℕ → ℕ → ℝ) (files : List (List (List (Option ℤ)))) (runs gtCols : ℕ) (gt : ℕ → ℕ → ℝ) :
    Except Err ℝ := do
  let lists ← nodeLists full files
  if ∃ l ∈ lists, ∃ k ∈ l, rows ≤ k then throw .indexError
  if runs = 0 then throw .indexError
  if lists.length = 0 then throw .indexError
  if tests ≠ 0 ∧ (cols = 0 ∨ gtCols = 0) then throw .indexError
  if tests ≠ 0 ∧ runs ≠ lists.length then throw .valueError
  if cols < tests ∨ gtCols < tests then throw .indexError
  let out := ((List.range tests).map fun i : ℕ =>
    spearman (m := lists.length) (fun k => ((lists.getD k []).map fun j => score j i).sum) fun k => gt k i).foldl corrStep (0, 0)
  if out.2 = 0 then throw .zeroDivisionError
  pure (out.1 / out.2)

end Spearman

end Verif.Experiment
