import Mathlib.Analysis.SpecialFunctions.Trigonometric.Basic
import Mathlib.Data.List.Infix
import Mathlib.Data.Rat.Floor
import Verif.Base.Tensor

/-!
# Retraining nanoGPT: model

`dattri/script/dattri_retrain_nanogpt.py` and the parts of `dattri/benchmark/models/nanoGPT/train.py` that choose
the data, the learning rate and the checkpoints.
-/

namespace Verif.NanoGPT

/-! ### dattri_retrain_nanogpt.py -/

/-- A line of the configuration that is written.  Numbers and paths are kept as values, not printed. -/
inductive Line
  | text (s : List Char)
  | outDir (save : List Char) (model : ℤ)
  | seed (s : ℤ)
  | ratio (r : ℚ)
  | dataset (path : List Char)
  deriving DecidableEq

/-- One line of the loop in lines 71-81 of dattri_retrain_nanogpt.py. -/
def rewriteLine (save dataset : List Char) (ratio : ℚ) (i seed : ℤ) (line : List Char) : Line :=
  if "out_dir".toList <+: line then .outDir save (i + 1)
  else if "seed".toList <+: line then .seed seed
  else if "subset_ratio".toList <+: line then .ratio ratio
  else if "dataset_path".toList <+: line then .dataset dataset
  else .text line

/-- The configurations in the loop of lines 69-91: one per model, with the seed counted along. -/
def configs (save dataset : List Char) (ratio : ℚ) (config : List (List Char)) : ℕ → ℤ → ℤ → List (List Line)
  | 0, _, _ => []
  | n + 1, i, seed =>
    (config.map (rewriteLine save dataset ratio i seed) ++ [.dataset dataset]) ::
      configs save dataset ratio config n (i + 1) (seed + 1)

/-- `retrain` (dattri_retrain_nanogpt.py:16-91): the configurations the training script is run with, in this order.
Preparing the data set (lines 41-47) is left out; the exit status of the runs is ignored by the code. -/
def retrain (seed : ℤ) (ratio : ℚ) (config : List (List Char)) (dataset save : List Char) (start stop total : ℤ)
    (onlyDownload : Bool) : Except Err (List (List Line)) :=
  if onlyDownload then .ok []
  else
    let stop := min stop total
    if ratio ≤ 0 then .error .valueError
    else if 1 < ratio then .error .valueError
    else .ok (configs save dataset ratio config (stop - start).toNat start (seed + start - 1))

/-- `np.random.seed(seed)` (train.py:92) accepts these seeds only. -/
def seedAccepted (s : ℤ) : Prop := 0 ≤ s ∧ s < 2 ^ 32

/-! ### train.py: which blocks -/

/-- `initialize_indices` (train.py:108-117): the saved block numbers and the block starts.  `perm` is the outcome of
`torch.randperm(block_count)`; `int(block_count * subset_ratio)` is taken in exact arithmetic. -/
def initIndices (n block : ℕ) (ratio : ℚ) (perm : List ℕ) : Except Err (List ℕ × List ℕ) :=
  if block = 0 then .error .zeroDivisionError
  else
    let count := n / block
    let full := if ratio < 1 then perm.take ⌊(count : ℚ) * ratio⌋.toNat else List.range count
    .ok (full, full.map (· * block))

/-- `get_batch_indices` (train.py:123-130) for `len` indices: the position of the first index of the batch, and the
new `current_index`. -/
def nextBatch (len bs cur : ℕ) : ℕ × ℕ :=
  let c := if cur + bs > len then 0 else cur
  (c, c + bs)

/-- `current_index` after one call of `get_batch`, with either split (train.py:138 is executed for both). -/
def advance (len bs cur : ℕ) : ℕ := (nextBatch len bs cur).2

/-- The state of the training loop: `current_index`, the position of the batch held in `X, Y`, and the positions of
the batches of all gradient computations so far. -/
structure Loop where
  cur : ℕ
  held : ℕ
  used : List ℕ

/-- One turn of the loop over `micro_step` (train.py:373-378). -/
def micro (len bs : ℕ) (s : Loop) : Loop :=
  let r := nextBatch len bs s.cur
  ⟨r.2, r.1, s.used ++ [s.held]⟩

/-- One iteration of the training loop (train.py:328-402): `E` is `eval_interval` (positive: 0 is a division by
zero), `I` is `eval_iters`, `G` is `gradient_accumulation_steps`; the evaluation (train.py:289-301) fetches `I` batches
of each split.  One process; `eval_only` is false. -/
def iteration (len bs E I G t : ℕ) (s : Loop) : Loop :=
  let s1 : Loop := if t % E = 0 then ⟨(advance len bs)^[2 * I] s.cur, s.held, s.used⟩ else s
  (micro len bs)^[G] s1

/-- The loop before iteration `T`, beginning with the fetch of line 323. -/
def loop (len bs E I G : ℕ) : ℕ → Loop
  | 0 => ⟨(nextBatch len bs 0).2, (nextBatch len bs 0).1, []⟩
  | T + 1 => iteration len bs E I G T (loop len bs E I G T)

/-- The blocks of a batch: `indices[c:c + batch_size]` (train.py:128). -/
def batchOf (indices : List ℕ) (bs pos : ℕ) : List ℕ := (indices.drop pos).take bs

/-- `torch.stack`: at least one row, equal lengths. -/
def stack (rows : List (List ℕ)) : Except Err (List (List ℕ)) :=
  match rows with
  | [] => .error .runtimeError
  | first :: _ => if ∀ r ∈ rows, r.length = first.length then .ok rows else .error .runtimeError

/-- The two stacks of `get_batch` (train.py:142-143). -/
def getBatch (data : List ℕ) (block : ℕ) (ix : List ℕ) : Except Err (List (List ℕ) × List (List ℕ)) := do
  let x ← stack (ix.map fun i => (data.drop i).take block)
  let y ← stack (ix.map fun i => (data.drop (i + 1)).take block)
  return (x, y)

/-! ### train.py: checkpoints -/

/-- `best_val_loss` and the iteration of the saved checkpoint. -/
structure Ckpt where
  best : ℚ
  saved : Option ℕ

/-- An evaluation (train.py:347-359) with `always_save_checkpoint` off or on. -/
def evalStep (always : Bool) (s : Ckpt) (t : ℕ) (val : ℚ) : Ckpt :=
  if val < s.best ∨ always then ⟨val, if 0 < t then some t else s.saved⟩ else s

/-- The evaluations up to iteration `T` (exclusive), every `E` iterations (`E` positive; `iter_num % 0` raises in Python); `best_val_loss` begins at
1e9 (train.py:208). -/
def ckpt (always : Bool) (E : ℕ) (val : ℕ → ℚ) : ℕ → Ckpt
  | 0 => ⟨10 ^ 9, none⟩
  | T + 1 => if T % E = 0 then evalStep always (ckpt always E val T) T (val T) else ckpt always E val T

/-! ### train.py: learning rate -/

/-- `get_lr` (train.py:304-315) over the reals; a division by zero is an error, and so is a failing assertion. -/
noncomputable def getLr (lr minLr : ℝ) (warmup decay it : ℤ) : Except Err ℝ :=
  if it < warmup then
    (if warmup = 0 then .error .zeroDivisionError else .ok (lr * it / warmup))
  else if decay < it then .ok minLr
  else if decay - warmup = 0 then .error .zeroDivisionError
  else
    let ratio : ℝ := (it - warmup : ℝ) / (decay - warmup : ℝ)
    if 0 ≤ ratio ∧ ratio ≤ 1 then
      .ok (minLr + 1 / 2 * (1 + Real.cos (Real.pi * ratio)) * (lr - minLr))
    else .error .assertionError

end Verif.NanoGPT
