import Verif.Base.PyDict
import Verif.Metric.RetrainModel

/-!
# Model of `dattri/script/dattri_retrain.py`

The command line `dattri_retrain`: parsing of `--partition` and `--extra_param`, and the call of the retraining helper that `main` makes from
the parsed arguments. `argparse` itself, the download of data sets and the training functions are not modelled.
-/

namespace Verif.Cli

open Verif.Retrain

/-- `str.split(sep)` for a one-character separator (dattri_retrain.py:72, 88). -/
def split (sep : Char) : List Char → List (List Char)
  | [] => [[]]
  | c :: cs =>
    if c = sep then [] :: split sep cs
    else match split sep cs with
      | [] => [[c]]
      | l :: ls => (c :: l) :: ls

/-- White space removed by `int(...)`. Simplified: ASCII only. -/
def isBlank (c : Char) : Bool := c = ' ' || (9 ≤ c.toNat && c.toNat ≤ 13)

/-- `s.strip()`. -/
def strip (s : List Char) : List Char := ((s.dropWhile isBlank).reverse.dropWhile isBlank).reverse

/-- `int(s)` (dattri_retrain.py:72): blanks around, an optional sign, decimal digits. Simplified: underscores between digits and non-ASCII
digits, which Python accepts, are rejected. -/
def pyInt (s : List Char) : Except Err ℤ :=
  match strip s with
  | '-' :: t => (parseNat t).map fun n => -(n : ℤ)
  | '+' :: t => (parseNat t).map fun n => (n : ℤ)
  | t => (parseNat t).map fun n => (n : ℤ)

/-- `int(x) if x.lower() != "none" else None` (dattri_retrain.py:72). -/
def field (s : List Char) : Except Err (Option ℤ) :=
  if s.map Char.toLower = "none".toList then .ok none else (pyInt s).map some

/-- A parsed `--partition`. -/
structure Partition where
  start : Option ℤ
  stop : Option ℤ
  total : Option ℤ
  deriving DecidableEq

/-- `partition_type` (dattri_retrain.py:60-76). -/
def partitionType (arg : List Char) : Except Err Partition := do
  let res ← (split ',' arg).mapM field
  match res with
  | [a, b, c] => .ok ⟨a, b, c⟩
  | _ => .error .valueError

/-- A value of `--extra_param`. -/
inductive Val
  | int (n : ℕ)
  | str (s : List Char)
  deriving DecidableEq

/-- `key_value_pair` (dattri_retrain.py:79-91): `arg.split("=")` must have two parts; a value made of digits becomes an integer. -/
def keyValuePair (arg : List Char) : Except Err (List Char × Val) :=
  match split '=' arg with
  | [key, value] =>
    match parseNat value with
    | .ok n => .ok (key, .int n)
    | .error _ => .ok (key, .str value)
  | _ => .error .valueError

/-- `--mode` (dattri_retrain.py:44, 122-128). -/
inductive Mode
  | loo
  | lds
  deriving DecidableEq

/-- The arguments that decide which retraining is run (dattri_retrain.py:99-170); `extra` are the parsed `--extra_param`s in order. -/
structure Args where
  mode : Mode
  trainSubset : ℤ
  partition : Partition
  extra : List (List Char × Val)

/-- Values in `kwargs` (dattri_retrain.py:205-214). -/
inductive Kw
  | indices (l : List ℤ)
  | num (z : ℤ)
  | extra (v : Val)
  deriving DecidableEq

/-- `list(range(a, b))` (dattri_retrain.py:212). -/
def pyRange (a b : ℤ) : List ℤ := (List.range (b - a).toNat).map fun i : ℕ => a + (i : ℤ)

/-- `len(train_loader.sampler)` (dattri_retrain.py:188-198): `SubsetRandomSampler(list(range(train_subset)))` if `train_subset` is positive,
whatever the size of the data set; otherwise the random sampler of the whole data set. -/
def samplerLen (a : Args) (dataLen : ℕ) : ℕ := if a.trainSubset > 0 then a.trainSubset.toNat else dataLen

/-- The names passed explicitly to the helper (dattri_retrain.py:216-222; `train_func` is its first positional parameter); a second value in
`kwargs` for one of them is a `TypeError`. -/
def reserved : List (List Char) := ["train_func".toList, "dataloader".toList, "path".toList, "seed".toList]

/-- `kwargs` just before the call of the helper (dattri_retrain.py:200-214) without `device`. `int(None)` is a `TypeError`. -/
def kwargs (a : Args) (dataLen : ℕ) : Except Err (List (List Char × Kw)) := do
  let stop := a.partition.stop.getD (if a.mode = .loo then (dataLen : ℤ) else 100)
  let total := a.partition.total.getD (if a.mode = .loo then (dataLen : ℤ) else 100)
  match a.partition.start with
  | none => .error .typeError
  | some start =>
    let base : List (List Char × Kw) :=
      match a.mode with
      | .lds => [("num_subsets".toList, .num (stop - start)), ("total_num_subsets".toList, .num total), ("start_id".toList, .num start)]
      | .loo => [("indices".toList, .indices (pyRange start stop))]
    .ok (a.extra.foldl (fun m p => PyDict.set p.1 (Kw.extra p.2) m) base)

/-- The keyword arguments with which the helper is entered (dattri_retrain.py:216-222). -/
def call (a : Args) (dataLen : ℕ) : Except Err (List (List Char × Kw)) := do
  let kw ← kwargs a dataLen
  if kw.any (fun p => reserved.contains p.1) then .error .typeError else .ok kw

variable {M : Type}

/-- `dattri_retrain --mode loo` (dattri_retrain.py:205-222): the directories written by `retrain_loo` (retrain.py:24-133) with the models in
them. Simplified: an `--extra_param` called `indices` replaces the list by a number or a text, which is not followed further (`none`). -/
def mainLoo (train : List ℕ → Option ℕ → M) (a : Args) (dataLen seed : ℕ) : Except Err (Option (List (List Char × M))) := do
  let kw ← call a dataLen
  match PyDict.get? kw "indices".toList with
  | some (.indices l) => .ok (some (retrainLoo train (samplerLen a dataLen) (some l) (some seed)))
  | _ => .ok none

/-- `int(data_length * subset_ratio)` (retrain.py:230) for the default ratio `0.5` and for a ratio given by `--extra_param`: a text is repeated
`data_length` times by `*`. -/
def subsetLength (n : ℕ) (ratio : Option Val) : Except Err ℤ :=
  match ratio with
  | none => .ok ((n / 2 : ℕ) : ℤ)
  | some (.int r) => .ok ((n * r : ℕ) : ℤ)
  | some (.str s) => pyInt (List.replicate n s).flatten

/-- `dattri_retrain --mode lds` (dattri_retrain.py:205-222): the files written by `retrain_lds` (retrain.py:136-289). Simplified: the call is
followed only if no `--extra_param` is called `num_subsets`, `total_num_subsets` or `start_id`, `num_runs_per_subset` is an integer, and start
and number of subsets are not negative (`none` otherwise). The order of checks is that of `retrain_lds`; its generator is created per subset, so
that a bad length is noticed after the checks of the arguments (a negative one by `rng.choice`). -/
def mainLds {ρ : Type} (choice : ℕ → ℕ → ℕ → List ℕ) (train : List ℕ → ℕ → M) (root : ρ) (a : Args) (dataLen seed : ℕ) :
    Except Err (Option (List (Write ρ M) × Except Err Unit)) := do
  let kw ← call a dataLen
  let runs := match PyDict.get? kw "num_runs_per_subset".toList with
    | none => some 1
    | some (.extra (.int r)) => some r
    | _ => none
  let ratio := match PyDict.get? kw "subset_ratio".toList with
    | some (.extra v) => some v
    | _ => none
  match PyDict.get? kw "num_subsets".toList, PyDict.get? kw "total_num_subsets".toList, PyDict.get? kw "start_id".toList, runs with
  | some (.num num), some (.num total), some (.num start), some runs =>
    if num < 0 ∨ start < 0 then .ok none
    else if total < 0 then .error .valueError
    else if num = 0 then .error .zeroDivisionError
    else if total % num ≠ 0 then .error .valueError
    else
      let k ← subsetLength (samplerLen a dataLen) ratio
      if k < 0 then .error .valueError
      else .ok (some (retrainLds choice train root (samplerLen a dataLen) k.toNat num.toNat runs start.toNat total seed))
  | _, _, _, _ => .ok none

end Verif.Cli
