import Mathlib.Algebra.Field.Defs
import Mathlib.Data.Nat.Digits.Defs
import Mathlib.Data.List.Sort
import Mathlib.Logic.Function.Basic
import Verif.Base.Tensor

/-!
# Model of `dattri/model_util/retrain.py` and `dattri/metric/ground_truth.py`

The file system is a map from paths to contents; a call is modelled by the sequence of files it writes together with its outcome, so that
the files left by several workers are obtained by applying any interleaving of their writes.

Simplifications: `train_func` is a function of the positions of its data subset and of the seed it is given (its own use of global random
state is not modelled); `numpy`'s `Generator.choice(n, k, replace=False)` is a function of the generator seed, `n` and `k`.
-/

namespace Verif.Retrain

/-! ## Text files -/

/-- A decimal digit. -/
def digitChar (d : ℕ) : Char := Char.ofNat (48 + d)

/-- `str(n)` for a natural number. -/
def str (n : ℕ) : List Char := if n = 0 then ['0'] else (Nat.digits 10 n).reverse.map digitChar

/-- `str(z)` / f-string rendering of an integer. -/
def strInt (z : ℤ) : List Char := if z < 0 then '-' :: str z.natAbs else str z.natAbs

/-- `"\n".join(lines)` (retrain.py:257). -/
def joinLines : List (List Char) → List Char
  | [] => []
  | [l] => l
  | l :: ls => l ++ '\n' :: joinLines ls

/-- `text.splitlines()` (ground_truth.py:182). Simplified: `\n` is the only line boundary (the others never occur in the files written). -/
def splitLines : List Char → List (List Char)
  | [] => []
  | c :: cs =>
    if c = '\n' then [] :: splitLines cs
    else match splitLines cs with
      | [] => [[c]]
      | l :: ls => (c :: l) :: ls

/-- `int(s)` for an unsigned decimal string. Simplified: surrounding blanks, underscores and non-ASCII digits, which Python accepts, are
rejected. -/
def parseNat (s : List Char) : Except Err ℕ :=
  if s ≠ [] ∧ s.all (fun c => 48 ≤ c.toNat && c.toNat ≤ 57) then .ok (s.foldl (fun a c => 10 * a + (c.toNat - 48)) 0) else .error .valueError

/-- `int(s)` for a decimal string with an optional minus sign. -/
def parseInt : List Char → Except Err ℤ
  | '-' :: s => (parseNat s).map fun n => -(n : ℤ)
  | s => (parseNat s).map fun n => (n : ℤ)

/-- `[int(idx) for idx in f.read().splitlines()]` (ground_truth.py:182). -/
def parseLines (s : List Char) : Except Err (List ℕ) := (splitLines s).mapM parseNat

/-! ## Leave-one-out -/

variable {M : Type} {ρ : Type}

/-- `remaining_indices` (retrain.py:113), with `all_indices = range(len(dataloader.sampler))` (retrain.py:95-98). -/
def remaining (samplerLen : ℕ) (index : ℤ) : List ℕ := (List.range samplerLen).filter fun idx => (idx : ℤ) ≠ index

/-- `retrain_loo` (retrain.py:24-133): for every index the directory `index_{index}` and the model trained on
`Subset(dataloader.dataset, remaining_indices)`. The seed is passed on unchanged.  -/
def retrainLoo (train : List ℕ → Option ℕ → M) (samplerLen : ℕ) (indices : Option (List ℤ)) (seed : Option ℕ) : List (List Char × M) :=
  (indices.getD ((List.range samplerLen).map Int.ofNat)).map fun index =>
    ("index_".toList ++ strInt index, train (remaining samplerLen index) seed)

/-- A directory entry as seen by `Path.iterdir`: its name, whether it is a directory, and the model in `model_weights.pt` if present. -/
structure Entry (M : Type) where
  name : List Char
  isDir : Bool
  weights : Option M
  deriving DecidableEq

/-- `_dir_to_index` (ground_truth.py:20-34). -/
def dirToIndex (name : List Char) : Except Err ℤ := parseInt (name.drop 6)

/-- `target_func(torch.load(model_path), test_dataloader)` (ground_truth.py:87-89). -/
def loadTarget {V : Type} (target : M → V) (e : Entry M) : Except Err V :=
  match e.weights with
  | none => .error .fileNotFoundError
  | some m => .ok (target m)

/-- `calculate_loo_ground_truth` (ground_truth.py:37-95). `listing` is the result of `iterdir()` in file-system order; `sorted(key=...)`
is a stable sort by key. `target` returns the row of target values. The index tensor is kept exact (the code stores it as `float32`). -/
def looGroundTruth {V : Type} (target : M → V) (listing : List (Entry M)) : Except Err (List V × List ℤ) := do
  let dirs := listing.filter fun e => e.isDir && "index_".toList.isPrefixOf e.name
  let keyed ← dirs.mapM fun e => (dirToIndex e.name).map fun k => (k, e)
  let sorted := keyed.mergeSort fun a b => decide (a.1 ≤ b.1)
  let rows ← sorted.mapM fun p => loadTarget target p.2
  .ok (rows, sorted.map Prod.fst)

/-! ## Linear datamodeling score -/

/-- Paths of the files written under the root directory `r`. -/
inductive Path (ρ : Type)
  | metadata (r : ρ)
  | indices (r : ρ) (i : ℕ)
  | weights (r : ρ) (i j : ℕ)
  deriving DecidableEq

/-- The fields of `metadata.yml` that are read back (retrain.py:279-287). The directory map sends `i` to `str(path / str(i))`, modelled as
the pair of root and subdirectory. -/
structure Meta (ρ : Type) where
  numSubsets : ℕ
  runs : ℕ
  dirMap : List (ℕ × (ρ × ℕ))

/-- File contents. -/
inductive Content (ρ M : Type)
  | text (s : List Char)
  | model (m : M)
  | yaml (md : Meta ρ)

/-- A file system. -/
abbrev FS (ρ M : Type) := Path ρ → Option (Content ρ M)

/-- A write of a whole file. -/
abbrev Write (ρ M : Type) := Path ρ × Content ρ M

/-- Applying writes in order. -/
def applyWrites [DecidableEq ρ] (fs : FS ρ M) (ws : List (Write ρ M)) : FS ρ M := ws.foldl (fun fs w => Function.update fs w.1 (some w.2)) fs

/-- The files written for subset `i` (loop body of `retrain_lds`, retrain.py:243-271): the sampled indices, then one model per run, with
`rng = default_rng(seed + i)` and `train_seed = seed + i * num_runs_per_subset + j`. -/
def subsetWrites (choice : ℕ → ℕ → ℕ → List ℕ) (train : List ℕ → ℕ → M) (root : ρ) (n k runs seed i : ℕ) : List (Write ρ M) :=
  let idx := choice (seed + i) n k
  (.indices root i, .text (joinLines (idx.map str))) ::
    (List.range runs).map fun j => (.weights root i j, .model (train idx (seed + i * runs + j)))

/-- Metadata written by a worker (retrain.py:274-289). -/
def metaOf (root : ρ) (startId numSubsets runs : ℕ) : Meta ρ :=
  ⟨(startId + 1) * numSubsets, runs, (List.range numSubsets).map fun d => (startId + d, (root, startId + d))⟩

/-- `retrain_lds` (retrain.py:136-289) with an explicit seed. `n = len(dataloader.sampler)`, `k = int(n * subset_ratio)`
(`rng.choice` without replacement raises `ValueError` if `k > n`). Simplified: `num_subsets`, `start_id`, `k` are naturals. -/
def retrainLds (choice : ℕ → ℕ → ℕ → List ℕ) (train : List ℕ → ℕ → M) (root : ρ) (n k numSubsets runs startId : ℕ) (total : ℤ) (seed : ℕ) :
    List (Write ρ M) × Except Err Unit :=
  if total < 0 then ([], .error .valueError)
  else if numSubsets = 0 then ([], .error .zeroDivisionError)
  else if total % numSubsets ≠ 0 then ([], .error .valueError)
  else
    let start := if total = 0 then 0 else startId
    if n < k then ([], .error .valueError)
    else
      let body := (List.range numSubsets).flatMap fun d => subsetWrites choice train root n k runs seed (start + d)
      let md : List (Write ρ M) :=
        if total = 0 ∨ ((start + 1) * numSubsets : ℤ) = total then [(.metadata root, .yaml (metaOf root start numSubsets runs))] else []
      (body ++ md, .ok ())

/-- `metadata["subset_dir_map"][i]`. -/
def lookupDir (md : Meta ρ) (i : ℕ) : Except Err (ρ × ℕ) :=
  match md.dirMap.lookup i with
  | none => .error .keyError
  | some d => .ok d

/-- Reading `indices.txt` of subset `i` (ground_truth.py:180-182). -/
def readIndices (fs : FS ρ M) (md : Meta ρ) (i : ℕ) : Except Err (List ℕ) := do
  let d ← lookupDir md i
  match fs (.indices d.1 d.2) with
  | some (.text s) => parseLines s
  | _ => .error .fileNotFoundError

/-- `target_func(ckpt_path, test_dataloader)` on run `j` of subset `i` (ground_truth.py:187-190); the target function loads the checkpoint. -/
def readTarget {F : Type} (target : M → ℕ → F) (fs : FS ρ M) (md : Meta ρ) (i j : ℕ) : Except Err (ℕ → F) := do
  let d ← lookupDir md i
  match fs (.weights d.1 d.2 j) with
  | some (.model m) => .ok (target m)
  | _ => .error .fileNotFoundError

/-- Division of a tensor entry by an integer; `none` is the NaN (0/0) obtained for zero runs. -/
def divRuns {F : Type} [Field F] (v : F) (runs : ℕ) : Option F := if runs = 0 then none else some (v / runs)

/-- `calculate_lds_ground_truth` (ground_truth.py:98-196). Rows are functions of the test index. -/
def ldsGroundTruth {F : Type} [Field F] [DecidableEq ρ] (target : M → ℕ → F) (dir : ρ) (fs : FS ρ M) :
    Except Err (List (ℕ → Option F) × List (List ℕ)) :=
  match fs (.metadata dir) with
  | some (.yaml md) => do
    let indices ← (List.range md.numSubsets).mapM (readIndices fs md)
    if ∃ a ∈ indices, ∃ b ∈ indices, a.length ≠ b.length then .error .valueError
    else do
      let sums ← (List.range md.numSubsets).mapM fun i =>
        (List.range md.runs).foldlM (fun (acc : ℕ → F) j => (readTarget target fs md i j).map fun v t => acc t + v t) (fun _ => 0)
      .ok (sums.map (fun s t => (divRuns (s t) md.runs).map Neg.neg), indices)
  | _ => .error .fileNotFoundError

end Verif.Retrain
