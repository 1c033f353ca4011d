import Mathlib.Algebra.Order.Ring.Int
import Mathlib.Data.List.Basic
import Verif.Base.Tensor
import Verif.Metric.RetrainModel

/-!
# Random state in `dattri/model_util/retrain.py` and in the benchmark's training functions

`Verif.Metric.RetrainModel` treats the training function as a function of its data and its seed. Here the random state of the process is
explicit: retraining is a state machine on the three global generators (torch, numpy's legacy generator, Python's `random`), and a training
function may read and advance any of them.

Simplifications: one torch generator (the CUDA ones are seeded alongside, retrain.py:238); directories and metadata are left out (they are the
subject of `RetrainModel`), so that the events recorded are the model files and the index files in the order they are written.
-/

namespace Verif.RetrainSeed

open Verif.Retrain (remaining)

/-- The global generators of the process: `torch.default_generator`, `np.random`'s legacy state, `random`'s state. -/
structure World (G N P : Type) where
  torch : G
  np : N
  py : P
  deriving DecidableEq

/-- What is used of the generator libraries: the state after seeding, and `random.getrandbits(64)` (retrain.py:213). -/
structure Gen (G N P : Type) where
  seedT : ℤ → G
  seedN : ℤ → N
  seedP : ℤ → P
  bits : P → ℕ × P

variable {G N P M : Type}

/-- `torch.manual_seed(seed)` (retrain.py:93, 237): `RuntimeError` outside the range -2^63 .. 2^64 - 1. -/
def manualSeed (E : Gen G N P) (s : ℤ) (w : World G N P) : Except Err (World G N P) :=
  if -2 ^ 63 ≤ s ∧ s < 2 ^ 64 then .ok { w with torch := E.seedT s } else .error .runtimeError

/-- `np.random.seed(seed)` (mnist_lr.py:36): `ValueError` outside the range 0 .. 2^32 - 1. -/
def npSeed (E : Gen G N P) (s : ℤ) (w : World G N P) : Except Err (World G N P) :=
  if 0 ≤ s ∧ s < 2 ^ 32 then .ok { w with np := E.seedN s } else .error .valueError

/-- `np.random.default_rng(seed)` (retrain.py:233, 245; wikitext2_gpt2.py:35): `ValueError` for a negative seed. It makes a generator of its
own and leaves the global one. -/
def defaultRng (s : ℤ) : Except Err Unit := if s < 0 then .error .valueError else .ok ()

/-- `random.seed(seed)` (mnist_lr.py:37), which accepts every integer. -/
def pySeed (E : Gen G N P) (s : ℤ) (w : World G N P) : World G N P := { w with py := E.seedP s }

/-- A training function as it is called by `train_func(loader, seed=seed, **kwargs)` (retrain.py:126, 265): the seed, whether the loader
shuffles, the positions of the data. It may read and change the random state. -/
abbrev Trainer (G N P M : Type) := Option ℤ → Bool → List ℕ → World G N P → Except Err (M × World G N P)

/-- The training functions of the benchmark that begin with `torch.manual_seed(seed); np.random.seed(seed); random.seed(seed)`
(mnist_lr.py:35-37, mnist_mlp.py:32-34, cifar_resnet9.py:36-38, imagenet_resnet18.py:34-36, maestro_musictransformer.py:118-120); `body` is what
follows. `torch.manual_seed(None)` raises `TypeError`. -/
def bench (E : Gen G N P) (body : Bool → List ℕ → World G N P → M × World G N P) : Trainer G N P M := fun seed sh idx w =>
  match seed with
  | none => .error .typeError
  | some s => do
    let w ← manualSeed E s w
    let w ← npSeed E s w
    .ok (body sh idx (pySeed E s w))

/-- `train_wikitext2_gpt2` (wikitext2_gpt2.py:34-36), which calls `np.random.default_rng(seed)` instead of `np.random.seed(seed)`. -/
def benchGpt (E : Gen G N P) (body : Bool → List ℕ → World G N P → M × World G N P) : Trainer G N P M := fun seed sh idx w =>
  match seed with
  | none => .error .typeError
  | some s => do
    let w ← manualSeed E s w
    let _ ← defaultRng s
    .ok (body sh idx (pySeed E s w))

/-- A training function without a `seed` parameter, as in the example of the documentation of `retrain_loo` (retrain.py:41-53): the call with
`seed=seed` raises `TypeError`. -/
def noSeedParam : Trainer G N P M := fun _ _ _ _ => .error .typeError

/-- A training function that does not fail. -/
def total (t : Option ℤ → Bool → List ℕ → World G N P → M × World G N P) : Trainer G N P M := fun seed sh idx w => .ok (t seed sh idx w)

/-- A loop whose body writes files, changes the random state and may raise. -/
def loopW {α ε : Type} (f : α → World G N P → List ε × Except Err (World G N P)) : List α → World G N P → List ε × Except Err (World G N P)
  | [], w => ([], .ok w)
  | a :: as, w =>
    match f a w with
    | (es, .error e) => (es, .error e)
    | (es, .ok w') => (es ++ (loopW f as w').1, (loopW f as w').2)

/-- Body of the loop of `retrain_loo` (retrain.py:112-129): the loader over the remaining positions does not shuffle, the seed is handed on
unchanged. -/
def looBody (train : Trainer G N P M) (n : ℕ) (seed : Option ℤ) (index : ℤ) (w : World G N P) :
    List (ℤ × M) × Except Err (World G N P) :=
  match train seed false (remaining n index) w with
  | .error e => ([], .error e)
  | .ok (m, w') => ([(index, m)], .ok w')

/-- `retrain_loo` (retrain.py:88-129): the models saved, by removed index, and the random state left behind. `n` is `len(dataloader.sampler)`. -/
def retrainLoo (E : Gen G N P) (train : Trainer G N P M) (n : ℕ) (indices : Option (List ℤ)) (seed : Option ℤ) (w : World G N P) :
    List (ℤ × M) × Except Err (World G N P) :=
  let l := indices.getD ((List.range n).map Int.ofNat)
  match seed with
  | none => loopW (looBody train n none) l w
  | some s =>
    match manualSeed E s w with
    | .error e => ([], .error e)
    | .ok w => loopW (looBody train n (some s)) l w

/-- A file written by `retrain_lds`: `{i}/indices.txt` or `{i}/model_weights_{j}.pt`. -/
inductive File (M : Type)
  | indices (i : ℕ) (idx : List ℕ)
  | weights (i j : ℕ) (m : M)
  deriving DecidableEq

/-- One run of one subset (retrain.py:260-268), `train_seed = seed + i * num_runs_per_subset + j`. -/
def runBody (train : Trainer G N P M) (runs : ℕ) (seed : ℤ) (i : ℕ) (idx : List ℕ) (j : ℕ) (w : World G N P) :
    List (File M) × Except Err (World G N P) :=
  match train (some (seed + i * runs + j)) true idx w with
  | .error e => ([], .error e)
  | .ok (m, w') => ([.weights i j m], .ok w')

/-- One subset (retrain.py:243-268): `rng = default_rng(seed + i)`, `rng.choice(n, k, replace=False)` (`ValueError` if `k > n`), the index file,
the runs. -/
def subsetBody (choice : ℤ → ℕ → ℕ → List ℕ) (train : Trainer G N P M) (n k runs : ℕ) (seed : ℤ) (i : ℕ) (w : World G N P) :
    List (File M) × Except Err (World G N P) :=
  match defaultRng (seed + i) with
  | .error e => ([], .error e)
  | .ok _ =>
    if n < k then ([], .error .valueError)
    else
      let idx := choice (seed + i) n k
      let r := loopW (runBody train runs seed i idx) (List.range runs) w
      (.indices i idx :: r.1, r.2)

/-- The seed of `retrain_lds` (retrain.py:211-213): drawn from Python's generator if not given. -/
def ldsSeed (E : Gen G N P) (seed : Option ℤ) (w : World G N P) : ℤ × World G N P :=
  match seed with
  | some s => (s, w)
  | none => ((E.bits w.py).1, { w with py := (E.bits w.py).2 })

/-- `retrain_lds` (retrain.py:211-268). `num_subsets`, `num_runs_per_subset`, `start_id` and `k = int(n * subset_ratio)` are naturals. -/
def retrainLds (E : Gen G N P) (choice : ℤ → ℕ → ℕ → List ℕ) (train : Trainer G N P M) (n k num runs startId : ℕ) (tot : ℤ) (seed : Option ℤ)
    (w : World G N P) : List (File M) × Except Err (World G N P) :=
  let sw := ldsSeed E seed w
  if tot < 0 then ([], .error .valueError)
  else if num = 0 then ([], .error .zeroDivisionError)
  else if tot % num ≠ 0 then ([], .error .valueError)
  else
    let start := if tot = 0 then 0 else startId
    match defaultRng sw.1 with
    | .error e => ([], .error e)
    | .ok _ =>
      match manualSeed E sw.1 sw.2 with
      | .error e => ([], .error e)
      | .ok w => loopW (subsetBody choice train n k runs sw.1) (List.range' start num) w

end Verif.RetrainSeed
