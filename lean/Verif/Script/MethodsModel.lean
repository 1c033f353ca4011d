import Verif.Base.Tensor
import Mathlib.Data.Rat.Defs

/-!
# The experiment scripts: which attribution a method name stands for

`experiments/gpt2_wikitext/score_TRAK.py`, `experiments/gpt2_wikitext/score_IF.py`, `experiments/benchmark_result.py`, `experiments/benchmark_result_mt.py`,
`experiments/benchmark_result_nanogpt.py`.

Strings are lists of characters.  Simplifications: the limit of 4300 digits Python puts on `int` of a string is left out; the loss functions, the data and
the hyper-parameters other than the checkpoints, the weights and the normalisation are left out (hyper-parameters: C192; loss functions: C201).
-/

namespace Verif.Methods

abbrev Str := List Char

/-- What the script makes of a run: the attributor class, the checkpoints, the weights and whether gradients are normalised. -/
inductive Plan (C : Type)
  | trak (ckpts : List C)
  | tracin (ckpts : List C) (weights : List ℚ) (normalised : Bool)
  | influence (solver : Str) (ckpts : List C)
  | rps (ckpts : List C)

/-- The ways a run ends before attributing: an exception, or argparse rejecting the choice (exit status 2). -/
inductive Stop
  | valueError
  | indexError
  | nameError
  | usage
  deriving DecidableEq

/-! ## Python strings -/

/-- `s.split("-")`. -/
def splitDash : Str → List Str
  | [] => [[]]
  | c :: s =>
    if c = '-' then [] :: splitDash s
    else match splitDash s with
      | [] => [[c]]
      | p :: ps => (c :: p) :: ps

/-- What Python knows about digits: `isdigit` also holds of characters without a decimal value (such as superscripts), for which `int` raises
`ValueError`; `int` and `isdigit` know decimal digits of other scripts, too. -/
structure Digits where
  isDigit : Char → Bool
  value : Char → Option ℕ
  dash : isDigit '-' = false
  ascii : ∀ k, k < 10 → isDigit (Nat.digitChar k) = true ∧ value (Nat.digitChar k) = some k

/-- `s.isdigit()`: not empty, and every character a digit. -/
def Digits.isdigit (D : Digits) (s : Str) : Bool := !s.isEmpty && s.all D.isDigit

/-- `int(s)` for a string with `s.isdigit()`. -/
def Digits.int (D : Digits) (s : Str) : Except Stop ℕ :=
  s.foldlM (fun (n : ℕ) c => match D.value c with
    | some k => .ok (10 * n + k)
    | none => .error .valueError) 0

/-- `f"{output_dir}/{i}"`. -/
def path (dir : Str) (i : ℕ) : Str := dir ++ '/' :: Nat.toDigits 10 i

/-! ## WikiText-2 -/

/-- The method of `score_TRAK.py` (score_TRAK.py:669-733). -/
def scoreTRAK (D : Digits) (dir method : Str) : Except Stop (Plan Str) := do
  let numTrak : Option ℕ ←
    if "TRAK-".toList.isPrefixOf method then
      match splitDash method with
      | [_, p] => if D.isdigit p then (D.int p).map some else .error .valueError
      | _ => .error .valueError
    else if method = "TracIn".toList ∨ method = "Grad-Dot".toList ∨ method = "Grad-Cos".toList then pure none
    else .error .valueError
  let num : ℕ := numTrak.getD 5
  let ckpts := (List.range num).map (path dir)
  if "TRAK".toList.isPrefixOf method then pure (.trak ckpts)
  else pure (.tracin ckpts (List.replicate num (1 / 1000)) (decide (method = "Grad-Cos".toList)))

/-- The method of `score_IF.py` (score_IF.py:634-677). -/
def scoreIF (dir method : Str) : Except Stop (Plan Str) :=
  let ckpts := (List.range 5).map fun i : ℕ => path dir (i + 10)
  if method = "IFAttributorExplicit".toList then .ok (.influence "explicit".toList ckpts)
  else if method = "IFAttributorCG".toList then .ok (.influence "cg".toList ckpts)
  else if method = "IFAttributorLiSSA".toList then .ok (.influence "lissa".toList ckpts)
  else .error .valueError

/-- `checkpoints_load_func` with its dictionary (score_IF.py:638-649); `load t p` is what `from_pretrained` gives when called as the `t`-th load.  The state
is the dictionary and the number of loads so far. -/
def memoLoad {M : Type} (load : ℕ → Str → M) (st : (Str → Option M) × ℕ) (p : Str) : M × ((Str → Option M) × ℕ) :=
  match st.1 p with
  | some m => (m, st)
  | none => (load st.2 p, (fun q => if q = p then some (load st.2 p) else st.1 q, st.2 + 1))

/-- A series of requests: the models returned and the state afterwards. -/
def memoRun {M : Type} (load : ℕ → Str → M) : (Str → Option M) × ℕ → List Str → List M × ((Str → Option M) × ℕ)
  | st, [] => ([], st)
  | st, p :: ps =>
    let r := memoLoad load st p
    let s := memoRun load r.2 ps
    (r.1 :: s.1, s.2)

/-! ## Benchmarks -/

/-- The three TRAK names and their `int(args.method.split("-")[1])` (benchmark_result.py:172, 186-188; benchmark_result_mt.py:64-65;
benchmark_result_nanogpt.py:76-77). -/
def trakNum (method : Str) : Option ℕ :=
  if method = "TRAK-1".toList then some 1
  else if method = "TRAK-10".toList then some 10
  else if method = "TRAK-50".toList then some 50
  else none

/-- The names of the TracIn family (benchmark_result.py:154, 264; benchmark_result_mt.py:113; benchmark_result_nanogpt.py:118). -/
def isTracIn (method : Str) : Bool := method = "TracIn".toList || method = "Grad-Dot".toList || method = "Grad-Cos".toList

/-- `weight_list=torch.ones(ensemble) * 1e-3` and `normalized_grad` (benchmark_result.py:265-276; benchmark_result_mt.py:114-120, 146-147;
benchmark_result_nanogpt.py:119-125, 150-151). -/
def tracinPlan {C : Type} (method : Str) (ckpts : List C) : Plan C :=
  .tracin ckpts (List.replicate (if method = "TracIn".toList then 10 else 1) (1 / 1000)) (decide (method = "Grad-Cos".toList))

/-- `models_full[0:10]` for TracIn, otherwise `models_full[0]`, which `AttributionTask` puts in a list (benchmark_result.py:167-169;
benchmark_result_mt.py:139-141; task.py:129-132). -/
def tracinCkpts {C : Type} (method : Str) (full : List C) : Except Stop (List C) :=
  if method = "TracIn".toList then .ok (full.take 10)
  else match full with
    | [] => .error .indexError
    | c :: _ => .ok [c]

/-- The methods of `benchmark_result.py` (benchmark_result.py:80-98, 140-210, 216-311). -/
def benchmark {C : Type} (half full : List C) (method : Str) : Except Stop (Plan C) :=
  if method = "if-explicit".toList ∨ method = "if-cg".toList ∨ method = "if-lissa".toList ∨ method = "if-arnoldi".toList then
    match full with
    | [] => .error .indexError
    | c :: _ => .ok (.influence (method.drop 3) [c])
  else if isTracIn method then (tracinCkpts method full).map (tracinPlan method)
  else match trakNum method with
    | some n => .ok (.trak (half.take n))
    | none =>
      if method = "RPS".toList then
        match full with
        | [] => .error .indexError
        | c :: _ => .ok (.rps [c])
      else .error .usage

/-- The methods of `benchmark_result_mt.py` (benchmark_result_mt.py:18-31, 64-151). -/
def benchmarkMT {C : Type} (half full : List C) (method : Str) : Except Stop (Plan C) :=
  match trakNum method with
  | some n => .ok (.trak (half.take n))
  | none => if isTracIn method then (tracinCkpts method full).map (tracinPlan method) else .error .usage

/-- `load_model_from_checkpoint` (benchmark_result_nanogpt.py:21-31): the keys without the prefix left by `torch.compile`.  A Python dictionary with keys
in order of first insertion; assigning to a key that is there keeps its place. -/
def assign {V : Type} (d : List (Str × V)) (k : Str) (v : V) : List (Str × V) :=
  if d.any (fun x => x.1 = k) then d.map (fun x => if x.1 = k then (k, v) else x) else d ++ [(k, v)]

/-- `k[len("_orig_mod."):]` if `k.startswith("_orig_mod.")` (benchmark_result_nanogpt.py:27-30). -/
def strip (k : Str) : Str := if "_orig_mod.".toList.isPrefixOf k then k.drop 10 else k

def loadState {V : Type} (sd : List (Str × V)) : List (Str × V) := sd.foldl (fun d x => assign d (strip x.1) x.2) []

/-- The methods of `benchmark_result_nanogpt.py` (benchmark_result_nanogpt.py:36-49, 63-155): the state dictionaries are loaded eagerly; `models_half[0]` is read
first (line 63); the name `TracInProjectionParams` (line 127) is neither imported nor defined. -/
def benchmarkNano {V : Type} (half : List (List (Str × V))) (method : Str) : Except Stop (Plan (List (Str × V))) :=
  if (trakNum method).isNone && !isTracIn method then .error .usage
  else if half.isEmpty then .error .indexError
  else match trakNum method with
    | some n => .ok (.trak ((half.take n).map loadState))
    | none => .error .nameError

end Verif.Methods
